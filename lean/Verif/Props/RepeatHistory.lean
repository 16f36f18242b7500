import Verif.Proofs.RepeatHistory
/-!
# C46: every history of calls on a message with an empty line after its header
-/

namespace Dkim
open Spec

variable {E : Env}

/-- The message after its header was read: `off` is the position of the body. -/
def Spec.headRead (ls : List Bytes) (off : Nat) : Reading := ⟨groupLines ls, [], some off, some off⟩

/-- Text after the empty line does not matter to the header block. -/
theorem Spec.HeadText.extend {pos : Nat} {s : Bytes} {ls : List Bytes} {off : Int} (h : HeadText pos s ls off) (ho : off ≠ -1)
    (t : Bytes) : HeadText pos (s ++ t) ls off := by
  induction h with
  | none pos => exact absurd rfl ho
  | blankLF pos r => exact .blankLF pos (r ++ t)
  | blankCRLF pos r => exact .blankCRLF pos (r ++ t)
  | blankEnd pos => exact absurd rfl ho
  | lastLine => exact absurd rfl ho
  | lastLineCR => exact absurd rfl ho
  | lineLF pos l r ls off h1 h2 h3 _ ih =>
    rw [show l ++ LF :: r ++ t = l ++ LF :: (r ++ t) from by simp]
    exact .lineLF pos l _ ls off h1 h2 h3 (ih ho)
  | lineCRLF pos l r ls off h1 h2 _ ih =>
    rw [show l ++ CR :: LF :: r ++ t = l ++ CR :: LF :: (r ++ t) from by simp]
    exact .lineCRLF pos l _ ls off h1 h2 (ih ho)

theorem first_call (d : Bytes) (ls : List Bytes) (off : Nat) (hd : HeadText 0 d ls off)
    (o : Options E) (clock : Nat → Int) (next : Option Nat) (he : LeavesAt d o.canonBody (limitOf o) (headRead ls off) next) :
    KeptRead d (Signatory.createSignature E o clock { file := freshStream d }).2 { headRead ls off with next := next } := by
  obtain ⟨m, s1, p1, p2⟩ := kept_first d ls off hd
  have := (KeptRead.leaves (sg := { file := freshStream d }) o clock p1 p2).2 next ?_
  · exact this
  · cases he with
    | noBody k => cases k
    | all b k1 k2 => exact .all b k1 k2
    | short b n k1 k2 k3 => exact .short b n k1 k2 k3
    | stop b n k k1 k2 k3 => exact .stop b n k k1 k2 k3

/-- C46, exactly what every later call signs, for every message with an empty line after its header and
every history: any first call (with or without length limit), any further calls, thrown or not. `next` is
where the first call left the stream, `r` what the further calls left, `r'` what the call reads. -/
theorem C46_history_partial (d : Bytes) (ls : List Bytes) (off : Nat) (hd : HeadText 0 d ls off)
    (o1 : Options E) (clock1 : Nat → Int) (next : Option Nat) (he : LeavesAt d o1.canonBody (limitOf o1) (headRead ls off) next)
    (calls : List (Options E × (Nat → Int))) (r : Reading)
    (hf : Further d (calls.map fun c => (c.1.canonBody, limitOf c.1)) { headRead ls off with next := next } r)
    (o : Options E) (clock : Nat → Int) (r' : Reading) (hb : Begins d r r') :
    ((((Signatory.createSignature E o1 clock1 { file := freshStream d }).2).after E calls).createSignature E o clock).1 =
      signParsed E o clock (r'.fields.map mkField) (r'.bodyText d) := by
  have h := (first_call d ls off hd o1 clock1 next he).further calls hf
  obtain ⟨m, s1, p1, p2⟩ := h.begins hb
  exact (KeptRead.leaves o clock p1 p2).1

/-- There is always such a history of readings. -/
theorem C46_history_total (d : Bytes) (ls : List Bytes) (off : Nat) (o1 : Options E) (calls : List (Options E × (Nat → Int))) :
    ∃ next r r', LeavesAt d o1.canonBody (limitOf o1) (headRead ls off) next ∧
      Further d (calls.map fun c => (c.1.canonBody, limitOf c.1)) { headRead ls off with next := next } r ∧ Begins d r r' := by
  obtain ⟨next, h1⟩ := LeavesAt.exists d o1.canonBody (limitOf o1) (headRead ls off)
  obtain ⟨r, h2⟩ := Further.exists d (calls.map fun c => (c.1.canonBody, limitOf c.1)) { headRead ls off with next := next }
  obtain ⟨r', h3⟩ := Begins.exists d r
  exact ⟨next, r, r', h1, h2, h3⟩

/-- C46, the same in terms of a fresh object: the call returns what a fresh object returns on any message
that has these fields and this body. -/
theorem C46_history_fresh_partial (d : Bytes) (ls : List Bytes) (off : Nat) (hd : HeadText 0 d ls off)
    (o1 : Options E) (clock1 : Nat → Int) (next : Option Nat) (he : LeavesAt d o1.canonBody (limitOf o1) (headRead ls off) next)
    (calls : List (Options E × (Nat → Int))) (r : Reading)
    (hf : Further d (calls.map fun c => (c.1.canonBody, limitOf c.1)) { headRead ls off with next := next } r)
    (o : Options E) (clock : Nat → Int) (r' : Reading) (hb : Begins d r r')
    (d' : Bytes) (ls' : List Bytes) (off' : Int) (hd' : HeadText 0 d' ls' off')
    (hfields : groupLines ls' = r'.fields) (hbody : bodyPart d' off' = r'.bodyText d) :
    ((((Signatory.createSignature E o1 clock1 { file := freshStream d }).2).after E calls).createSignature E o clock).1 =
      (Signatory.createSignature E o clock { file := freshStream d' }).1 := by
  rw [C46_history_partial d ls off hd o1 clock1 next he calls r hf o clock r' hb,
    createSignature_fresh o clock d' ls' off' hd', hfields, hbody]

/-- C46 holds of the second call (any options) if the length limit of the first left the stream in the
body, before a line that is not empty: it returns what a fresh object returns on the same message. -/
theorem C46_second_call_partial (d : Bytes) (ls : List Bytes) (off : Nat) (hd : HeadText 0 d ls off)
    (o1 : Options E) (clock1 : Nat → Int) (hl : o1.bodySignLength = true) (k : Nat)
    (hk : StopsAfter o1.canonBody o1.bodyLength (d.drop off) k)
    (l : Bytes) (n : Option Nat) (hline : FirstLine (d.drop (off + 8096 * k)) l n) (hne : l ≠ [])
    (o : Options E) (clock : Nat → Int) :
    (((Signatory.createSignature E o1 clock1 { file := freshStream d }).2).createSignature E o clock).1 =
      (Signatory.createSignature E o clock { file := freshStream d }).1 := by
  have he : LeavesAt d o1.canonBody (limitOf o1) (headRead ls off) (some (off + 8096 * k)) :=
    .stop off _ k rfl (by unfold limitOf; rw [hl]; rfl) hk
  have hbody : bodyPart d (off : Int) = d.drop off := by
    unfold bodyPart; rw [if_neg (by omega)]; rfl
  cases hc : isCont l with
  | true =>
    exact C46_history_fresh_partial d ls off hd o1 clock1 _ he [] _ (.nil _) o clock _ (.cont _ l n rfl hline hc)
      d ls off hd rfl hbody
  | false =>
    exact C46_history_fresh_partial d ls off hd o1 clock1 _ he [] _ (.nil _) o clock _ (.field _ l n rfl hline hne hc)
      d ls off hd rfl hbody

/-- C46: before an empty line, the second call signs only what follows that line as the body. -/
theorem C46_second_call_shorter_partial (d : Bytes) (ls : List Bytes) (off : Nat) (hd : HeadText 0 d ls off)
    (o1 : Options E) (clock1 : Nat → Int) (hl : o1.bodySignLength = true) (k : Nat)
    (hk : StopsAfter o1.canonBody o1.bodyLength (d.drop off) k)
    (n : Nat) (hline : FirstLine (d.drop (off + 8096 * k)) [] (some n))
    (o : Options E) (clock : Nat → Int) :
    (((Signatory.createSignature E o1 clock1 { file := freshStream d }).2).createSignature E o clock).1 =
      (Signatory.createSignature E o clock { file := freshStream (d.take off ++ d.drop (off + 8096 * k + n)) }).1 := by
  have he : LeavesAt d o1.canonBody (limitOf o1) (headRead ls off) (some (off + 8096 * k)) :=
    .stop off _ k rfl (by unfold limitOf; rw [hl]; rfl) hk
  obtain ⟨n', e, hn, hcut⟩ := hd.cut (by omega)
  have en : n' = off := by omega
  subst en
  have hd' : HeadText 0 (d.take n' ++ d.drop (n' + 8096 * k + n)) ls (n' : Int) := HeadText.extend hcut (by omega) _
  refine C46_history_fresh_partial d ls n' hd o1 clock1 _ he [] _ (.nil _) o clock _ (.blank _ n rfl hline)
    _ ls n' hd' rfl ?_
  unfold bodyPart
  rw [if_neg (by omega)]
  show List.drop n' (d.take n' ++ d.drop (n' + 8096 * k + n)) = d.drop (n' + 8096 * k + n)
  rw [List.drop_append]
  simp [Nat.min_eq_left hn]

/-- A limit of 0 stops before the first block. -/
theorem stops_zero (mode : CanonMode) (body : Bytes) : StopsAfter mode 0 body 0 :=
  ⟨by simp, Nat.zero_le _, fun j hj => absurd hj (by omega)⟩

/-- C46_second_call applies: length limit 0, the body begins with a line that is not empty. -/
example (o : Options toyEnv) (clock : Nat → Int) :
    (((Signatory.createSignature toyEnv { Samples.rsaOpts with bodySignLength := true } (fun _ => 0)
        { file := freshStream b!"From: a\r\n\r\nSubject: x\r\ny" }).2).createSignature toyEnv o clock).1 =
      (Signatory.createSignature toyEnv o clock { file := freshStream b!"From: a\r\n\r\nSubject: x\r\ny" }).1 :=
  C46_second_call_partial b!"From: a\r\n\r\nSubject: x\r\ny" [b!"From: a"] 11
    (.lineCRLF 0 b!"From: a" _ _ _ (by decide) (by decide) (.blankCRLF 9 _)) _ _ rfl 0 (stops_zero _ _)
    b!"Subject: x" _ (.crlf b!"Subject: x" b!"y" (by decide)) (by decide) o clock

/-- C46_history applies to the third call of the witness above: the first line of the body is signed as a
header field, and the body is still signed in full. -/
example (o : Options toyEnv) (clock : Nat → Int) :
    ((((Signatory.createSignature toyEnv { Samples.rsaOpts with bodySignLength := true } (fun _ => 0)
        { file := freshStream b!"From: a\r\n\r\nSubject: x\r\ny" }).2).after toyEnv
        [({ Samples.rsaOpts with bodySignLength := true }, fun _ => 0)]).createSignature toyEnv o clock).1 =
      signParsed toyEnv o clock [mkField [b!"From: a"], mkField [b!"Subject: x"]] b!"Subject: x\r\ny" := by
  have hl : FirstLine (List.drop 11 b!"From: a\r\n\r\nSubject: x\r\ny") b!"Subject: x" (some 12) :=
    .crlf b!"Subject: x" b!"y" (by decide)
  have h1 : Begins b!"From: a\r\n\r\nSubject: x\r\ny" { headRead [b!"From: a"] 11 with next := some 11 }
      ⟨[[b!"From: a"]], [b!"Subject: x"], some 11, some 23⟩ := .field 11 b!"Subject: x" (some 12) rfl hl (by decide) rfl
  have h2 : Begins b!"From: a\r\n\r\nSubject: x\r\ny" ⟨[[b!"From: a"]], [b!"Subject: x"], some 11, some 11⟩
      ⟨[[b!"From: a"], [b!"Subject: x"]], [b!"Subject: x"], some 11, some 23⟩ :=
    .field 11 b!"Subject: x" (some 12) rfl hl (by decide) rfl
  exact C46_history_partial b!"From: a\r\n\r\nSubject: x\r\ny" [b!"From: a"] 11
    (.lineCRLF 0 b!"From: a" _ _ _ (by decide) (by decide) (.blankCRLF 9 _))
    { Samples.rsaOpts with bodySignLength := true } (fun _ => 0) (some 11)
    (.stop 11 0 0 rfl rfl (stops_zero _ _)) [({ Samples.rsaOpts with bodySignLength := true }, fun _ => 0)] _
    (.cons _ _ [] _ _ (some 11) _ h1 (.stop 11 0 0 rfl rfl (stops_zero _ _)) (.nil _)) o clock _ h2

/-- The same settings can sign and stop inside a longer body: limit 3 on a body of two blocks. -/
example : StopsAfter .simple 3 (List.replicate 16000 97) 1 := by
  refine ⟨by rw [List.length_replicate]; decide, ?_, fun j hj => ?_⟩
  · rw [settled_eq, List.take_replicate]
    have : ∀ n, (bodyBlock .simple {} (List.replicate n 97)).2.length = n := by
      intro n
      induction n with
      | zero => rfl
      | succ n ih =>
        rw [List.replicate_succ]
        simp only [bodyBlock]
        rw [show bodyByte .simple {} 97 = ({}, [97]) from by decide]
        simp [ih]
    rw [this]; decide
  · have : j = 0 := by omega
    subst this
    rw [settled_eq]; simp [bodyBlock]

end Dkim

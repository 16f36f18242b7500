import Verif.Props.Options
import Verif.Proofs.Repeat
import Verif.Proofs.Errors
import Verif.Proofs.RoundTrip
/-!
# Proofs: histories of setter calls and of `CreateSignature` calls
-/

namespace Dkim
open Spec

variable {E : Env}

theorem runAt_invariant (P : SigOpts E → Prop) (hstep : ∀ (op : SigOp E) s, P s → P (esState (op.run s)))
    (op : SigOp E) (i : Nat) (l : List (SigOpts E)) (h : ∀ s ∈ l, P s) : ∀ s ∈ (runAt op i l).2, P s := by
  induction l generalizing i with
  | nil => simp [runAt]
  | cons x l ih =>
    cases i with
    | zero =>
      have hx := hstep op x (h x (by simp))
      intro s hs
      unfold runAt at hs
      split at hs <;> rename_i he <;> rw [he] at hx
      · rcases List.mem_cons.1 hs with rfl | hs
        · exact hx
        · exact h s (by simp [hs])
      · rcases List.mem_cons.1 hs with rfl | hs
        · exact hx
        · exact h s (by simp [hs])
    | succ i =>
      intro s hs
      simp only [runAt, List.mem_cons] at hs
      rcases hs with rfl | hs
      · exact h s (by simp)
      · exact ih i (fun s hs => h s (by simp [hs])) s hs

/-- What every per-signature setter keeps (throwing or not) holds of every signature after any history. -/
theorem sigs_invariant (P : SigOpts E → Prop) (h0 : P {}) (hstep : ∀ (op : SigOp E) s, P s → P (esState (op.run s)))
    (ops : List (OptOp E)) : ∀ s ∈ (Options.history ({} : Options E) ops).signatures, P s := by
  have one : ∀ (o : Options E) (op : OptOp E), (∀ s ∈ o.signatures, P s) → ∀ s ∈ (op.run o).2.signatures, P s := by
    intro o op h
    have keep : ∀ o' : Options E, o'.first = o.first → o'.more = o.more → ∀ s ∈ o'.signatures, P s := by
      intro o' h1 h2 s hs
      exact h s (by simpa [Options.signatures, h1, h2] using hs)
    cases op with
    | sig i op =>
      cases i with
      | none =>
        have hx := hstep op o.first (h _ (by simp [Options.signatures]))
        intro s hs
        simp only [OptOp.run, runFirst, Options.signatures] at hs
        split at hs <;> rename_i he <;> rw [he] at hx
        · rcases List.mem_cons.1 hs with rfl | hs
          · exact hx
          · exact h s (by simp only [Options.signatures]; exact List.mem_cons_of_mem _ hs)
        · rcases List.mem_cons.1 hs with rfl | hs
          · exact hx
          · exact h s (by simp only [Options.signatures]; exact List.mem_cons_of_mem _ hs)
      | some i =>
        intro s hs
        simp only [OptOp.run, Options.signatures, List.mem_cons] at hs
        rcases hs with rfl | hs
        · exact h _ (by simp [Options.signatures])
        · exact runAt_invariant P hstep op i o.more (fun s hs => h s (by simp [Options.signatures, hs])) s hs
    | addSignature =>
      intro s hs
      simp only [OptOp.run, Options.signatures, List.mem_cons, List.mem_append, List.not_mem_nil, or_false] at hs
      rcases hs with rfl | hs | rfl
      · exact h _ (by simp [Options.signatures])
      · exact h s (by simp [Options.signatures, hs])
      · exact h0
    | digest a => exact keep _ rfl rfl
    | setHeaders l => exact keep _ rfl rfl
    | addHeaders l => exact keep _ rfl rfl
    | delHeaders l => exact keep _ rfl rfl
    | oversign l => exact keep _ rfl rfl
    | bodyLength n => exact keep _ rfl rfl
    | arcInstance n => exact keep _ rfl rfl
    | canonHead m => exact keep _ rfl rfl
    | canonBody m => exact keep _ rfl rfl
    | timestamp t => exact keep _ rfl rfl
    | expiration t a => exact keep _ rfl rfl
    | identity s => exact keep _ rfl rfl
  have : ∀ o : Options E, (∀ s ∈ o.signatures, P s) → ∀ s ∈ (o.history ops).signatures, P s := by
    induction ops with
    | nil => exact fun o h => h
    | cons op ops ih => exact fun o h => ih _ (one o op h)
  refine this _ ?_
  intro s hs
  simp only [Options.signatures, List.mem_singleton] at hs
  rw [hs]; exact h0

/-- The position of a stream is inside its data. -/
def Inside (s : IStream) : Prop := s.pos ≤ s.data.length

theorem cutLF_eq {s l r : Bytes} (h : IStream.cutLF s = some (l, r)) : s = l ++ LF :: r := by
  rcases cutLF_cases s with hs | ⟨a, b, rfl, ha⟩
  · rw [cutLF_none hs] at h; cases h
  · rw [cutLF_some ha] at h; cases h; rfl

theorem getline_inside {s s' : IStream} {o : Option Bytes} (hi : Inside s) (h : s.getline = (o, s')) :
    Inside s' ∧ s'.data = s.data ∧ (o = none → s'.good = false) ∧ (o ≠ none → s.pos < s'.pos) := by
  unfold IStream.getline at h
  split at h
  · simp only [Prod.mk.injEq] at h
    obtain ⟨rfl, rfl⟩ := h
    exact ⟨hi, rfl, fun _ => by simp [IStream.good], fun h => absurd rfl h⟩
  · simp only at h
    split at h
    · rename_i l r hc
      simp only [Prod.mk.injEq] at h
      obtain ⟨rfl, rfl⟩ := h
      have e := congrArg List.length (cutLF_eq hc)
      simp only [List.length_drop, List.length_append, List.length_cons] at e
      refine ⟨?_, rfl, by simp, fun _ => by simp only; omega⟩
      unfold Inside at *
      simp only
      omega
    · split at h
      · simp only [Prod.mk.injEq] at h
        obtain ⟨rfl, rfl⟩ := h
        exact ⟨hi, rfl, fun _ => by simp [IStream.good], fun h => absurd rfl h⟩
      · rename_i he
        simp only [Prod.mk.injEq] at h
        obtain ⟨rfl, rfl⟩ := h
        simp only [List.isEmpty_iff] at he
        have := List.length_pos_iff.2 he
        simp only [List.length_drop] at this
        refine ⟨?_, rfl, by simp, fun _ => ?_⟩
        · unfold Inside at *; simp only [List.length_drop]; omega
        · simp only [List.length_drop]; omega

theorem tellg_inside {s : IStream} (hi : Inside s) : Inside s.tellg.2 ∧ s.tellg.2.data = s.data ∧
    ValidOffset s.tellg.2 s.tellg.1 := by
  unfold IStream.tellg ValidOffset
  unfold Inside at *
  split
  · simp only; exact ⟨hi, trivial, .inr (by omega)⟩
  · simp only; exact ⟨hi, trivial, .inl trivial⟩

/-- The header loop ends from every state of message and stream, with a usable body offset. -/
theorem parseLoop_total (n : Nat) (m : Message) (s : IStream) (hi : Inside s) (hv : ValidOffset s m.bodyOffset)
    (hn : s.data.length - s.pos < n) :
    ∃ m' s', m.parseLoop n s = .ok (m', s') ∧ Inside s' ∧ s'.data = s.data ∧ ValidOffset s' m'.bodyOffset := by
  induction n generalizing m s with
  | zero => omega
  | succ n ih =>
    cases hg : s.getline with
    | mk o s2 =>
      obtain ⟨g1, g2, g3, g4⟩ := getline_inside hi hg
      unfold Message.parseLoop Message.parseLine
      rw [hg]
      cases o with
      | none =>
        exact ⟨{ m with headers := m.pushTmp, bodyOffset := -1, done := true }, s2, by simp, g1, g2, .inl rfl⟩
      | some line =>
        simp only
        cases hc : chopCR line with
        | nil =>
          obtain ⟨t1, t2, t3⟩ := tellg_inside g1
          exact ⟨{ tmp := none, headers := m.pushTmp, bodyOffset := s2.tellg.1, done := true }, s2.tellg.2, by simp, t1,
            t2.trans g2, t3⟩
        | cons c cs =>
          simp only
          have hv' : ValidOffset s2 (if c ≠ TAB ∧ c ≠ SP then { m with headers := m.pushTmp, tmp := some {} } else m : Message).bodyOffset := by
            have : (if c ≠ TAB ∧ c ≠ SP then { m with headers := m.pushTmp, tmp := some {} } else m : Message).bodyOffset = m.bodyOffset := by
              split <;> rfl
            rw [this]
            unfold ValidOffset at *
            rw [g2]; exact hv
          have hlt := g4 (by simp)
          have g1' := g1
          unfold Inside at g1'
          rw [g2] at g1'
          generalize (if c ≠ TAB ∧ c ≠ SP then { m with headers := m.pushTmp, tmp := some {} } else m : Message) = m1 at hv' ⊢
          by_cases hd : (true && !m1.done) = true
          · rw [if_pos hd]
            obtain ⟨m', s', r1, r2, r3, r4⟩ := ih { m1 with tmp := some ((m1.tmp.getD {}).parseLine (c :: cs)) } s2 g1 hv'
              (by rw [g2]; omega)
            exact ⟨m', s', r1, r2, r3.trans g2, r4⟩
          · rw [if_neg hd]
            exact ⟨{ m1 with tmp := some ((m1.tmp.getD {}).parseLine (c :: cs)) }, s2, rfl, g1, g2, hv'⟩

theorem read_inside (s : IStream) (n : Nat) (hi : Inside s) : Inside (s.read n).2 ∧ (s.read n).2.data = s.data := by
  unfold IStream.read
  unfold Inside at *
  split
  · exact ⟨hi, rfl⟩
  · simp only
    split
    · rename_i h
      simp only [List.length_drop] at h ⊢
      exact ⟨by omega, trivial⟩
    · simp only [List.length_drop]
      exact ⟨by omega, trivial⟩

theorem bodyLoop_inside (blk : Nat) (mode : CanonMode) (limit : Bool) (n : Nat) (s s' : IStream) (a a' : BodyAcc)
    (hi : Inside s) (h : bodyLoop blk mode limit n s a = .ok (s', a')) : Inside s' ∧ s'.data = s.data := by
  induction n generalizing s a with
  | zero => cases h
  | succ n ih =>
    unfold bodyLoop at h
    split at h
    · simp only [Except.ok.injEq, Prod.mk.injEq] at h
      rw [← h.1]; exact ⟨hi, rfl⟩
    · split at h
      · simp only [Except.ok.injEq, Prod.mk.injEq] at h
        rw [← h.1]; exact ⟨hi, rfl⟩
      · obtain ⟨r1, r2⟩ := read_inside s blk hi
        obtain ⟨k1, k2⟩ := ih _ _ r1 h
        exact ⟨k1, k2.trans r2⟩

theorem seekg_inside {s : IStream} {off : Int} (hi : Inside s) : Inside (s.clear.seekg off) ∧ (s.clear.seekg off).data = s.data := by
  unfold IStream.seekg IStream.clear
  unfold Inside at *
  simp only [Bool.false_eq_true, if_false]
  split
  · rename_i h; simp only; exact ⟨by omega, trivial⟩
  · exact ⟨hi, rfl⟩

theorem canonBody_inside {s s' : IStream} {mode : CanonMode} {off : Int} {limit : Bool} {size : Nat} {r : List Bytes × Bool}
    (hi : Inside s) (h : Dkim.canonBody s mode off limit size = .ok (r, s')) : Inside s' ∧ s'.data = s.data := by
  unfold Dkim.canonBody canonBodyBlk at h
  simp only at h
  by_cases ho : off ≠ -1
  · rw [if_pos ho] at h
    cases hb : bodyLoop 8096 mode limit (s.data.length + 2) (s.clear.seekg off) { size := size } with
    | error e => rw [hb] at h; cases h
    | ok p =>
      obtain ⟨s2, a⟩ := p
      rw [hb] at h
      simp only [Except.ok.injEq, Prod.mk.injEq] at h
      rw [← h.2]
      obtain ⟨k1, k2⟩ := seekg_inside (off := off) hi
      obtain ⟨r1, r2⟩ := bodyLoop_inside _ _ _ _ _ _ _ _ k1 hb
      exact ⟨r1, r2.trans k2⟩
  · rw [if_neg ho] at h
    simp only [Except.ok.injEq, Prod.mk.injEq] at h
    rw [← h.2]; exact ⟨hi, rfl⟩

/-- The state of a `Signatory` object between calls. -/
def SgOk (sg : Signatory) : Prop := Inside sg.file ∧ ValidOffset sg.file sg.msg.bodyOffset

/-- One call in any state: what it returns and what it leaves. -/
theorem createSignature_any (o : Options E) (clock : Nat → Int) (sg : Signatory) (h : SgOk sg) :
    ∃ hs body sg', Signatory.createSignature E o clock sg = (signParsed E o clock hs body, sg') ∧ SgOk sg' ∧
      sg'.file.data = sg.file.data := by
  obtain ⟨m, s1, hp, h1, h2, h3⟩ := parseLoop_total (sg.file.data.length + 2) sg.msg sg.file h.1 h.2 (by omega)
  obtain ⟨r, s2, k1, k2, k3⟩ := createSignature_eq o clock sg m s1 hp h3
  obtain ⟨k4, _⟩ := canonBody_inside h1 k1
  refine ⟨_, _, _, k3, ⟨k4, ?_⟩, k2.trans h2⟩
  unfold ValidOffset at *
  simp only
  rw [k2]; exact h3

theorem signLoop_perm (mode : CanonMode) (sel : List Bytes) (hs : List Header) : OnlyPerm (signLoop mode sel hs) := by
  induction hs with
  | nil => exact .ok _
  | cons h hs ih =>
    unfold signLoop
    split
    · have h1 := filterHeader_perm mode h.header
      cases hf : filterHeader mode h.header with
      | error e => intro e' h'; cases h'; exact h1 _ hf
      | ok t =>
        simp only
        cases hr : signLoop mode sel hs with
        | error e => intro e' h'; cases h'; exact ih _ hr
        | ok p => exact .ok _
    · exact ih

/-- Signing with a key that is long enough fails only with a permanent error. -/
theorem signDigest_perm (s : SigOpts E) (da : DigestAlg) (md : Bytes) (h : s.alg = .ed25519 → 63 ≤ s.ed.length) :
    OnlyPerm (signDigest E s da md) := by
  unfold signDigest
  cases ha : s.alg with
  | rsa =>
    simp only
    cases s.rsa with
    | none => exact .err _
    | some k =>
      simp only
      cases E.rsaSign k da md with
      | none => exact .err _
      | some x => exact .ok _
  | ed25519 =>
    simp only [readBuf]
    rw [if_pos (by have := h ha; omega)]
    simp only
    cases E.edSign ((s.ed ++ [0]).take 64) md with
    | none => exact .err _
    | some x => exact .ok _

theorem foldB_total (x : Bytes) : ∃ t, foldB (x.length + 1) 3 x = .ok t := by
  obtain ⟨c, cs, h, _⟩ := foldB_spec (x.length + 1) 3 x (by omega) (by omega)
  exact ⟨_, h⟩

theorem oneSignature_perm (o : Options E) (s : SigOpts E) (now : Int) (hashed : Bytes) (names : List Bytes) (bh : Bytes)
    (h : s.alg = .ed25519 → 63 ≤ s.ed.length)
    (hx : o.expirationSign = true → -(2 ^ 63) ≤ expiryTime o now ∧ expiryTime o now < 2 ^ 63) :
    OnlyPerm (oneSignature E o s now hashed names bh) := by
  unfold oneSignature sigHeaderText
  have ht : ∃ t, sigTimes o now = .ok t := by
    unfold sigTimes
    by_cases he : o.expirationSign = true
    · rw [if_pos he, sigExpiration_eq, if_pos (hx he)]; exact ⟨_, rfl⟩
    · rw [if_neg he]; exact ⟨_, rfl⟩
  obtain ⟨t, ht⟩ := ht
  rw [ht]
  simp only
  generalize sigPrefix o ++ t ++ CRLF ++ sigDomainLine o s ++ sigHLines names ++ b!"\tbh=" ++ b64Encode bh ++ b!";\r\n" ++
    b!"\tb=" = text
  cases hf : filterHeader o.canonHead text with
  | error e => intro e' h'; cases h'; exact filterHeader_perm _ _ _ hf
  | ok t2 =>
    simp only
    cases hs : signDigest E s o.digest (E.hash o.digest (hashed ++ t2)) with
    | error e => intro e' h'; cases h'; exact signDigest_perm s _ _ h _ hs
    | ok sg =>
      simp only
      obtain ⟨b, hb⟩ := foldB_total (b64Encode sg)
      rw [hb]
      exact .ok _

theorem allSignatures_perm (o : Options E) (clock : Nat → Int) (hashed : Bytes) (names : List Bytes) (bh : Bytes) (k : Nat)
    (acc : Bytes) (ss : List (SigOpts E)) (h : ∀ s ∈ ss, s.alg = .ed25519 → 63 ≤ s.ed.length)
    (hx : o.expirationSign = true → ∀ k, -(2 ^ 63) ≤ expiryTime o (clock k) ∧ expiryTime o (clock k) < 2 ^ 63) :
    OnlyPerm (allSignatures E o clock hashed names bh k acc ss) := by
  induction ss generalizing k acc with
  | nil => exact .ok _
  | cons s ss ih =>
    unfold allSignatures
    cases ho : oneSignature E o s (clock k) hashed names bh with
    | error e =>
      intro e' h'; cases h'
      exact oneSignature_perm o s _ hashed names bh (h s (by simp)) (fun he => hx he k) _ ho
    | ok t => exact ih _ _ (fun s hs => h s (by simp [hs]))

theorem signParsed_perm (o : Options E) (clock : Nat → Int) (hs : List Header) (body : Bytes)
    (h : ∀ s ∈ o.signatures, s.alg = .ed25519 → 63 ≤ s.ed.length)
    (hx : o.expirationSign = true → ∀ k, -(2 ^ 63) ≤ expiryTime o (clock k) ∧ expiryTime o (clock k) < 2 ^ 63) :
    OnlyPerm (signParsed E o clock hs body) := by
  unfold signParsed
  split
  · exact .err _
  · cases hl : signLoop o.canonHead o.headers hs.reverse with
    | error e => intro e' h'; cases h'; exact signLoop_perm _ _ _ _ hl
    | ok p => exact allSignatures_perm o clock _ _ _ _ _ _ (fun s hs => h s (List.mem_reverse.1 hs)) hx

end Dkim

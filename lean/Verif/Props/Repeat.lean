import Verif.Proofs.History
import Verif.Proofs.GenText
import Verif.Props.RoundTrip
/-!
# Properties C46, C52: repeated calls of `CreateSignature`; signing without a key
-/

namespace Dkim
open Spec

variable {E : Env}

/-- The object after further `CreateSignature` calls (with options and clock each). -/
def Signatory.after (E : Env) (sg : Signatory) (calls : List (Options E × (Nat → Int))) : Signatory :=
  calls.foldl (fun sg c => (sg.createSignature E c.1 c.2).2) sg

/-- A header block without what follows it. -/
theorem Spec.HeadText.cut {pos : Nat} {s : Bytes} {ls : List Bytes} {off : Int} (h : HeadText pos s ls off) (ho : off ≠ -1) :
    ∃ n : Nat, off = (pos + n : Nat) ∧ n ≤ s.length ∧ HeadText pos (s.take n) ls off := by
  induction h with
  | none pos => exact absurd rfl ho
  | blankLF pos r => exact ⟨1, rfl, by simp, .blankLF pos []⟩
  | blankCRLF pos r => exact ⟨2, rfl, by simp, .blankCRLF pos []⟩
  | blankEnd pos => exact absurd rfl ho
  | lastLine => exact absurd rfl ho
  | lastLineCR => exact absurd rfl ho
  | lineLF pos l r ls off h1 h2 h3 _ ih =>
    obtain ⟨n, e, hn, h⟩ := ih ho
    refine ⟨l.length + 1 + n, by rw [e]; omega, by simp; omega, ?_⟩
    have : (l ++ LF :: r).take (l.length + 1 + n) = l ++ LF :: r.take n := by
      rw [List.take_append, List.take_of_length_le (by omega), show l.length + 1 + n - l.length = n + 1 from by omega]
      rfl
    rw [this]
    exact .lineLF pos l _ ls off h1 h2 h3 h
  | lineCRLF pos l r ls off h1 h2 _ ih =>
    obtain ⟨n, e, hn, h⟩ := ih ho
    refine ⟨l.length + 2 + n, by rw [e]; omega, by simp; omega, ?_⟩
    have : (l ++ CR :: LF :: r).take (l.length + 2 + n) = l ++ CR :: LF :: r.take n := by
      rw [List.take_append, List.take_of_length_le (by omega), show l.length + 2 + n - l.length = n + 2 from by omega]
      rfl
    rw [this]
    exact .lineCRLF pos l _ ls off h1 h2 h

/-- A fresh call on a message. -/
theorem createSignature_fresh (o : Options E) (clock : Nat → Int) (d : Bytes) (ls : List Bytes) (off : Int)
    (hd : HeadText 0 d ls off) :
    (Signatory.createSignature E o clock { file := freshStream d }).1 =
      signParsed E o clock ((groupLines ls).map mkField) (bodyPart d off) := by
  obtain ⟨m, s1, p1, p2, p3, p4, p5⟩ := parseAll_head hd (freshStream d) (at_fresh d)
  obtain ⟨hv, hdata⟩ := parse_valid d m s1 p1
  obtain ⟨r, s2, k1, k2, k3⟩ := createSignature_eq o clock { file := freshStream d } m s1 p1 hv
  rw [k3, p2, p3, hdata]

theorem again_all (hs : List Header) (calls : List (Options E × (Nat → Int))) (o : Options E) (clock : Nat → Int)
    (sg : Signatory) (hg : sg.file.good = false) (ht : sg.msg.tmp = none) (hh : sg.msg.headers = hs) :
    ((sg.after E calls).createSignature E o clock).1 = signParsed E o clock hs [] := by
  have hp : ∀ m : Message, m.tmp = none → m.pushTmp = m.headers := by
    intro m h; unfold Message.pushTmp; rw [h]
  induction calls generalizing sg with
  | nil =>
    obtain ⟨sg', h1, _⟩ := createSignature_again o clock sg hg
    unfold Signatory.after
    rw [List.foldl_nil, h1, hp _ ht, hh]
  | cons c calls ih =>
    obtain ⟨sg', h1, h2, h3, h4⟩ := createSignature_again c.1 c.2 sg hg
    have : sg.after E (c :: calls) = sg'.after E calls := by
      unfold Signatory.after
      rw [List.foldl_cons, h1]
    rw [this]
    exact ih sg' h2 (h4.trans ht) (by rw [h3, hp _ ht, hh])

/-- C46, what is true (part of the claim): on a message with an empty line after its header, after a
first call without a length limit, every later call on the same object - any options, any number of
calls between - returns what a fresh object returns for the header block alone, i.e. the message with its
body removed: same header fields, body lost. -/
theorem C46_later_calls_partial (d : Bytes) (ls : List Bytes) (off : Int) (hd : HeadText 0 d ls off) (ho : off ≠ -1)
    (o1 : Options E) (clock1 : Nat → Int) (h1 : o1.bodySignLength = false)
    (calls : List (Options E × (Nat → Int))) (o : Options E) (clock : Nat → Int) :
    ((((Signatory.createSignature E o1 clock1 { file := freshStream d }).2).after E calls).createSignature E o clock).1 =
      (Signatory.createSignature E o clock { file := freshStream (d.take off.toNat) }).1 := by
  obtain ⟨m, s1, p1, p2, p3, p4, p5⟩ := parseAll_head hd (freshStream d) (at_fresh d)
  obtain ⟨hv, hdata⟩ := parse_valid d m s1 p1
  obtain ⟨r, s2, k1, k2, k3⟩ := createSignature_eq o1 clock1 { file := freshStream d } m s1 p1 hv
  have hend : s2.good = false := by
    rw [h1] at k1
    exact (canonBody_end _ _ _ _ _ _ k1).1 (by rw [p3]; exact ho)
  have htmp : m.tmp = none := by
    rcases parseLoop_end _ _ _ _ _ rfl p1 with h | h
    · exact h
    · exact absurd (p3.symm.trans h.1) ho
  obtain ⟨n, e, hn, hcut⟩ := hd.cut ho
  have hn' : off.toNat = n := by rw [e]; omega
  rw [k3, again_all ((groupLines ls).map mkField) calls o clock { file := s2, msg := m } hend htmp p2, hn',
    createSignature_fresh o clock _ ls off hcut]
  congr 1
  unfold bodyPart
  rw [if_neg ho, hn']
  simp

/-- C46: so if the body counts as empty (its canonical form is that of an empty body), every later call
with the same options and clock returns the same signature. -/
theorem C46_empty_body_partial (d : Bytes) (ls : List Bytes) (off : Int) (hd : HeadText 0 d ls off) (ho : off ≠ -1)
    (o1 : Options E) (clock1 : Nat → Int) (h1 : o1.bodySignLength = false)
    (calls : List (Options E × (Nat → Int))) (o : Options E) (clock : Nat → Int)
    (hb : Spec.canonBody o.canonBody (bodyPart d off) = Spec.canonBody o.canonBody []) :
    ((((Signatory.createSignature E o1 clock1 { file := freshStream d }).2).after E calls).createSignature E o clock).1 =
      (Signatory.createSignature E o clock { file := freshStream d }).1 := by
  obtain ⟨n, e, hn, hcut⟩ := hd.cut ho
  have hn' : off.toNat = n := by rw [e]; omega
  rw [C46_later_calls_partial d ls off hd ho o1 clock1 h1, createSignature_fresh o clock d ls off hd, hn',
    createSignature_fresh o clock _ ls off hcut]
  have : bodyPart (d.take n) off = [] := by
    unfold bodyPart
    rw [if_neg ho, hn']
    simp
  rw [this]
  unfold signParsed
  rw [hb]

namespace Samples

/-- First and second call on one object. -/
def twice (o : Options toyEnv) (msg : Bytes) : Except Err Bytes × Except Err Bytes :=
  let r := Signatory.createSignature toyEnv o (fun _ => 0) { file := freshStream msg }
  (r.1, (r.2.createSignature toyEnv o (fun _ => 0)).1)

end Samples

/-- C46 is false: the second call signs an empty body, and the signature does not verify on the message. -/
theorem C46_body_lost_witness :
    (∃ H1 H2, Samples.twice Samples.rsaOpts Samples.message = (.ok H1, .ok H2) ∧ H1 ≠ H2 ∧
      Samples.verify Samples.rsaRec (H1 ++ CRLF ++ Samples.message) = some (.ok ()) ∧
      Samples.verify Samples.rsaRec (H2 ++ CRLF ++ Samples.message) ≠ some (.ok ())) := by
  have h : (match Samples.twice Samples.rsaOpts Samples.message with
    | (.ok H1, .ok H2) => decide (H1 ≠ H2 ∧
      Samples.verify Samples.rsaRec (H1 ++ CRLF ++ Samples.message) = some (.ok ()) ∧
      Samples.verify Samples.rsaRec (H2 ++ CRLF ++ Samples.message) ≠ some (.ok ()))
    | _ => false) = true := by decide +kernel
  split at h
  · rename_i H1 H2 e
    exact ⟨H1, H2, e, of_decide_eq_true h⟩
  · cases h

/-- A search that can be evaluated. -/
def findText (x s : Bytes) : Bool :=
  match s with
  | [] => x.isEmpty
  | c :: r => x.isPrefixOf (c :: r) || findText x r

theorem findText_infix {x s : Bytes} (h : findText x s = true) : x <:+: s := by
  induction s with
  | nil => simp only [findText, List.isEmpty_iff] at h; subst h; exact ⟨[], [], rfl⟩
  | cons c r ih =>
    simp only [findText, Bool.or_eq_true] at h
    rcases h with h | h
    · exact (List.isPrefixOf_iff_prefix.1 h).isInfix
    · exact (ih h).trans (List.suffix_cons c r).isInfix

/-- C46: on a message without an empty line the last header field is signed twice by the second call. -/
theorem C46_field_twice_witness :
    (∃ H1 H2, Samples.twice Samples.rsaOpts b!"To: x\r\nFrom: a\r\n" = (.ok H1, .ok H2) ∧
      b!"\th=from:to;" <:+: H1 ∧ b!"\th=from:from:to;" <:+: H2) := by
  have h : (match Samples.twice Samples.rsaOpts b!"To: x\r\nFrom: a\r\n" with
    | (.ok H1, .ok H2) => findText b!"\th=from:to;" H1 && findText b!"\th=from:from:to;" H2
    | _ => false) = true := by decide +kernel
  split at h
  · rename_i H1 H2 e
    simp only [Bool.and_eq_true] at h
    exact ⟨H1, H2, e, findText_infix h.1, findText_infix h.2⟩
  · cases h

/-- C46: after a call with length limit 0 the second call reads on in the body, and the third signs a
line of the body as a header field (here every field is selected). -/
theorem C46_body_as_header_witness :
    ∃ H, ((Signatory.after toyEnv { file := freshStream b!"From: a\r\n\r\nSubject: x\r\ny" }
        [({ Samples.rsaOpts with headers := [], bodySignLength := true }, fun _ => 0),
         ({ Samples.rsaOpts with headers := [], bodySignLength := true }, fun _ => 0)]).createSignature toyEnv
          { Samples.rsaOpts with headers := [] } (fun _ => 0)).1 = .ok H ∧ b!"\th=subject:from;" <:+: H := by
  have h : (match ((Signatory.after toyEnv { file := freshStream b!"From: a\r\n\r\nSubject: x\r\ny" }
        [({ Samples.rsaOpts with headers := [], bodySignLength := true }, fun _ => 0),
         ({ Samples.rsaOpts with headers := [], bodySignLength := true }, fun _ => 0)]).createSignature toyEnv
          { Samples.rsaOpts with headers := [] } (fun _ => 0)).1 with
    | .ok H => findText b!"\th=subject:from;" H
    | _ => false) = true := by decide +kernel
  split at h
  · rename_i H e
    exact ⟨H, e, findText_infix h⟩
  · cases h

/-! ### C52 -/

/-- Every Ed25519 key buffer is unset or has its 64 bytes. -/
def Spec.KeyBuffers (o : Options E) : Prop := ∀ s ∈ o.signatures, s.ed = [] ∨ s.ed.length = 64

/-- C52: after any history of setter calls, thrown or not, the Ed25519 key is unset or 64 bytes long
(`crypto_sign_seed_keypair` fills 64 bytes). -/
theorem C52_key_buffers (hseed : ∀ x, (E.edSeed x).length = 64) (ops : List (OptOp E)) :
    KeyBuffers (Options.history ({} : Options E) ops) := by
  refine sigs_invariant (fun s => s.ed = [] ∨ s.ed.length = 64) (.inl rfl) ?_ ops
  intro op s hs
  cases op with
  | privateKey k =>
    show (esState ((SigOpts.setPrivateKey k : EStateM Err (SigOpts E) Unit) s)).ed = [] ∨
      (esState ((SigOpts.setPrivateKey k : EStateM Err (SigOpts E) Unit) s)).ed.length = 64
    unfold SigOpts.setPrivateKey
    rw [es_bind, es_get, esBind_ok]
    cases s.alg with
    | rsa =>
      simp only
      split
      · cases E.pemPriv k with
        | none => exact hs
        | some r => cases r <;> exact hs
      · cases E.derPriv (E.b64dec k) <;> exact hs
    | ed25519 =>
      simp only
      split
      · rename_i h; exact .inr h
      · split
        · exact .inr (hseed _)
        · split
          · rename_i h; exact .inr h
          · split
            · exact .inr (hseed _)
            · exact hs
  | rsaPrivateKey r => exact hs
  | selector x =>
    simp only [SigOp.run, SigOpts.setSelector]
    cases validateDomain x <;> exact hs
  | domain x =>
    simp only [SigOp.run, SigOpts.setDomain]
    cases validateDomain x <;> exact hs
  | alg a => exact hs

/-- C52: a signature is returned - on the first or any later call - only if every entry has a key of its
own type: an RSA key object, or 64 bytes of Ed25519 key. -/
theorem C52_success_has_keys (o : Options E) (hk : KeyBuffers o) (clock : Nat → Int) (sg : Signatory) (hsg : SgOk sg) (H : Bytes)
    (h : (sg.createSignature E o clock).1 = .ok H) :
    ∀ s ∈ o.signatures, (s.alg = .rsa → s.rsa ≠ none) ∧ (s.alg = .ed25519 → s.ed.length = 64) := by
  obtain ⟨hs, body, sg', e, _⟩ := createSignature_any o clock sg hsg
  rw [e] at h
  simp only at h
  unfold signParsed at h
  split at h
  · cases h
  · cases hl : signLoop o.canonHead o.headers hs.reverse with
    | error e => rw [hl] at h; cases h
    | ok p =>
      rw [hl] at h
      simp only at h
      obtain ⟨ts, _, _, l3⟩ := allSignatures_ok o clock _ _ _ 0 [] _ H h
      intro s hs
      obtain ⟨i, hi⟩ := List.mem_iff_getElem?.1 (List.mem_reverse.2 hs)
      obtain ⟨t, _, ht⟩ := l3 i s hi
      obtain ⟨_, _, _, _, _, hb⟩ := oneSignature_text ht
      cases hb with
      | rsa k ha hr _ => exact ⟨fun _ => by rw [hr]; simp, fun h => by rw [ha] at h; cases h⟩
      | ed ha hl _ =>
        refine ⟨fun h => (by rw [ha] at h; cases h), fun _ => ?_⟩
        rcases hk s hs with h0 | h0
        · rw [h0] at hl; simp at hl
        · exact h0

/-- Every state an object can be in after any sequence of calls. -/
theorem sgOk_after (d : Bytes) (calls : List (Options E × (Nat → Int))) :
    SgOk (Signatory.after E { file := freshStream d } calls) := by
  have : ∀ sg : Signatory, SgOk sg → SgOk (sg.after E calls) := by
    induction calls with
    | nil => exact fun sg h => h
    | cons c calls ih =>
      intro sg h
      obtain ⟨_, _, sg', e, h', _⟩ := createSignature_any c.1 c.2 sg h
      have e2 : sg.after E (c :: calls) = sg'.after E calls := by
        unfold Signatory.after
        rw [List.foldl_cons, e]
      rw [e2]
      exact ih sg' h'
  refine this _ ⟨?_, .inr ⟨Int.le_refl _, ?_⟩⟩
  · exact Nat.zero_le _
  · exact Int.natCast_nonneg _

/-- C52 (all but the unset Ed25519 key): on the first or any later call, for every message and all
options whose Ed25519 entries have their key set and whose expiration time is representable, the call
ends, with a signature or a permanent error - also when an RSA key is missing or was set for the wrong
algorithm. -/
theorem C52_clean_failure_partial (d : Bytes) (calls : List (Options E × (Nat → Int))) (o : Options E) (hk : KeyBuffers o)
    (clock : Nat → Int) (hset : ∀ s ∈ o.signatures, s.alg = .ed25519 → s.ed ≠ [])
    (hx : o.expirationSign = true → ∀ k, -(2 ^ 63) ≤ expiryTime o (clock k) ∧ expiryTime o (clock k) < 2 ^ 63) :
    (∃ H, (((Signatory.after E { file := freshStream d } calls)).createSignature E o clock).1 = .ok H) ∨
      ∃ r, (((Signatory.after E { file := freshStream d } calls)).createSignature E o clock).1 = .error (.p r) := by
  obtain ⟨hs, body, sg', e, _⟩ := createSignature_any o clock _ (sgOk_after d calls)
  rw [e]
  simp only
  have hp := signParsed_perm o clock hs body (fun s hs ha => by
    rcases hk s hs with h0 | h0
    · exact absurd h0 (hset s hs ha)
    · omega) hx
  cases hr : signParsed E o clock hs body with
  | ok H => exact .inl ⟨H, rfl⟩
  | error e =>
    obtain ⟨r, rfl⟩ := hp e hr
    exact .inr ⟨r, rfl⟩

/-- C52: no key at all, RSA: a permanent error; and after `SetSignatureAlgorithm` an earlier key of the
other type does not count. -/
theorem C52_no_rsa_key : Samples.sign { first := { domain := b!"d.e", selector := b!"s" } } Samples.message =
      .error (.p .noRsaKey) ∧
    Samples.sign { first := { ed := List.replicate 64 5, domain := b!"d.e", selector := b!"s" } } Samples.message =
      .error (.p .noRsaKey) := by decide +kernel

/-- C52 is false: with `SetSignatureAlgorithm(ED25519)` and no key set, signing reads 64 bytes from an
empty key buffer. -/
theorem C52_unset_key_witness :
    Samples.sign (Options.history {} [.sig none (.alg .ed25519), .sig none (.domain b!"d.e"), .sig none (.selector b!"s")])
      Samples.message = .error .ub := by decide +kernel

/-- C46 applies: after two calls on the sample message, a third is a call on the message without its body. -/
example (o : Options toyEnv) (clock : Nat → Int) :
    ((((Signatory.createSignature toyEnv Samples.rsaOpts (fun _ => 0) { file := freshStream Samples.message }).2).after toyEnv
      [(Samples.edOpts, fun _ => 5)]).createSignature toyEnv o clock).1 =
      (Signatory.createSignature toyEnv o clock { file := freshStream (Samples.message.take 34) }).1 :=
  C46_later_calls_partial Samples.message _ 34 Samples.headText_message (by decide) Samples.rsaOpts (fun _ => 0) (by decide) _ o clock
/-- C46 applies: a message without a body. -/
example (o : Options toyEnv) (clock : Nat → Int) :
    (((Signatory.createSignature toyEnv Samples.rsaOpts (fun _ => 0) { file := freshStream (Samples.message.take 34) }).2).createSignature
      toyEnv o clock).1 = (Signatory.createSignature toyEnv o clock { file := freshStream (Samples.message.take 34) }).1 :=
  C46_empty_body_partial (Samples.message.take 34) _ 34
    (.lineCRLF 0 b!"To: x" _ _ _ (by decide) (by decide)
      (.lineCRLF _ b!"From: a@b.c" _ _ _ (by decide) (by decide)
        (.lineCRLF _ b!"To: y," _ _ _ (by decide) (by decide)
          (.lineCRLF _ b!" z" _ _ _ (by decide) (by decide) (.blankCRLF 32 _)))))
    (by decide) Samples.rsaOpts (fun _ => 0) (by decide) [] o clock (by rfl)
/-- C52 applies to the Ed25519 sample, on a later call. -/
example :
    (∃ H, (((Signatory.after toyEnv { file := freshStream Samples.message } [(Samples.rsaOpts, fun _ => 0)])).createSignature toyEnv
      Samples.edOpts (fun _ => 0)).1 = .ok H) ∨
    ∃ r, (((Signatory.after toyEnv { file := freshStream Samples.message } [(Samples.rsaOpts, fun _ => 0)])).createSignature toyEnv
      Samples.edOpts (fun _ => 0)).1 = .error (.p r) :=
  C52_clean_failure_partial Samples.message _ Samples.edOpts (by unfold KeyBuffers; decide) (fun _ => 0) (by decide)
    (fun h => absurd h (by decide))

end Dkim

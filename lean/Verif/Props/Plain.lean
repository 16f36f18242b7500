import Verif.Props.Signing
import Verif.Proofs.Encodings
/-!
# The bytes of a generated field
-/

namespace Dkim
open Spec

variable {E : Env}

/-- Printable ASCII, space, TAB, CR or LF. -/
def Spec.Plain (c : Byte) : Prop := (32 ≤ c ∧ c ≤ 126) ∨ c = 9 ∨ c = 10 ∨ c = 13

instance (c : Byte) : Decidable (Spec.Plain c) := inferInstanceAs (Decidable (_ ∨ _))

/-- A text of such bytes. -/
def Spec.PlainText (t : Bytes) : Prop := ∀ c ∈ t, Plain c

instance (t : Bytes) : Decidable (PlainText t) := inferInstanceAs (Decidable (∀ c ∈ t, Plain c))

theorem plain_append {a b : Bytes} : PlainText (a ++ b) ↔ PlainText a ∧ PlainText b := List.forall_mem_append

theorem plain_cons {c : Byte} {b : Bytes} : PlainText (c :: b) ↔ Plain c ∧ PlainText b := List.forall_mem_cons

theorem plain_nil : PlainText [] := by intro c hc; cases hc

theorem plain_letDig (c : Byte) : (IsLetDig c ∨ c = 45 ∨ c = 46) → Plain c := by
  revert c
  apply byte_forall
  unfold IsLetDig Spec.Plain
  decide +kernel

theorem plain_digit (c : Byte) : IsDigit c → Plain c := by
  revert c
  apply byte_forall
  unfold IsDigit Spec.Plain
  decide +kernel

theorem plain_b64Digit (n : Nat) : Plain (b64Digit n) := by
  have h : ∀ k : Fin 64, Plain (b64Alphabet.getD k 0) := by decide +kernel
  exact h ⟨n % 64, Nat.mod_lt _ (by decide)⟩

theorem plain_base64 (x : Bytes) : PlainText (base64 x) := by
  have e : Plain 61 := by decide
  induction x using base64.induct with
  | case1 => exact plain_nil
  | case2 a =>
    simp only [base64, plain_cons, plain_b64Digit, e, plain_nil, and_self]
  | case3 a b =>
    simp only [base64, plain_cons, plain_b64Digit, e, plain_nil, and_self]
  | case4 a b c r ih =>
    simp only [base64, plain_append, plain_cons, plain_b64Digit, plain_nil, and_self, ih]

theorem plain_hex (c : Byte) : PlainText (hexPair c) := by
  have h : ∀ k : Fin 16, Plain (hexAlphabet.getD k 0) := by decide +kernel
  have h1 := h ⟨c.toNat / 16, by have := c.toNat_lt; omega⟩
  have h2 := h ⟨c.toNat % 16, Nat.mod_lt _ (by decide)⟩
  unfold hexPair
  simp only [plain_cons, plain_nil, and_true]
  exact ⟨by decide, h1, h2⟩

theorem plain_qp (x : Bytes) : PlainText (quotedPrintable x) := by
  intro c hc
  unfold quotedPrintable at hc
  obtain ⟨d, _, hd⟩ := List.mem_flatMap.1 hc
  split at hd
  · rename_i hs
    have : c = d := by simpa using hd
    subst this
    exact Or.inl ⟨Nat.le_trans (show (32 : Byte).toNat ≤ (33 : Byte).toNat by decide) hs.1, hs.2.1⟩
  · exact plain_hex d c hd

theorem plain_foldedList {ns : List Bytes} {t : Bytes} (h : FoldedList ns t) (hn : ∀ n ∈ ns, PlainText n) : PlainText t := by
  have fold : ∀ g, IsFold g → PlainText g := by
    rintro g (rfl | rfl)
    · exact plain_nil
    · decide
  induction h with
  | nil => exact plain_nil
  | one g n hg => exact plain_append.2 ⟨fold g hg, hn n (by simp)⟩
  | cons g n m ns t hg _ ih =>
    refine plain_append.2 ⟨plain_append.2 ⟨fold g hg, hn n (by simp)⟩, plain_cons.2 ⟨by decide, ih (fun k hk => hn k (by simp [hk]))⟩⟩

theorem plain_joinLines (ls : List Bytes) (h : ∀ l ∈ ls, PlainText l) : PlainText (joinLines ls) := by
  induction ls with
  | nil => exact plain_nil
  | cons l ls ih =>
    cases ls with
    | nil => exact h l (by simp)
    | cons m ms =>
      show PlainText (l ++ CRLF ++ joinLines (m :: ms))
      exact plain_append.2 ⟨plain_append.2 ⟨h l (by simp), by decide⟩, ih (fun x hx => h x (by simp [hx]))⟩

theorem plain_foldedText {v t : Bytes} (h : FoldedText v t) (hv : PlainText v) : PlainText t := by
  obtain ⟨c, cs, rfl, rfl⟩ := h
  apply plain_joinLines
  intro l hl
  have sub : ∀ x ∈ c :: cs, PlainText x := fun x hx b hb => hv b (List.mem_flatten.2 ⟨x, hx, hb⟩)
  rcases List.mem_cons.1 hl with rfl | hl
  · exact sub _ (by simp)
  · obtain ⟨x, hx, rfl⟩ := List.mem_map.1 hl
    exact plain_append.2 ⟨by decide, sub x (by simp [hx])⟩

theorem plain_decimal {n : Nat} {t : Bytes} (h : Decimal n t) : PlainText t := by
  have k : ∀ k : Fin 10, Plain (UInt8.ofNat (48 + k)) := by decide +kernel
  induction h with
  | digit n h => exact plain_cons.2 ⟨k ⟨n, h⟩, plain_nil⟩
  | more n d t _ h _ ih => exact plain_append.2 ⟨ih, plain_cons.2 ⟨k ⟨d, h⟩, plain_nil⟩⟩

theorem plain_opening {o : Options E} {op : Bytes} (h : OpeningTag o op) : PlainText op := by
  cases h with
  | dkim _ => decide +kernel
  | arc n _ hd => exact plain_append.2 ⟨by decide +kernel, plain_decimal hd⟩

theorem plain_times {o : Options E} {clock : Int} {tx : Bytes} (h : TimeTags o clock tx) : PlainText tx := by
  obtain ⟨t, x, rfl, d1, d2⟩ := h
  refine plain_append.2 ⟨?_, ?_⟩
  · split
    · exact plain_append.2 ⟨plain_append.2 ⟨by decide +kernel, plain_decimal d1⟩, by decide +kernel⟩
    · exact plain_nil
  · split
    · exact plain_append.2 ⟨plain_append.2 ⟨by decide +kernel, plain_decimal d2⟩, by decide +kernel⟩
    · exact plain_nil

theorem plain_identity {o : Options E} {il : Bytes} (h : IdentityLength o il) : PlainText il := by
  obtain ⟨l, rfl, d1⟩ := h
  refine plain_append.2 ⟨?_, ?_⟩
  · split
    · exact plain_nil
    · exact plain_append.2 ⟨by decide +kernel, plain_qp _⟩
  · split
    · exact plain_append.2 ⟨by decide +kernel, plain_decimal d1⟩
    · exact plain_nil

theorem plain_algName (a : SigAlg) (d : DigestAlg) : PlainText (algName a d) := by cases a <;> cases d <;> decide +kernel

theorem plain_canonName (m : CanonMode) : PlainText (canonName m) := by cases m <;> decide +kernel

theorem plain_domain {x : Bytes} (h : UnsetOrDomain x) : PlainText x := fun c hc => plain_letDig c (C24_no_injection x h c hc)

theorem plain_snoc {a : Bytes} (b : Bytes) (h1 : PlainText a) (h2 : PlainText b) : PlainText (a ++ b) := plain_append.2 ⟨h1, h2⟩

theorem plain_fieldText {o : Options E} {s : SigOpts E} {clock : Int} {alg : SigAlg} {names : List Bytes} {bh sgn head t : Bytes}
    (h : FieldText o s clock alg names bh sgn head t) (hn : ∀ n ∈ names, PlainText n) (h1 : UnsetOrDomain s.domain)
    (h2 : UnsetOrDomain s.selector) : PlainText t := by
  obtain ⟨op, tx, il, hh, b, hhead, ht, hop, htx, hil, hfl, hft⟩ := h
  rw [ht, hhead]
  clear ht hhead
  refine plain_snoc _ ?_ (plain_foldedText hft (plain_base64 _))
  refine plain_snoc _ ?_ (by decide +kernel)
  refine plain_snoc _ ?_ (plain_base64 _)
  refine plain_snoc _ ?_ (by decide +kernel)
  refine plain_snoc _ ?_ (plain_foldedList hfl hn)
  refine plain_snoc _ ?_ (by decide +kernel)
  refine plain_snoc _ ?_ (plain_identity hil)
  refine plain_snoc _ ?_ (plain_domain h2)
  refine plain_snoc _ ?_ (by decide +kernel)
  refine plain_snoc _ ?_ (plain_domain h1)
  refine plain_snoc _ ?_ (by decide +kernel)
  refine plain_snoc _ ?_ (plain_times htx)
  refine plain_snoc _ ?_ (by decide +kernel)
  refine plain_snoc _ ?_ (plain_canonName _)
  refine plain_snoc _ ?_ (by decide +kernel)
  refine plain_snoc _ ?_ (plain_canonName _)
  refine plain_snoc _ ?_ (by decide +kernel)
  refine plain_snoc _ ?_ (plain_algName _ _)
  refine plain_snoc _ ?_ (by decide +kernel)
  exact plain_opening hop

theorem toLower_plain (c : Byte) : Plain c → Plain (toLower c) := by
  revert c
  apply byte_forall
  unfold Spec.Plain
  decide +kernel

theorem signedNames_plain (sel over : List Bytes) (hne : sel ≠ []) (h1 : ∀ n ∈ sel, PlainText n) (h2 : ∀ n ∈ over, PlainText n)
    (hs : List Header) : ∀ n ∈ signedNames sel over hs, PlainText n := by
  have low : ∀ m, PlainText m → PlainText (Dkim.lower m) := by
    intro m hm c hc
    obtain ⟨d, hd, rfl⟩ := List.mem_map.1 hc
    exact toLower_plain d (hm d hd)
  intro n hn
  unfold signedNames signedFields at hn
  rcases List.mem_append.1 hn with hn | hn
  · obtain ⟨f, hf, rfl⟩ := List.mem_map.1 hn
    have hw : Wanted sel f := by simpa using (List.mem_filter.1 hf).2
    rcases hw.2 with h | ⟨m, hm, e⟩
    · exact absurd h hne
    · rw [← e, Spec.lower_eq]; exact low _ (h1 m hm)
  · obtain ⟨m, hm, rfl⟩ := List.mem_map.1 hn
    rw [Spec.lower_eq]; exact low _ (h2 m hm)

/-- C45: with options reached by any history of setters, a non-empty selection and names of plain ASCII, the text
`CreateSignature` returns consists of printable ASCII, space, TAB, CR and LF, whatever the message contains. -/
theorem C45_plain (o : Options E) (hsafe : SafeOptions o) (clock : Nat → Int) (d H : Bytes)
    (hne : o.headers ≠ []) (h1 : ∀ n ∈ o.headers, PlainText n) (h2 : ∀ n ∈ o.oversign, PlainText n)
    (hsign : (Signatory.createSignature E o clock { file := freshStream d }).1 = .ok H) : PlainText H := by
  obtain ⟨m, s', ls, p1, hd, _, _⟩ := C20_parse d
  obtain ⟨ts, cs, e, hlen, _, _, hts⟩ := C55_generated o clock d H ls _ hd hsign
  rw [e]
  apply plain_joinLines
  intro t ht
  obtain ⟨i, hi, rfl⟩ := List.mem_iff_getElem.1 ht
  have hi2 : i < o.signatures.reverse.length := by rw [List.length_reverse, ← hlen]; exact hi
  obtain ⟨t', head, t2, sgn, q1, q2, _, _⟩ := hts i _ (List.getElem?_eq_getElem hi2)
  rw [List.getElem?_eq_getElem hi] at q1
  cases q1
  obtain ⟨r1, r2⟩ := hsafe _ (List.mem_reverse.1 (List.getElem_mem hi2))
  exact plain_fieldText q2 (signedNames_plain _ _ hne h1 h2 _) r1 r2

theorem defaultHeaders_plain : ∀ n ∈ defaultHeaders, PlainText n := by decide +kernel

/-- C45 applies: the field `fullOpts` (two signatures, all options) generates. -/
example : ∃ H, (Signatory.createSignature toyEnv Samples.fullOpts (fun _ => 0) { file := freshStream Samples.message }).1 = .ok H ∧
    PlainText H := by
  obtain ⟨H, h, _⟩ := Samples.fullOpts_signs
  exact ⟨H, h, C45_plain Samples.fullOpts Samples.fullOpts_safe (fun _ => 0) Samples.message H (by decide) (by decide) (by decide) h⟩

end Dkim

import Verif.Props.RoundTrip
import Verif.Props.SignatureHistory
import Verif.Props.Signing
/-!
# Property C53 (continued): a generated signature is rejected after its expiration
-/

namespace Dkim
open Spec

variable {E : Env}

/-- The signature fields found in the signed message are the generated ones. -/
theorem signed_fields (o : Options E) (hsafe : SafeOptions o) (clock : Nat → Int)
    (d H : Bytes) (ls : List Bytes) (off : Int) (hd : HeadText 0 d ls off)
    (start : ∀ c ∈ d.head?, Spec.isWSP c = false)
    (names : ∀ n ∈ signedNames o.headers o.oversign ((groupLines ls).map mkField), IsFieldName n)
    (hsign : (Signatory.createSignature E o clock { file := freshStream d }).1 = .ok H) :
    ∃ v cs bh, Validatory.mk' (freshStream (H ++ CRLF ++ d)) (kindOf o) = .ok v ∧
      ∀ (i : Nat) s, o.signatures.reverse[i]? = some s → ∃ t, v.sigs[i]? = some (genHeader o t) ∧
        oneSignature E o s (clock i) (lines cs) (signedNames o.headers o.oversign ((groupLines ls).map mkField)) bh = .ok t := by
  obtain ⟨m, s1, cs, hp, hcap, hcs, hall⟩ := createSignature_ok o clock d H hsign
  obtain ⟨m2, s2, p1, p2, p3, _, _⟩ := parseAll_head hd (freshStream d) (at_fresh d)
  rw [hp] at p1; cases p1
  rw [← p2] at names ⊢
  obtain ⟨ts, l1, l2, l3⟩ := allSignatures_ok o clock _ _ _ 0 [] _ H hall
  simp only [List.isEmpty_nil, if_true] at l2
  have noLF : ∀ s ∈ o.signatures, LF ∉ s.domain ∧ LF ∉ s.selector := by
    intro s hs
    obtain ⟨q1, q2⟩ := hsafe s hs
    exact ⟨val_not_LF (fun c hc => letDig_val (C24_no_injection _ q1 c hc)),
      val_not_LF (fun c hc => letDig_val (C24_no_injection _ q2 c hc))⟩
  obtain ⟨fs, f1, f2, f3⟩ := all_fields o ts (by
    intro t ht
    obtain ⟨i, hi, e⟩ := List.mem_iff_getElem.1 ht
    have hi2 : i < o.signatures.reverse.length := by rw [← l1]; exact hi
    obtain ⟨t', e1, e2⟩ := l3 i _ (List.getElem?_eq_getElem hi2)
    rw [List.getElem?_eq_getElem hi, e] at e1
    cases e1
    have hs : o.signatures.reverse[i] ∈ o.signatures := List.mem_reverse.1 (List.getElem_mem hi2)
    exact one_field e2 (fun n hn => val_not_LF (fun c hc => (fieldName_val (names n hn) hc).1)) (noLF _ hs).1 (noLF _ hs).2)
  have hne : fs ≠ [] := by
    rintro rfl
    simp at f1
    rw [f1] at l1
    simp [Options.signatures] at l1
  obtain ⟨m', s', g1, g2, g3⟩ := parse_prepended fs hne f2 d start m s1 hp
  rw [f1, ← l2] at g1 g3
  rw [f3] at g2
  have hmk : Validatory.mk' (freshStream (H ++ CRLF ++ d)) (kindOf o) =
      .ok { file := s', msg := m', sigs := m'.headers.filter (isSigHeader (kindOf o)) } := by
    unfold Validatory.mk'
    rw [g1]
  refine ⟨_, cs, E.hash o.digest (cap o.bodySignLength o.bodyLength (Spec.canonBody o.canonBody (bodyPart d m.bodyOffset))), hmk, ?_⟩
  intro i s hi
  obtain ⟨t, e1, e2⟩ := l3 i s hi
  rw [Nat.zero_add] at e2
  have hgen : ∀ x, isSigHeader (kindOf o) (genHeader o x) = true := by
    intro x
    unfold isSigHeader kindOf
    have hl := sigFieldName_lower o
    show (match (if o.arcInstance ≠ 0 then ValidatorType.arc else .dkim) with
      | .dkim => decide (lower (sigFieldName o) = b!"dkim-signature")
      | .arc => decide (lower (sigFieldName o) = b!"arc-message-signature")
      | .none => false) = true
    rw [hl]
    by_cases h0 : o.arcInstance ≠ 0
    · simp only [if_pos h0, decide_true]
    · simp only [if_neg h0, decide_true]
  refine ⟨t, ?_, e2⟩
  simp only [g2, List.filter_append]
  have : (ts.map (genHeader o)).filter (isSigHeader (kindOf o)) = ts.map (genHeader o) := by
    rw [List.filter_eq_self]
    intro x hx
    obtain ⟨y, _, rfl⟩ := List.mem_map.1 hx
    exact hgen y
  rw [this, List.getElem?_append_left, List.getElem?_map, e1]
  · rfl
  · rw [List.length_map]
    exact (List.getElem?_eq_some_iff.1 e1).1

/-- C53: with an expiration requested, the generated signatures (that verify up to that time, C44) are rejected with a
permanent error at every later time, before any key is looked up, whatever the history. -/
theorem C53_expired (o : Options E) (hsafe : SafeOptions o) (clock : Nat → Int) (now0 : Int)
    (d H : Bytes) (ls : List Bytes) (off : Int) (hd : HeadText 0 d ls off)
    (wf : WellFormed o clock now0 d ((groupLines ls).map mkField)) (hx : o.expirationSign = true)
    (hsign : (Signatory.createSignature E o clock { file := freshStream d }).1 = .ok H) :
    ∃ v, Validatory.mk' (freshStream (H ++ CRLF ++ d)) (kindOf o) = .ok v ∧
      ∀ (i : Nat) s, o.signatures.reverse[i]? = some s → ∃ h, v.sigs[i]? = some h ∧
        ∀ (w : Validatory) (er : Bool) (now : Int) (resolver : Bytes → Bool × Bytes),
          expiryTime o (clock i) < now → now < 2 ^ 63 →
          ∃ r, (w.verifyOne E now resolver h er).1 = .error (.perm r .permerror) ∧ (w.verifyOne E now resolver h er).2.2.1 = {} := by
  obtain ⟨v, cs, bh, h1, h2⟩ := signed_fields o hsafe clock d H ls off hd wf.start wf.names hsign
  refine ⟨v, h1, ?_⟩
  intro i s hi
  obtain ⟨t, e1, hone⟩ := h2 i s hi
  refine ⟨_, e1, ?_⟩
  intro w er now resolver hlt hnow
  have hs : s ∈ o.signatures := List.mem_reverse.1 (List.mem_of_getElem? hi)
  have hdom := hsafe s hs
  obtain ⟨loc, dom, hid⟩ := wf.identity s hs
  obtain ⟨before, bv, t2, sgn, es, k1, k2, rfl, k4, k5, G, k7, k8, k9⟩ := oneSignature_tags hone
    (List.ne_nil_of_mem wf.from_signed) wf.names
    (fun c hc => letDig_val (C24_no_injection _ hdom.1 c hc)) (fun c hc => letDig_val (C24_no_injection _ hdom.2 c hc))
    (by
      intro h0
      cases hid with
      | arc _ hh => exact hh
      | domain hh => exact absurd hh h0
      | user _ _ hh => exact absurd hh h0)
  have hval : valueText (genHeader o (sigFieldName o ++ COLON :: (before ++ bv))) = before ++ bv := by
    unfold valueText genHeader
    simp only
    rw [List.drop_append]; simp
  have hxt := G.expires
  rw [if_pos hx] at hxt
  obtain ⟨q1, q2, q3⟩ := expOf_expiry (k8 hx)
  have hnn : 0 ≤ expiryTime o (clock i) := by
    obtain ⟨a, b⟩ := wf.expiry hx
    exact Int.le_trans a (b i)
  have hdec : Decimal (expOf o (clock i)).toNat (fmtLu (expOf o (clock i))) := fmtLu_nonneg (by rw [q1]; exact hnn) (by omega)
  obtain ⟨f1, f2, f3⟩ := hdec.facts
  have hdig : IsDigits (fmtLu (expOf o (clock i))) := ⟨f1, fun c hc => by
    have := f2 c hc
    simpa [isDigit, IsDigit] using this⟩
  obtain ⟨r, st', hp⟩ := C28_expired_rejected E now (genHeader o (sigFieldName o ++ COLON :: (before ++ bv))) er es _
    (by rw [hval]; exact k4) hxt hdig hnow (by rw [digitsVal_eq, f3]; omega)
  refine ⟨r, ?_⟩
  unfold Validatory.verifyOne Validatory.getSignature
  rw [hp]
  exact ⟨rfl, rfl⟩

/-- The hypotheses are those of C44; the sample of C44 expires at 150. -/
example : expiryTime Samples.fullOpts 0 = 150 ∧ Samples.fullOpts.expirationSign = true := by decide

end Dkim

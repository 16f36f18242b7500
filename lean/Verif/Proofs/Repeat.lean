import Verif.Proofs.Signing
/-!
# Proofs: calling `CreateSignature` again on the same object
-/

namespace Dkim
open Spec

variable {E : Env}

theorem parseLoop_end (n : Nat) (m m' : Message) (s s' : IStream) (hd : m.done = false)
    (h : m.parseLoop n s = .ok (m', s')) : m'.tmp = none ∨ (m'.bodyOffset = -1 ∧ s'.good = false) := by
  induction n generalizing m s with
  | zero => cases h
  | succ n ih =>
    unfold Message.parseLoop at h
    cases hl : m.parseLine s with
    | mk ok r =>
      obtain ⟨m1, s1⟩ := r
      rw [hl] at h
      simp only at h
      unfold Message.parseLine at hl
      cases hg : s.getline with
      | mk o s2 =>
        rw [hg] at hl
        cases o with
        | none =>
          simp only [Prod.mk.injEq] at hl
          obtain ⟨rfl, rfl, rfl⟩ := hl
          simp only [Bool.false_and, Bool.false_eq_true, if_false, Except.ok.injEq, Prod.mk.injEq] at h
          obtain ⟨rfl, rfl⟩ := h
          refine .inr ⟨rfl, ?_⟩
          unfold IStream.getline at hg
          split at hg
          · simp only [Prod.mk.injEq, true_and] at hg; subst hg; simp [IStream.good]
          · simp only at hg
            split at hg
            · cases hg
            · split at hg
              · simp only [Prod.mk.injEq, true_and] at hg; subst hg; simp [IStream.good]
              · cases hg
        | some line =>
          simp only at hl
          cases hc : chopCR line with
          | nil =>
            rw [hc] at hl
            simp only [Prod.mk.injEq] at hl
            obtain ⟨rfl, rfl, rfl⟩ := hl
            simp only [Bool.not_true, Bool.and_false, Bool.false_eq_true, if_false, Except.ok.injEq, Prod.mk.injEq] at h
            obtain ⟨rfl, rfl⟩ := h
            exact .inl rfl
          | cons c cs =>
            rw [hc] at hl
            simp only [Prod.mk.injEq] at hl
            obtain ⟨rfl, rfl, rfl⟩ := hl
            have hdone : (if c ≠ TAB ∧ c ≠ SP then { m with headers := m.pushTmp, tmp := some {} } else m : Message).done = false := by
              split <;> exact hd
            simp only [hdone, Bool.not_false, Bool.and_true, if_true] at h
            exact ih _ _ rfl h

theorem bodyLoop_end (blk : Nat) (mode : CanonMode) (n : Nat) (s s' : IStream) (a a' : BodyAcc)
    (h : bodyLoop blk mode false n s a = .ok (s', a')) : s'.good = false := by
  induction n generalizing s a with
  | zero => cases h
  | succ n ih =>
    unfold bodyLoop at h
    cases hg : s.good with
    | false =>
      rw [hg] at h
      simp only [Bool.not_false, if_true, Except.ok.injEq, Prod.mk.injEq] at h
      rw [← h.1]; exact hg
    | true =>
      rw [hg] at h
      simp only [Bool.not_true, Bool.false_eq_true, if_false, false_and] at h
      exact ih _ _ h

theorem canonBody_end (s s' : IStream) (mode : CanonMode) (off : Int) (size : Nat) (r : List Bytes × Bool)
    (h : Dkim.canonBody s mode off false size = .ok (r, s')) : (off ≠ -1 → s'.good = false) ∧ (off = -1 → s' = s) := by
  unfold Dkim.canonBody canonBodyBlk at h
  by_cases ho : off = -1
  · simp only [ho, ne_eq, not_true, if_false, Except.ok.injEq, Prod.mk.injEq] at h
    exact ⟨fun hh => absurd ho hh, fun _ => h.2.symm⟩
  · refine ⟨fun _ => ?_, fun hh => absurd hh ho⟩
    simp only [ne_eq, ho, not_false_eq_true, if_true] at h
    cases hb : bodyLoop 8096 mode false (s.data.length + 2) (s.clear.seekg off) { size := size } with
    | error e => rw [hb] at h; cases h
    | ok p =>
      obtain ⟨s2, a⟩ := p
      rw [hb] at h
      simp only [Except.ok.injEq, Prod.mk.injEq] at h
      rw [← h.2]
      exact bodyLoop_end _ _ _ _ _ _ _ hb

/-- The second and later calls, on a stream that was read to its end. -/
theorem createSignature_again (o : Options E) (clock : Nat → Int) (sg : Signatory) (hg : sg.file.good = false) :
    ∃ sg', Signatory.createSignature E o clock sg = (signParsed E o clock sg.msg.pushTmp [], sg') ∧
      sg'.file.good = false ∧ sg'.msg.headers = sg.msg.pushTmp ∧ sg'.msg.tmp = sg.msg.tmp := by
  have hp : sg.msg.parseAll sg.file =
      .ok ({ sg.msg with headers := sg.msg.pushTmp, bodyOffset := -1, done := true }, { sg.file with fail := true }) := by
    unfold Message.parseAll
    simp [Message.parseLoop, Message.parseLine, IStream.getline, hg]
  obtain ⟨r, s2, h1, h2, h3⟩ := createSignature_eq o clock sg _ _ hp (.inl rfl)
  have h4 : s2 = { sg.file with fail := true } := by
    unfold Dkim.canonBody canonBodyBlk at h1
    simp only [ne_eq, not_true, if_false, Except.ok.injEq, Prod.mk.injEq] at h1
    exact h1.2.symm
  refine ⟨⟨s2, { sg.msg with headers := sg.msg.pushTmp, bodyOffset := -1, done := true }⟩, h3.trans ?_, ?_, rfl, rfl⟩
  · rfl
  · rw [h4]; simp [IStream.good]

end Dkim

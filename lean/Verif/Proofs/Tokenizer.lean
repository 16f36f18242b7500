import Verif.Proofs.Ascii
import Verif.Model.Tokenizer
import Verif.Spec.Tokens
/-! Lemmas about white space reading. -/

namespace Dkim
open Spec

theorem loopWSP_append (s : Bytes) : (loopWSP s).1 ++ (loopWSP s).2 = s := by
  induction s with
  | nil => rfl
  | cons c r ih => unfold loopWSP; split <;> simp [ih]

theorem loopWSP_all (s : Bytes) : AllWSP (loopWSP s).1 := by
  induction s with
  | nil => simp [loopWSP, AllWSP]
  | cons c r ih =>
    unfold loopWSP
    split
    · rename_i h
      intro d hd
      simp only [List.mem_cons] at hd
      rcases hd with rfl | hd
      · exact h
      · exact ih d hd
    · simp [AllWSP]

theorem loopWSP_head (s : Bytes) : NotHead isWSP (loopWSP s).2 := by
  induction s with
  | nil => simp [loopWSP, NotHead]
  | cons c r ih =>
    unfold loopWSP
    split
    · exact ih
    · rename_i h
      simpa [NotHead] using h

theorem loopWSP_of {a r : Bytes} (ha : AllWSP a) (hr : NotHead isWSP r) : loopWSP (a ++ r) = (a, r) := by
  induction a with
  | nil =>
    cases r with
    | nil => rfl
    | cons c r =>
      have : isWSP c = false := by simpa [NotHead] using hr
      simp [loopWSP, this]
  | cons c a ih =>
    have hc : isWSP c = true := ha c (by simp)
    have ih := ih (fun d hd => ha d (by simp [hd]))
    simp [loopWSP, hc, ih]

theorem isWSP_CR : isWSP CR = false := by decide
theorem isWSP_LF : isWSP LF = false := by decide

/-- Every text starts with a WSP prefix followed by something else. -/
theorem wsp_split (s : Bytes) : ∃ a r, s = a ++ r ∧ AllWSP a ∧ NotHead isWSP r :=
  ⟨(loopWSP s).1, (loopWSP s).2, (loopWSP_append s).symm, loopWSP_all s, loopWSP_head s⟩

theorem readFWS_plain {a r : Bytes} (ha : AllWSP a) (hr : Stop r) : readFWS (a ++ r) = .ok (a, r) := by
  have h1 : NotHead isWSP r := by
    intro c hc; have := hr c hc; simp at this; exact this.1
  simp only [readFWS, loopWSP_of ha h1]
  cases r with
  | nil => rfl
  | cons c r =>
    have : c ≠ CR := by have := hr c (by simp); simp at this; exact this.2
    simp [readCRLF, this]

theorem readFWS_fold {a b r : Bytes} (ha : AllWSP a) (hb : AllWSP b) (hne : b ≠ [])
    (hr : NotHead isWSP r) : readFWS (a ++ CRLF ++ b ++ r) = .ok (a ++ CRLF ++ b, r) := by
  have h1 : NotHead isWSP (CRLF ++ b ++ r) := by simp [NotHead, isWSP_CR]
  have e : a ++ CRLF ++ b ++ r = a ++ (CRLF ++ b ++ r) := by simp
  cases b with
  | nil => exact absurd rfl hne
  | cons w b =>
    have hw : isWSP w = true := hb w (by simp)
    have hb' : AllWSP b := fun d hd => hb d (by simp [hd])
    rw [e]
    simp only [readFWS, loopWSP_of ha h1]
    simp [readCRLF, readWSP, hw, loopWSP_of hb' hr]

theorem readFWS_unwind {a r : Bytes} (ha : AllWSP a) (hr : NotHead isWSP r) :
    readFWS (a ++ CRLF ++ r) = .ok ([], a ++ CRLF ++ r) := by
  have h1 : NotHead isWSP (CRLF ++ r) := by simp [NotHead, isWSP_CR]
  have e : a ++ CRLF ++ r = a ++ (CRLF ++ r) := by simp
  rw [e]
  simp only [readFWS, loopWSP_of ha h1]
  cases r with
  | nil => simp [readCRLF, readWSP]
  | cons c r =>
    have : isWSP c = false := by simpa [NotHead] using hr
    simp [readCRLF, readWSP, this]

theorem readFWS_bad {a r : Bytes} (ha : AllWSP a) (hr : NotHead (· == LF) r) :
    readFWS (a ++ CR :: r) = .error (.p .crWithoutLf) := by
  have h1 : NotHead isWSP (CR :: r) := by simp [NotHead, isWSP_CR]
  simp only [readFWS, loopWSP_of ha h1]
  cases r with
  | nil => simp [readCRLF]
  | cons c r =>
    have : c ≠ LF := by simpa [NotHead] using hr
    simp [readCRLF, this]

/-- The four cases of `readFWS`. -/
theorem readFWS_cases (s : Bytes) :
    (∃ a r, s = a ++ r ∧ AllWSP a ∧ Stop r) ∨
    (∃ a b r, s = a ++ CRLF ++ b ++ r ∧ AllWSP a ∧ AllWSP b ∧ b ≠ [] ∧ NotHead isWSP r) ∨
    (∃ a r, s = a ++ CRLF ++ r ∧ AllWSP a ∧ NotHead isWSP r) ∨
    (∃ a r, s = a ++ CR :: r ∧ AllWSP a ∧ NotHead (· == LF) r) := by
  obtain ⟨a, t, rfl, ha, ht⟩ := wsp_split s
  cases t with
  | nil => exact Or.inl ⟨a, [], rfl, ha, by simp [Stop, NotHead]⟩
  | cons c r =>
    have hc : isWSP c = false := by simpa [NotHead] using ht
    by_cases hcr : c = CR
    · subst hcr
      cases r with
      | nil => exact Or.inr (Or.inr (Or.inr ⟨a, [], rfl, ha, by simp [NotHead]⟩))
      | cons d r =>
        by_cases hd : d = LF
        · subst hd
          obtain ⟨b, q, rfl, hb, hq⟩ := wsp_split r
          by_cases hbe : b = []
          · subst hbe
            exact Or.inr (Or.inr (Or.inl ⟨a, q, by simp, ha, hq⟩))
          · exact Or.inr (Or.inl ⟨a, b, q, by simp, ha, hb, hbe, hq⟩)
        · exact Or.inr (Or.inr (Or.inr ⟨a, d :: r, rfl, ha, by simpa [NotHead] using hd⟩))
    · exact Or.inl ⟨a, c :: r, rfl, ha, by simp [Stop, NotHead, hc, hcr]⟩

theorem Spec.FwsRun.of_allWSP {a : Bytes} (ha : AllWSP a) : FwsRun a := by
  induction a with
  | nil => exact .nil
  | cons c a ih => exact .wsp c a (ha c (by simp)) (ih (fun d hd => ha d (by simp [hd])))

theorem Spec.FwsRun.append {a b : Bytes} (ha : FwsRun a) (hb : FwsRun b) : FwsRun (a ++ b) := by
  induction ha with
  | nil => exact hb
  | wsp w r hw _ ih => exact .wsp w _ hw ih
  | fold w r hw _ ih => exact .fold w _ hw ih

theorem Spec.FwsRun.of_isFWS {s : Bytes} (h : IsFWS s) : FwsRun s := by
  rcases h with h | ⟨a, b, ha, hb, hne, rfl⟩
  · exact .of_allWSP h
  · cases b with
    | nil => exact absurd rfl hne
    | cons w b =>
      rw [List.append_assoc]
      exact .append (.of_allWSP ha) (.fold w b (hb w (by simp))
        (.of_allWSP (fun d hd => hb d (by simp [hd]))))

/-- `readFWS` loses nothing and consumes an FWS. -/
theorem readFWS_ok {s w r : Bytes} (h : readFWS s = .ok (w, r)) : s = w ++ r ∧ IsFWS w := by
  rcases readFWS_cases s with ⟨a, q, rfl, ha, hq⟩ | ⟨a, b, q, rfl, ha, hb, hne, hq⟩ |
    ⟨a, q, rfl, ha, hq⟩ | ⟨a, q, rfl, ha, hq⟩
  · rw [readFWS_plain ha hq] at h
    injection h with h; injection h with h1 h2
    subst h1 h2
    exact ⟨rfl, Or.inl ha⟩
  · rw [readFWS_fold ha hb hne hq] at h
    injection h with h; injection h with h1 h2
    subst h1 h2
    exact ⟨rfl, Or.inr ⟨a, b, ha, hb, hne, rfl⟩⟩
  · rw [readFWS_unwind ha hq] at h
    injection h with h; injection h with h1 h2
    subst h1 h2
    exact ⟨rfl, Or.inl (by simp [AllWSP])⟩
  · rw [readFWS_bad ha hq] at h; cases h

theorem readFWS_error {s : Bytes} {e : Err} (h : readFWS s = .error e) :
    e = .p .crWithoutLf ∧ ∃ a r, s = a ++ CR :: r ∧ AllWSP a ∧ NotHead (· == LF) r := by
  rcases readFWS_cases s with ⟨a, q, rfl, ha, hq⟩ | ⟨a, b, q, rfl, ha, hb, hne, hq⟩ |
    ⟨a, q, rfl, ha, hq⟩ | ⟨a, q, rfl, ha, hq⟩
  · rw [readFWS_plain ha hq] at h; cases h
  · rw [readFWS_fold ha hb hne hq] at h; cases h
  · rw [readFWS_unwind ha hq] at h; cases h
  · rw [readFWS_bad ha hq] at h
    injection h with h
    exact ⟨h.symm, a, q, rfl, ha, hq⟩

theorem readFWS_length {s w r : Bytes} (h : readFWS s = .ok (w, r)) :
    w.length + r.length = s.length := by rw [(readFWS_ok h).1]; simp

/-- A maximal run of folding white space is read piece by piece. -/
theorem readFWS_run {f t : Bytes} (hf : FwsRun f) (hne : f ≠ []) (ht : Stop t) :
    ∃ f1 f2, f = f1 ++ f2 ∧ f1 ≠ [] ∧ FwsRun f2 ∧ readFWS (f ++ t) = .ok (f1, f2 ++ t) := by
  -- split off the WSP prefix
  have key : ∀ f, FwsRun f → ∃ a g, f = a ++ g ∧ AllWSP a ∧
      (g = [] ∨ ∃ w r, g = CR :: LF :: w :: r ∧ isWSP w = true ∧ FwsRun r) := by
    intro f hf
    induction hf with
    | nil => exact ⟨[], [], rfl, by simp [AllWSP], Or.inl rfl⟩
    | wsp w r hw _ ih =>
      obtain ⟨a, g, rfl, ha, hg⟩ := ih
      refine ⟨w :: a, g, rfl, ?_, hg⟩
      intro c hc
      simp only [List.mem_cons] at hc
      rcases hc with rfl | hc
      · exact hw
      · exact ha c hc
    | fold w r hw hr ih => exact ⟨[], _, rfl, by simp [AllWSP], Or.inr ⟨w, r, rfl, hw, hr⟩⟩
  obtain ⟨a, g, rfl, ha, hg⟩ := key f hf
  rcases hg with rfl | ⟨w, r, rfl, hw, hr⟩
  · simp only [List.append_nil] at hne ⊢
    exact ⟨a, [], by simp, hne, .nil, by simpa using readFWS_plain ha ht⟩
  · obtain ⟨b, g', rfl, hb, hg'⟩ := key r hr
    have hhead : NotHead isWSP (g' ++ t) := by
      rcases hg' with rfl | ⟨w', r', rfl, _, _⟩
      · intro c hc; have := ht c (by simpa using hc); simp at this; exact this.1
      · simp [NotHead, isWSP_CR]
    have hg2 : FwsRun g' := by
      rcases hg' with rfl | ⟨w', r', rfl, hw', hr'⟩
      · exact .nil
      · exact .fold _ _ hw' hr'
    have := readFWS_fold (b := w :: b) (r := g' ++ t) ha (by
      intro c hc
      simp only [List.mem_cons] at hc
      rcases hc with rfl | hc
      · exact hw
      · exact hb c hc) (by simp) hhead
    refine ⟨a ++ CRLF ++ w :: b, g', by simp, by simp, hg2, ?_⟩
    rw [← this]; simp

/-! ### skipFWS -/

theorem skipFWS_no_hang (n : Nat) (s : Bytes) (h : s.length < n) : skipFWS n s ≠ .error .hang := by
  induction n generalizing s with
  | zero => omega
  | succ n ih =>
    unfold skipFWS
    split
    · rename_i e he
      have := (readFWS_error he).1
      subst this
      simp
    · rename_i w r hw
      split
      · simp
      · rename_i hne
        have hl := readFWS_length hw
        have : 0 < w.length := by
          cases w with
          | nil => simp at hne
          | cons => simp
        split
        · rename_i e he
          have := ih r (by omega)
          rw [he] at this
          simpa using this
        · simp

theorem skipFWS_ok {n : Nat} {s r : Bytes} {b : Bool} (h : skipFWS n s = .ok (b, r)) :
    ∃ f, s = f ++ r ∧ FwsRun f ∧ (b = true ↔ f ≠ []) := by
  induction n generalizing s b with
  | zero => simp [skipFWS] at h
  | succ n ih =>
    unfold skipFWS at h
    split at h
    · cases h
    · rename_i w q hw
      obtain ⟨rfl, hfw⟩ := readFWS_ok hw
      split at h
      · rename_i he
        injection h with h; injection h with h1 h2
        subst h1 h2
        have : w = [] := by simpa using he
        subst this
        exact ⟨[], rfl, .nil, by simp⟩
      · rename_i he
        split at h
        · cases h
        · rename_i x q' hq
          injection h with h; injection h with h1 h2
          subst h1 h2
          obtain ⟨f, rfl, hf, _⟩ := ih hq
          have : w ≠ [] := by simpa using he
          exact ⟨w ++ f, by simp, (FwsRun.of_isFWS hfw).append hf, by simp [this]⟩

theorem skipFWS_run {f t : Bytes} (hf : FwsRun f) (ht : Stop t) (n : Nat) (hn : f.length < n) :
    skipFWS n (f ++ t) = .ok (!f.isEmpty, t) := by
  induction n generalizing f with
  | zero => omega
  | succ n ih =>
    unfold skipFWS
    by_cases hne : f = []
    · subst hne
      have := readFWS_plain (a := []) (r := t) (by simp [AllWSP]) ht
      simp at this
      simp [this]
    · obtain ⟨f1, f2, rfl, h1, h2, h3⟩ := readFWS_run hf hne ht
      rw [h3]
      have : f1.isEmpty = false := by cases f1 <;> simp_all
      simp only [this, Bool.false_eq_true, if_false]
      have hl : 0 < f1.length := by cases f1 <;> simp_all
      rw [ih h2 (by simp at hn; omega)]
      cases f1 <;> simp_all

/-- Errors of `skipFWS` with enough fuel are a CR without LF. -/
theorem skipFWS_error {n : Nat} {s : Bytes} {e : Err} (hn : s.length < n)
    (h : skipFWS n s = .error e) :
    e = .p .crWithoutLf ∧ ∃ f r, s = f ++ CR :: r ∧ FwsRun f ∧ NotHead (· == LF) r := by
  induction n generalizing s with
  | zero => omega
  | succ n ih =>
    unfold skipFWS at h
    split at h
    · rename_i e' he
      injection h with h
      subst h
      obtain ⟨h1, a, r, h2, h3, h4⟩ := readFWS_error he
      exact ⟨h1, a, r, h2, .of_allWSP h3, h4⟩
    · rename_i w r hw
      obtain ⟨rfl, hfw⟩ := readFWS_ok hw
      split at h
      · cases h
      · rename_i hne
        have : 0 < w.length := by cases w <;> simp_all
        split at h
        · rename_i e' he
          injection h with h
          subst h
          obtain ⟨h1, f, q, h2, h3, h4⟩ := ih (by simp at hn; omega) he
          subst h2
          exact ⟨h1, w ++ f, q, by simp, (FwsRun.of_isFWS hfw).append h3, h4⟩
        · cases h

end Dkim

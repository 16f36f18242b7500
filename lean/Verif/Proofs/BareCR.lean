import Verif.Proofs.HeaderClean
/-! When `FilterHeader` throws: for every text, also badly folded ones. -/

namespace Dkim
open Spec

theorem bareCR_nil : ¬ HasBareCR [] := by
  rintro ⟨a, b, h, _⟩
  simp at h

theorem bareCR_cons (c : Byte) (r : Bytes) :
    HasBareCR (c :: r) ↔ (c = CR ∧ r.head? ≠ some LF) ∨ HasBareCR r := by
  constructor
  · rintro ⟨a, b, h, hb⟩
    cases a with
    | nil => cases h; exact Or.inl ⟨rfl, hb⟩
    | cons x a => cases h; exact Or.inr ⟨a, b, rfl, hb⟩
  · rintro (⟨rfl, h⟩ | ⟨a, b, rfl, hb⟩)
    · exact ⟨[], r, rfl, h⟩
    · exact ⟨c :: a, b, rfl, hb⟩

theorem bareCR_ne {c : Byte} (h : c ≠ CR) (r : Bytes) : HasBareCR (c :: r) ↔ HasBareCR r := by
  rw [bareCR_cons]; simp [h]

theorem bareCR_CRLF (r : Bytes) : HasBareCR (CR :: LF :: r) ↔ HasBareCR r := by
  rw [bareCR_cons, bareCR_ne (by decide)]; simp

/-- Text without CR in front. -/
theorem bareCR_front {a : Bytes} (h : CR ∉ a) (b : Bytes) : HasBareCR (a ++ b) ↔ HasBareCR b := by
  induction a with
  | nil => rfl
  | cons c a ih =>
    rw [List.cons_append, bareCR_ne (by rintro rfl; simp at h), ih (by intro hc; exact h (by simp [hc]))]

theorem bareCR_noCR {a : Bytes} (h : CR ∉ a) : ¬ HasBareCR a := by
  have := bareCR_front h []
  rw [List.append_nil] at this
  rw [this]; exact bareCR_nil

/-- Text put together where no CRLF arises. -/
theorem bareCR_append (a : Bytes) {b : Bytes} (h : b.head? ≠ some LF) :
    HasBareCR (a ++ b) ↔ HasBareCR a ∨ HasBareCR b := by
  induction a with
  | nil => simp [bareCR_nil]
  | cons c a ih =>
    rw [List.cons_append, bareCR_cons, bareCR_cons, ih]
    cases a with
    | nil => simp [h, or_assoc]
    | cons d a => simp [or_assoc]

theorem Spec.FwsRun.bareCR {f : Bytes} (hf : FwsRun f) (t : Bytes) : HasBareCR (f ++ t) ↔ HasBareCR t := by
  induction hf with
  | nil => rfl
  | wsp w r hw _ ih => rw [List.cons_append, bareCR_ne (by rintro rfl; exact absurd hw (by decide)), ih]
  | fold w r hw _ ih =>
    rw [List.cons_append, List.cons_append, List.cons_append, bareCR_CRLF,
      bareCR_ne (by rintro rfl; exact absurd hw (by decide)), ih]

theorem collapse_bare (n : Nat) : ∀ s : Bytes, s.length < n →
    (¬ HasBareCR s ∧ ∃ x, collapse n s = .ok x ∧ (COLON ∈ s → COLON ∈ x)) ∨
    (HasBareCR s ∧ collapse n s = .error (.p .crWithoutLf)) := by
  induction n with
  | zero => intro s h; omega
  | succ n ih =>
    intro s hn
    unfold collapse
    cases hs : skipFWS (s.length + 1) s with
    | error e =>
      obtain ⟨rfl, f, r, rfl, hf, hr⟩ := skipFWS_error (by omega) hs
      refine Or.inr ⟨⟨f, r, rfl, ?_⟩, rfl⟩
      cases r with
      | nil => simp
      | cons d r =>
        have : d ≠ LF := by simpa [NotHead] using hr
        simpa using this
    | ok p =>
      obtain ⟨b, t⟩ := p
      obtain ⟨f, rfl, hf, _⟩ := skipFWS_ok hs
      have hst := skipFWS_stops hs
      rw [hf.bareCR]
      cases t with
      | nil =>
        refine Or.inl ⟨bareCR_nil, [], rfl, ?_⟩
        rw [List.append_nil]
        exact fun h => absurd h hf.no_colon
      | cons c r =>
        have hc : HasBareCR (c :: r) ↔ HasBareCR r := by
          rcases hst with h1 | ⟨a, q, h1, h2, _⟩
          · refine bareCR_ne ?_ r
            rintro rfl
            have := h1 CR (by simp)
            simp at this
          · cases a with
            | nil =>
              simp only [CRLF, List.nil_append, List.cons_append, List.cons.injEq] at h1
              obtain ⟨rfl, rfl⟩ := h1
              rw [bareCR_cons]; simp
            | cons w a =>
              simp only [List.cons_append, List.cons.injEq] at h1
              obtain ⟨rfl, _⟩ := h1
              have := h2 c (by simp)
              exact bareCR_ne (by rintro rfl; exact absurd this (by decide)) r
        rw [hc]
        have hl : r.length < n := by simp at hn; omega
        rcases ih r hl with ⟨i1, x, i2, i3⟩ | ⟨i1, i2⟩
        · refine Or.inl ⟨i1, (if b then [SP] else []) ++ c :: x, by simp only [i2], ?_⟩
          intro hm
          rw [List.mem_append] at hm
          rcases hm with hm | hm
          · exact absurd hm hf.no_colon
          · rcases List.mem_cons.1 hm with rfl | hm
            · simp
            · simp [i3 hm]
        · exact Or.inr ⟨i1, by simp only [i2]⟩

theorem colonTrim_ok (input : Bytes) {x : Bytes} (h : COLON ∈ x) : ∃ t, colonTrim input x = .ok t := by
  unfold colonTrim
  rcases findIdx_split (· == COLON) x with ⟨_, h2⟩ | ⟨a, y, b, rfl, hy, h1, h2⟩
  · exact absurd (h2 COLON h) (by decide)
  · rw [h2]
    dsimp only
    split
    · split
      · exact ⟨_, rfl⟩
      · exact ⟨_, rfl⟩
    · exact ⟨_, rfl⟩

/-- Relaxed filtering throws exactly without colon or with a CR that is not followed by LF. -/
theorem filterHeader_bareCR {s : Bytes} (hc : COLON ∈ s) :
    (¬ HasBareCR s ∧ ∃ t, filterHeader .relaxed s = .ok t) ∨
    (HasBareCR s ∧ filterHeader .relaxed s = .error (.p .crWithoutLf)) := by
  obtain ⟨hs, hn, hidx⟩ := field_split hc
  unfold filterHeader
  rw [hidx]
  simp only
  have hout : (lower (s.take (fieldName s).length) ++ s.drop (fieldName s).length).map cls = s.map cls := by
    rw [map_cls_lower, List.take_append_drop]
  have hb : HasBareCR (lower (s.take (fieldName s).length) ++ s.drop (fieldName s).length) ↔ HasBareCR s :=
    ⟨HasBareCR_cls hout.symm, HasBareCR_cls hout⟩
  have hcol : COLON ∈ lower (s.take (fieldName s).length) ++ s.drop (fieldName s).length := by
    apply List.mem_append_right
    have : s.drop (fieldName s).length = COLON :: fieldValue s := by
      have h2 : ∀ n, n = (fieldName s).length → (fieldName s ++ COLON :: fieldValue s).drop n = COLON :: fieldValue s :=
        fun n hn => List.drop_left' hn.symm
      rw [← hs] at h2
      exact h2 _ rfl
    rw [this]
    simp
  rcases collapse_bare ((lower (s.take (fieldName s).length) ++ s.drop (fieldName s).length).length + 1) _
    (Nat.lt_succ_self _) with ⟨h1, x, h2, h3⟩ | ⟨h1, h2⟩
  · rw [h2]
    exact Or.inl ⟨fun h => h1 (hb.2 h), colonTrim_ok s (h3 hcol)⟩
  · rw [h2]
    exact Or.inr ⟨hb.1 h1, rfl⟩

end Dkim

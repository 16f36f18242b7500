import Verif.Proofs.Header
/-! Lemmas about the shape of canonical header fields. -/

namespace Dkim
open Spec

theorem mem_takeWhile_imp {α : Type} {p : α → Bool} {l : List α} {x : α} (h : x ∈ l.takeWhile p) : p x = true := by
  induction l with
  | nil => simp at h
  | cons y l ih =>
    rw [List.takeWhile_cons] at h
    split at h
    · rcases List.mem_cons.1 h with rfl | h
      · assumption
      · exact ih h
    · simp at h

theorem dropWhile_idem {α : Type} (p : α → Bool) (l : List α) : (l.dropWhile p).dropWhile p = l.dropWhile p := by
  induction l with
  | nil => rfl
  | cons y l ih =>
    rw [List.dropWhile_cons]
    split
    · exact ih
    · rename_i h; rw [List.dropWhile_cons, if_neg h]

theorem squeeze_no_double (u : Bytes) : ∀ a b, squeeze u ≠ a ++ SP :: SP :: b := by
  induction u with
  | nil => intro a b h; simp [squeeze] at h
  | cons c r ih =>
    intro a b h
    by_cases hc : isWSP c = true
    · cases r with
      | nil =>
        simp [squeeze, hc] at h
        cases a with
        | nil => simp at h
        | cons x a => simp at h
      | cons d r =>
        by_cases hd : isWSP d = true
        · rw [squeeze_wsp_wsp hc hd] at h; exact ih a b h
        · have hd : isWSP d = false := by simpa using hd
          rw [squeeze_wsp_not hc hd] at h
          cases a with
          | nil =>
            rw [squeeze_cons_not hd] at h
            simp at h
            rw [h.1] at hd; exact absurd hd (by decide)
          | cons x a => simp at h; exact ih a b h.2
    · have hc : isWSP c = false := by simpa using hc
      rw [squeeze_cons_not hc] at h
      cases a with
      | nil => simp at h; rw [h.1] at hc; exact absurd hc (by decide)
      | cons x a => simp at h; exact ih a b h.2

theorem rstrip_prefix {α : Type} (p : α → Bool) (l : List α) : ∃ t, l = rstrip p l ++ t ∧ ∀ x ∈ t, p x = true := by
  induction l with
  | nil => exact ⟨[], rfl, by simp⟩
  | cons x l ih =>
    obtain ⟨t, h1, h2⟩ := ih
    rw [rstrip_cons]
    split
    · rename_i h
      refine ⟨x :: l, rfl, ?_⟩
      intro y hy
      rcases List.mem_cons.1 hy with rfl | hy
      · exact h.2
      · rw [h.1, List.nil_append] at h1
        rw [h1] at hy; exact h2 y hy
    · exact ⟨t, by rw [List.cons_append, ← h1], h2⟩

theorem rstrip_last {α : Type} (p : α → Bool) (l : List α) : ∀ x ∈ (rstrip p l).getLast?, p x = false := by
  unfold rstrip
  intro x hx
  rw [List.getLast?_reverse] at hx
  have := List.head?_dropWhile_not p l.reverse
  rw [hx] at this
  simpa using this

theorem dropWhile_suffix {α : Type} (p : α → Bool) (l : List α) : ∃ t, l = t ++ l.dropWhile p ∧ ∀ x ∈ t, p x = true :=
  ⟨l.takeWhile p, (List.takeWhile_append_dropWhile).symm, fun x hx => mem_takeWhile_imp hx⟩

theorem canonLine_clean (u : Bytes) (h : ∀ c ∈ u, c ≠ CR ∧ c ≠ LF) : CleanText (canonLine .relaxed u) := by
  refine ⟨?_, ?_, ?_⟩
  · intro c hc
    rcases mem_squeeze (mem_rstrip hc) with rfl | ⟨h1, h2⟩
    · decide
    · exact ⟨(h c h1).1, (h c h1).2, by rintro rfl; exact absurd h2 (by decide)⟩
  · intro a b e
    obtain ⟨t, ht, _⟩ := rstrip_prefix isWSP (squeeze u)
    simp only [canonLine, Spec.isWSP_eq] at e
    rw [e] at ht
    exact squeeze_no_double u a (b ++ t) (by rw [ht]; simp)
  · intro e
    have := rstrip_last isWSP (squeeze u) SP e
    exact absurd this (by decide)

theorem squeeze_clean {t : Bytes} (h1 : ∀ c ∈ t, c ≠ TAB) (h2 : ∀ a b, t ≠ a ++ SP :: SP :: b) : squeeze t = t := by
  induction t with
  | nil => rfl
  | cons c r ih =>
    have ihr := ih (fun d hd => h1 d (by simp [hd])) (fun a b e => h2 (c :: a) b (by simp [e]))
    by_cases hc : isWSP c = true
    · have hsp : c = SP := by
        simp only [isWSP, Bool.or_eq_true, beq_iff_eq] at hc
        rcases hc with h | h
        · exact h
        · exact absurd h (h1 c (by simp))
      subst hsp
      cases r with
      | nil => rfl
      | cons d r =>
        have hd : isWSP d = false := by
          cases hd : isWSP d with
          | false => rfl
          | true =>
            exfalso
            simp only [isWSP, Bool.or_eq_true, beq_iff_eq] at hd
            rcases hd with rfl | rfl
            · exact h2 [] r rfl
            · exact h1 TAB (by simp) rfl
        rw [squeeze_wsp_not hc hd, ihr]
    · rw [squeeze_cons_not (by simpa using hc), ihr]

theorem rstrip_of_last {α : Type} (p : α → Bool) (l : List α) (h : ∀ x ∈ l.getLast?, p x = false) : rstrip p l = l := by
  rcases List.eq_nil_or_concat l with rfl | ⟨l', x, rfl⟩
  · rfl
  · rw [List.concat_eq_append] at h ⊢
    exact rstrip_append_keep p l' x (h x (by simp))

theorem canonLine_of_clean {t : Bytes} (h : CleanText t) : canonLine .relaxed t = t := by
  obtain ⟨h1, h2, h3⟩ := h
  simp only [canonLine, Spec.isWSP_eq]
  rw [squeeze_clean (fun c hc => (h1 c hc).2.2) h2]
  apply rstrip_of_last
  intro x hx
  cases hw : isWSP x with
  | false => rfl
  | true =>
    exfalso
    simp only [isWSP, Bool.or_eq_true, beq_iff_eq] at hw
    rcases hw with rfl | rfl
    · exact h3 hx
    · exact (h1 TAB (List.mem_of_getLast? hx)).2.2 rfl

theorem Spec.CleanText.lower {t : Bytes} (h : CleanText t) : CleanText (Dkim.lower t) := by
  obtain ⟨h1, h2, h3⟩ := h
  refine ⟨?_, ?_, ?_⟩
  · intro c hc
    obtain ⟨d, hd, rfl⟩ := List.mem_map.1 hc
    obtain ⟨a1, a2, a3⟩ := h1 d hd
    exact ⟨by rwa [ne_eq, toLower_eq_iff d CR (by decide)], by rwa [ne_eq, toLower_eq_iff d LF (by decide)],
      by rwa [ne_eq, toLower_eq_iff d TAB (by decide)]⟩
  · intro a b e
    obtain ⟨p, l, rfl, _, h5⟩ := List.map_eq_append_iff.1 e
    obtain ⟨x, l, rfl, h6, h7⟩ := List.map_eq_cons_iff.1 h5
    obtain ⟨y, l, rfl, h8, _⟩ := List.map_eq_cons_iff.1 h7
    rw [toLower_eq_iff x SP (by decide)] at h6
    rw [toLower_eq_iff y SP (by decide)] at h8
    subst h6 h8
    exact h2 p l rfl
  · intro e
    unfold Dkim.lower at e
    rw [List.getLast?_map] at e
    cases hl : t.getLast? with
    | none => rw [hl] at e; simp at e
    | some x =>
      rw [hl] at e
      simp at e
      rw [toLower_eq_iff x SP (by decide)] at e
      exact h3 (by rw [hl, e])

theorem Spec.CleanText.dropWhile {t : Bytes} (h : CleanText t) : CleanText (t.dropWhile Dkim.isWSP) := by
  obtain ⟨h1, h2, h3⟩ := h
  obtain ⟨p, hp, _⟩ := dropWhile_suffix Dkim.isWSP t
  refine ⟨?_, ?_, ?_⟩
  · intro c hc; exact h1 c (by rw [hp]; simp [hc])
  · intro a b e; exact h2 (p ++ a) b (by rw [hp, e]; simp)
  · intro e; apply h3
    rw [hp, List.getLast?_append, e]; rfl

theorem unfold_of_clean {t : Bytes} (h : ∀ c ∈ t, c ≠ CR ∧ c ≠ LF ∧ c ≠ TAB) : Spec.unfold t = t := by
  unfold Spec.unfold
  rw [List.filter_eq_self]
  intro c hc
  simp [(h c hc).1, (h c hc).2.1]

theorem lower_lower (t : Bytes) : lower (lower t) = lower t := by
  simp only [lower, List.map_map]
  apply List.map_congr_left
  intro c _
  simp only [Function.comp_apply, toLower]
  split
  · rename_i h
    rw [if_neg]
    simp only [UInt8.le_iff_toNat_le] at h ⊢
    simp at h ⊢
    omega
  · rfl

theorem mem_lower_colon {t : Bytes} (h : COLON ∈ lower t) : COLON ∈ t := by
  obtain ⟨c, hc, e⟩ := List.mem_map.1 h
  rw [toLower_eq_iff c COLON (by decide)] at e
  exact e ▸ hc

/-- Name and value part of the canonical form. -/
theorem canonHeader_parts (s : Bytes) :
    ∃ n v, canonHeader s = n ++ COLON :: v ∧ COLON ∉ n ∧ CleanText n ∧ CleanText v ∧
      lower n = n ∧ v.dropWhile isWSP = v := by
  refine ⟨_, _, rfl, ?_, ?_, ?_, lower_lower _, ?_⟩
  · intro h
    have h := mem_lower_colon h
    rcases mem_squeeze (mem_rstrip h) with h | ⟨h, _⟩
    · exact absurd h (by decide)
    · have := (mem_unfold.1 h).1
      unfold fieldName at this
      have := mem_takeWhile_imp this
      simp at this
  · exact (canonLine_clean _ (fun c hc => (mem_unfold.1 hc).2)).lower
  · exact (canonLine_clean _ (fun c hc => (mem_unfold.1 hc).2)).dropWhile
  · exact dropWhile_idem _ _

theorem fieldName_append {n v : Bytes} (h : COLON ∉ n) : fieldName (n ++ COLON :: v) = n ∧ fieldValue (n ++ COLON :: v) = v := by
  have ha' : ∀ c ∈ n, (decide (c ≠ COLON)) = true := by
    intro c hc; simp only [decide_eq_true_eq]; rintro rfl; exact h hc
  unfold fieldName fieldValue
  rw [takeWhile_of _ n COLON v (by simp) ha', dropWhile_of _ n COLON v (by simp) ha']
  exact ⟨rfl, rfl⟩


end Dkim

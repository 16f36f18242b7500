import Verif.Proofs.HeaderClean
import Verif.Proofs.BareCR
/-!
# Properties C06, C07: header canonicalization

Spec: `Verif/Spec/Header.lean`. That the fields delivered by the message parser are `WellFolded` is
C22.
-/

namespace Dkim
open Spec

/-- C06: relaxed mode computes the RFC 6376 form. -/
theorem C06_relaxed (s : Bytes) (h : WellFolded s) (hb : ¬ HasBareCR s) (hc : COLON ∈ s)
    (hn : ¬ Blank (fieldName s)) : filterHeader .relaxed s = .ok (canonHeader s) := by
  rw [filterHeader_folded (Folded.of_wellFolded h hb) hc]
  unfold Blank at hn
  rw [Spec.isLoose_eq] at hn
  rw [if_neg hn]
  rfl

/-- C06: a field whose name consists of white space only (not a legal field) keeps one SP. -/
theorem C06_blank_name (s : Bytes) (h : WellFolded s) (hb : ¬ HasBareCR s) (hc : COLON ∈ s)
    (hn : Blank (fieldName s)) :
    filterHeader .relaxed s = .ok ((if Spec.unfold (fieldName s) = [] then [] else [SP]) ++ COLON ::
      (canonLine .relaxed (Spec.unfold (fieldValue s))).dropWhile Spec.isWSP) := by
  rw [filterHeader_folded (Folded.of_wellFolded h hb) hc]
  unfold Blank at hn
  rw [Spec.isLoose_eq] at hn
  rw [if_pos hn, Spec.isWSP_eq]

/-- C06: the permanent error occurs exactly without colon or with a CR that is not followed by LF. -/
theorem C06_throws_iff (s : Bytes) (h : WellFolded s) :
    ((∃ e, filterHeader .relaxed s = .error e) ↔ COLON ∉ s ∨ HasBareCR s) ∧
    (∀ e, filterHeader .relaxed s = .error e → e = .p (.missingColon s) ∨ e = .p .crWithoutLf) := by
  by_cases hc : COLON ∈ s
  · by_cases hb : HasBareCR s
    · rw [filterHeader_bare h hc hb]
      refine ⟨⟨fun _ => Or.inr hb, fun _ => ⟨_, rfl⟩⟩, ?_⟩
      intro e he; injection he with he; exact Or.inr he.symm
    · rw [filterHeader_folded (Folded.of_wellFolded h hb) hc]
      refine ⟨⟨?_, ?_⟩, ?_⟩
      · rintro ⟨e, he⟩; cases he
      · rintro (h1 | h1)
        · exact absurd hc h1
        · exact absurd h1 hb
      · intro e he; cases he
  · have : filterHeader .relaxed s = .error (.p (.missingColon s)) := by
      unfold filterHeader
      rcases findIdx_split (· == COLON) s with ⟨h1, _⟩ | ⟨a, x, b, rfl, hx, _, _⟩
      · rw [h1]
      · have hx : x = COLON := by simpa using hx
        subst hx; simp at hc
    rw [this]
    refine ⟨⟨fun _ => Or.inl hc, fun _ => ⟨_, rfl⟩⟩, ?_⟩
    intro e he; injection he with he; exact Or.inl he.symm

/-- C06: the same for every text, also when it is not well folded. -/
theorem C06_throws_any (s : Bytes) :
    ((∃ e, filterHeader .relaxed s = .error e) ↔ COLON ∉ s ∨ HasBareCR s) ∧
    (∀ e, filterHeader .relaxed s = .error e →
      (COLON ∉ s ∧ e = .p (.missingColon s)) ∨ (HasBareCR s ∧ e = .p .crWithoutLf)) := by
  by_cases hc : COLON ∈ s
  · rcases filterHeader_bareCR hc with ⟨h1, t, h2⟩ | ⟨h1, h2⟩ <;> rw [h2]
    · refine ⟨⟨?_, ?_⟩, ?_⟩
      · rintro ⟨e, he⟩; cases he
      · rintro (h | h)
        · exact absurd hc h
        · exact absurd h h1
      · intro e he; cases he
    · exact ⟨⟨fun _ => .inr h1, fun _ => ⟨_, rfl⟩⟩, fun e he => by injection he with he; exact .inr ⟨h1, he.symm⟩⟩
  · have : filterHeader .relaxed s = .error (.p (.missingColon s)) := by
      unfold filterHeader
      rcases findIdx_split (· == COLON) s with ⟨h1, _⟩ | ⟨a, x, b, rfl, hx, _, _⟩
      · rw [h1]
      · have hx : x = COLON := by simpa using hx
        subst hx; simp at hc
    rw [this]
    exact ⟨⟨fun _ => .inl hc, fun _ => ⟨_, rfl⟩⟩, fun e he => by injection he with he; exact .inl ⟨hc, he.symm⟩⟩

/-- A text with stray line feeds that is accepted, and one that is not. -/
example : filterHeader .relaxed b!"A\nb: c\nd" = .ok b!"a\nb:c\nd" := by decide +kernel
example : filterHeader .relaxed b!"A\nb: c\r" = .error (.p .crWithoutLf) := by decide +kernel

/-- C06: simple mode returns its input. -/
theorem C06_simple (s : Bytes) : filterHeader .simple s = .ok s := rfl

theorem output_clean_named (s t : Bytes) (h : WellFolded s) (hn : ¬ Blank (fieldName s))
    (hf : filterHeader .relaxed s = .ok t) :
    CleanText t ∧ ∃ n v, t = n ++ COLON :: v ∧ COLON ∉ n ∧ n.getLast? ≠ some SP ∧ v.head? ≠ some SP := by
  have hno := (C06_throws_iff s h).1
  have hc : COLON ∈ s ∧ ¬ HasBareCR s := by
    have : ¬ (COLON ∉ s ∨ HasBareCR s) := by
      intro h1; obtain ⟨e, he⟩ := hno.2 h1; rw [hf] at he; cases he
    simp only [not_or, Classical.not_not] at this
    exact this
  rw [C06_relaxed s h hc.2 hc.1 hn] at hf
  injection hf with hf
  subst hf
  obtain ⟨n, v, e, h1, h2, h3, _, h5⟩ := canonHeader_parts s
  rw [e]
  refine ⟨⟨?_, ?_, ?_⟩, n, v, rfl, h1, h2.2.2, ?_⟩
  · intro c hc
    rcases List.mem_append.1 hc with hc | hc
    · exact h2.1 c hc
    · rcases List.mem_cons.1 hc with rfl | hc
      · decide
      · exact h3.1 c hc
  · intro a b e'
    -- a double space lies in the name or in the value
    rcases List.append_eq_append_iff.1 e' with ⟨x, hx1, hx2⟩ | ⟨x, hx1, hx2⟩
    · cases x with
      | nil => simp at hx2; exact absurd hx2.1 (by decide)
      | cons y x =>
        simp at hx2
        exact h3.2.1 x b hx2.2
    · cases x with
      | nil => simp at hx2; exact absurd hx2.1.symm (by decide)
      | cons y x =>
        simp at hx2
        obtain ⟨rfl, hx2⟩ := hx2
        cases x with
        | nil => simp at hx2; exact absurd hx2.1.symm (by decide)
        | cons z x =>
          simp at hx2
          obtain ⟨rfl, hx2⟩ := hx2
          exact h2.2.1 a x hx1
  · intro e'
    rw [List.getLast?_append] at e'
    cases v with
    | nil => simp at e'; exact absurd e' (by decide)
    | cons y v =>
      apply h3.2.2
      rw [List.getLast?_cons_cons] at e'
      cases hl : (y :: v).getLast? with
      | none => simp at hl
      | some z => rw [hl] at e'; simpa using e'
  · intro e'
    have := List.head?_dropWhile_not isWSP v
    rw [h5, e'] at this
    exact absurd this (by decide)

theorem idempotent_named (s t : Bytes) (h : WellFolded s) (hn : ¬ Blank (fieldName s))
    (hf : filterHeader .relaxed s = .ok t) : filterHeader .relaxed t = .ok t := by
  have hno := (C06_throws_iff s h).1
  have hc : COLON ∈ s ∧ ¬ HasBareCR s := by
    have : ¬ (COLON ∉ s ∨ HasBareCR s) := by
      intro h1; obtain ⟨e, he⟩ := hno.2 h1; rw [hf] at he; cases he
    simp only [not_or, Classical.not_not] at this
    exact this
  have hcl := (output_clean_named s t h hn hf).1
  rw [C06_relaxed s h hc.2 hc.1 hn] at hf
  injection hf with hf
  have hwf : WellFolded t := by
    intro a b e; exact absurd rfl (hcl.1 LF (by rw [e]; simp)).2.1
  have hbare : ¬ HasBareCR t := by
    rintro ⟨a, b, e, _⟩; exact absurd rfl (hcl.1 CR (by rw [e]; simp)).1
  subst hf
  have hblank : ¬ Blank (fieldName (canonHeader s)) := by
    unfold canonHeader
    intro hbl
    apply hn
    obtain ⟨n, v, e, h1, _⟩ := canonHeader_parts s
    have hcol : COLON ∉ lower (canonLine .relaxed (Spec.unfold (fieldName s))) := by
      intro h
      have h := mem_lower_colon h
      rcases mem_squeeze (mem_rstrip h) with h | ⟨h, _⟩
      · exact absurd h (by decide)
      · have := (mem_unfold.1 h).1
        unfold fieldName at this
        have := mem_takeWhile_imp this
        simp at this
    rw [Spec.lower_eq, (fieldName_append hcol).1] at hbl
    intro c hc
    cases hl : isLoose c with
    | true => exact hl
    | false =>
      exfalso
      have h1 : c ∈ Spec.unfold (fieldName s) := by
        rw [mem_unfold]
        refine ⟨hc, ?_, ?_⟩ <;> (rintro rfl; exact absurd hl (by decide))
      have h2 := squeeze_mem h1 (not_loose_not_wsp hl)
      obtain ⟨t, ht, htw⟩ := rstrip_prefix isWSP (squeeze (Spec.unfold (fieldName s)))
      rw [ht] at h2
      rcases List.mem_append.1 h2 with h2 | h2
      · have h3 := hbl (toLower c) (List.mem_map_of_mem h2)
        simp only [Spec.isLoose, Bool.or_eq_true, beq_iff_eq, toLower_eq_iff c SP (by decide),
          toLower_eq_iff c TAB (by decide), toLower_eq_iff c CR (by decide), toLower_eq_iff c LF (by decide)] at h3
        rcases h3 with ((rfl | rfl) | rfl) | rfl <;> exact absurd hl (by decide)
      · exact absurd (htw c h2) (by rw [not_loose_not_wsp hl]; decide)
  obtain ⟨n, v, e, h1, h2, h3, h4, h5⟩ := canonHeader_parts s
  rw [C06_relaxed _ hwf hbare (by rw [e]; simp) hblank]
  congr 1
  rw [e]
  unfold canonHeader
  rw [(fieldName_append h1).1, (fieldName_append h1).2, unfold_of_clean h2.1, unfold_of_clean h3.1,
    canonLine_of_clean h2, canonLine_of_clean h3, Spec.lower_eq, Spec.isWSP_eq, h4, h5]

/-- A field whose name is blank becomes an optional SP, the colon and a value that needs no change. -/
theorem blank_form (s t : Bytes) (h : WellFolded s) (hn : Blank (fieldName s)) (hf : filterHeader .relaxed s = .ok t) :
    ∃ n v, t = n ++ COLON :: v ∧ (n = [] ∨ n = [SP]) ∧ CleanText v ∧ v.dropWhile Spec.isWSP = v := by
  have hc : COLON ∈ s ∧ ¬ HasBareCR s := by
    have : ¬ (COLON ∉ s ∨ HasBareCR s) := by
      intro h1; obtain ⟨e, he⟩ := (C06_throws_iff s h).1.2 h1; rw [hf] at he; cases he
    simp only [not_or, Classical.not_not] at this
    exact this
  rw [C06_blank_name s h hc.2 hc.1 hn] at hf
  injection hf with hf
  refine ⟨_, _, hf.symm, ?_, ?_, dropWhile_idem _ _⟩
  · split
    · exact .inl rfl
    · exact .inr rfl
  · rw [Spec.isWSP_eq]
    exact (canonLine_clean _ (fun c hc => (mem_unfold.1 hc).2)).dropWhile

/-- C07: the relaxed form has no CR, LF, TAB, no two adjacent spaces and no space at its end or
right after the colon; nor right before the colon, unless the name is blank. -/
theorem C07_output_clean (s t : Bytes) (h : WellFolded s) (hf : filterHeader .relaxed s = .ok t) :
    CleanText t ∧ ∃ n v, t = n ++ COLON :: v ∧ COLON ∉ n ∧ (¬ Blank (fieldName s) → n.getLast? ≠ some SP) ∧ v.head? ≠ some SP := by
  by_cases hn : Blank (fieldName s)
  · obtain ⟨n, v, rfl, hs, hv, hd⟩ := blank_form s t h hn hf
    have hcl : CleanText (COLON :: v) := by
      refine ⟨?_, ?_, ?_⟩
      · intro c hc
        rcases List.mem_cons.1 hc with rfl | hc
        · decide
        · exact hv.1 c hc
      · intro a b e
        cases a with
        | nil => simp at e; exact absurd e.1 (by decide)
        | cons x a => simp at e; exact hv.2.1 a b e.2
      · cases v with
        | nil => decide
        | cons y v => rw [List.getLast?_cons_cons]; exact hv.2.2
    have hhead : v.head? ≠ some SP := by
      intro e'
      have := List.head?_dropWhile_not Spec.isWSP v
      rw [hd, e'] at this
      exact absurd this (by decide)
    rcases hs with rfl | rfl
    · exact ⟨hcl, [], v, rfl, by simp, fun _ => by simp, hhead⟩
    · refine ⟨⟨?_, ?_, ?_⟩, [SP], v, rfl, by decide, fun h' => absurd hn h', hhead⟩
      · intro c hc
        rcases List.mem_cons.1 hc with rfl | hc
        · decide
        · exact hcl.1 c hc
      · intro a b e
        cases a with
        | nil => simp at e; exact absurd e.1 (by decide)
        | cons x a => simp at e; exact hcl.2.1 a b e.2
      · exact hcl.2.2
  · obtain ⟨h1, n, v, h2, h3, h4, h5⟩ := output_clean_named s t h hn hf
    exact ⟨h1, n, v, h2, h3, fun _ => h4, h5⟩

/-- C07: canonicalizing a canonical field returns it unchanged. -/
theorem C07_idempotent (s t : Bytes) (h : WellFolded s) (hf : filterHeader .relaxed s = .ok t) :
    filterHeader .relaxed t = .ok t := by
  by_cases hn : Blank (fieldName s)
  · have hcl := (C07_output_clean s t h hf).1
    have hwf : WellFolded t := by
      intro a b e; exact absurd rfl (hcl.1 LF (by rw [e]; simp)).2.1
    have hbare : ¬ HasBareCR t := by
      rintro ⟨a, b, e, _⟩; exact absurd rfl (hcl.1 CR (by rw [e]; simp)).1
    obtain ⟨n, v, rfl, hs, hv, hd⟩ := blank_form s t h hn hf
    have hcn : COLON ∉ n := by rcases hs with rfl | rfl <;> decide
    have hb : Blank n := by
      unfold Blank
      rcases hs with rfl | rfl <;> decide
    rw [C06_blank_name _ hwf hbare (by simp) (by rw [(fieldName_append hcn).1]; exact hb), (fieldName_append hcn).1,
      (fieldName_append hcn).2, unfold_of_clean hv.1, canonLine_of_clean hv, hd]
    rcases hs with rfl | rfl <;> rfl
  · exact idempotent_named s t h hn hf

/-! Non-vacuity: RFC 6376 section 3.4.5 example (second header), and a throwing one. -/
example : WellFolded b!"B \t: Y\t\r\n\tZ  " ∧ ¬ HasBareCR b!"B \t: Y\t\r\n\tZ  " ∧
    COLON ∈ b!"B \t: Y\t\r\n\tZ  " ∧ ¬ Blank (fieldName b!"B \t: Y\t\r\n\tZ  ") := by
  have hf : Folded b!"B \t: Y\t\r\n\tZ  " := by
    repeat first
      | exact .nil
      | refine .char _ _ (by decide) (by decide) ?_
      | refine .fold _ _ (by decide) ?_
  refine ⟨hf.wellFolded.1, hf.wellFolded.2, by decide, ?_⟩
  intro h
  exact absurd (h 66 (by decide)) (by decide)
example : canonHeader b!"B \t: Y\t\r\n\tZ  " = b!"b:Y Z" := by decide
example : filterHeader .relaxed b!"B \t: Y\t\r\n\tZ  " = .ok b!"b:Y Z" := by decide
example : filterHeader .relaxed b!" \t:  x " = .ok b!" :x" := by decide
example : HasBareCR b!"B: a\rb" := ⟨b!"B: a", b!"b", rfl, by decide⟩

end Dkim

import Verif.Spec.Binding
import Verif.Props.Unambiguous
import Verif.Proofs.Encodings
/-!
# Lemmas for C56: tags read from a text from which white space was removed
-/

namespace Dkim
open Spec

theorem compact_append (a b : Bytes) : compact (a ++ b) = compact a ++ compact b := by simp [compact]

theorem compact_loose {a : Bytes} (h : ∀ c ∈ a, Spec.isLoose c = true) : compact a = [] := by
  unfold compact
  rw [List.filter_eq_nil_iff]
  intro c hc; rw [h c hc]; decide

theorem compact_id {a : Bytes} (h : ∀ c ∈ a, Spec.isLoose c = false) : compact a = a := by
  unfold compact
  rw [List.filter_eq_self]
  intro c hc; rw [h c hc]; rfl

theorem compact_cons {c : Byte} (h : Spec.isLoose c = false) (a : Bytes) : compact (c :: a) = c :: compact a := by
  unfold compact
  rw [List.filter_cons_of_pos (by rw [h]; rfl)]

theorem mem_compact {c : Byte} {a : Bytes} : c ∈ compact a ↔ c ∈ a ∧ Spec.isLoose c = false := by
  unfold compact
  rw [List.mem_filter]
  simp only [Bool.not_eq_true']

/-- Tags written without white space: `name=value` separated or terminated by `;`. -/
inductive Squeezed : List (Bytes × Bytes) → Bytes → Prop
  | nil : Squeezed [] []
  | last (n v) : EQ ∉ n → SEMI ∉ v → Squeezed [(n, v)] (n ++ EQ :: v)
  | cons (n v l s) : EQ ∉ n → SEMI ∉ v → Squeezed l s → Squeezed ((n, v) :: l) (n ++ EQ :: (v ++ SEMI :: s))

theorem split_first {α : Type} {a : α} {x y x' y' : List α} (hx : a ∉ x) (hx' : a ∉ x')
    (h : x ++ a :: y = x' ++ a :: y') : x = x' ∧ y = y' := by
  rcases List.append_eq_append_iff.1 h with ⟨z, h1, h2⟩ | ⟨z, h1, h2⟩
  · cases z with
    | nil => simp at h1 h2; exact ⟨h1.symm, h2⟩
    | cons b z =>
      simp at h2
      exact absurd (by rw [h1, ← h2.1]; simp) hx'
  · cases z with
    | nil => simp at h1 h2; exact ⟨h1, h2.symm⟩
    | cons b z =>
      simp at h2
      exact absurd (by rw [h1, ← h2.1]; simp) hx

theorem Squeezed.det {l l' : List (Bytes × Bytes)} {s : Bytes} (h : Squeezed l s) (h' : Squeezed l' s) : l = l' := by
  induction h generalizing l' with
  | nil =>
    generalize hs : ([] : Bytes) = s at h'
    cases h' with
    | nil => rfl
    | last n v => simp at hs
    | cons n v l s => simp at hs
  | last n v hn hv =>
    generalize hs : n ++ EQ :: v = s at h'
    cases h' with
    | nil => simp at hs
    | last n' v' hn' hv' =>
      obtain ⟨rfl, rfl⟩ := split_first hn hn' hs
      rfl
    | cons n' v' l s hn' hv' =>
      obtain ⟨rfl, rfl⟩ := split_first hn hn' hs
      exact absurd (by simp) hv
  | cons n v l s hn hv _ ih =>
    generalize hs : n ++ EQ :: (v ++ SEMI :: s) = t at h'
    cases h' with
    | nil => simp at hs
    | last n' v' hn' hv' =>
      obtain ⟨rfl, rfl⟩ := split_first hn hn' hs
      exact absurd (by simp) hv'
    | cons n' v' l' s' hn' hv' h' =>
      obtain ⟨rfl, h2⟩ := split_first hn hn' hs
      obtain ⟨rfl, rfl⟩ := split_first hv hv' h2
      rw [ih h']

theorem name_byte {c : Byte} (h : Spec.isAlnum c = true ∨ c = 95) : Spec.isLoose c = false ∧ c ≠ EQ := by
  revert c
  apply byte_forall
  decide +kernel

theorem Spec.IsTagName.facts {n : Bytes} (h : IsTagName n) : compact n = n ∧ EQ ∉ n :=
  ⟨compact_id (fun c hc => (name_byte (h.2 c hc)).1), fun hc => (name_byte (h.2 _ hc)).2 rfl⟩

theorem Spec.IsTagValue.no_semi {v : Bytes} (h : IsTagValue v) : SEMI ∉ compact v := by
  intro hc
  rcases h.1 _ (mem_compact.1 hc).1 with h | h
  · exact h.2.2 rfl
  · exact absurd h (by decide)

theorem TagItem.compact_lead {i : TagItem} (h : i.WF) : compact i.lead = i.name ++ [EQ] := by
  obtain ⟨h1, h2, h3, h4, -⟩ := h
  unfold TagItem.lead
  simp only [compact_append, compact_loose h1, h2.facts.1, compact_loose h3, compact_loose h4]
  rw [compact_cons (show Spec.isLoose EQ = false by decide)]
  simp [compact]

theorem TagItem.compact_text {i : TagItem} (h : i.WF) : compact i.text = i.name ++ EQ :: compact i.value := by
  have h0 := h
  obtain ⟨h1, h2, h3, h4, h5, h6, -⟩ := h
  unfold TagItem.text
  rw [compact_append, compact_append, TagItem.compact_lead h0, compact_loose h6]
  simp

theorem Spec.TagText.squeezed {pos : Nat} {s : Bytes} {es : List (Bytes × TagEntry)} (h : TagText pos s es) :
    Squeezed (es.map (fun e => (e.1, compact e.2.value))) (compact s) := by
  induction h with
  | done pos s h => rw [compact_loose h]; exact .nil
  | last pos i h =>
    rw [TagItem.compact_text h]
    exact .last _ _ h.2.1.facts.2 h.2.2.2.2.1.no_semi
  | cons pos i s es h _ ih =>
    rw [compact_append, compact_cons (by decide), TagItem.compact_text h, List.append_assoc, List.cons_append]
    exact .cons _ _ _ _ h.2.1.facts.2 h.2.2.2.2.1.no_semi ih

theorem Spec.TagText.offset_ge {pos : Nat} {s : Bytes} {es : List (Bytes × TagEntry)} (h : TagText pos s es)
    {n : Bytes} {t : TagEntry} (hm : (n, t) ∈ es) (hv : t.value ≠ []) : (pos : Int) ≤ t.offset := by
  induction h with
  | done => simp at hm
  | last pos i _ =>
    simp only [List.mem_singleton, Prod.mk.injEq] at hm
    obtain ⟨rfl, rfl⟩ := hm
    simp only at hv ⊢
    rw [if_neg hv]; omega
  | cons pos i s es _ _ ih =>
    rcases List.mem_cons.1 hm with hm | hm
    · simp only [Prod.mk.injEq] at hm
      obtain ⟨rfl, rfl⟩ := hm
      simp only; omega
    · have := ih hm; omega

/-- The tags with one value removed. -/
def blankTag (n : Bytes) (es : List (Bytes × TagEntry)) : List (Bytes × Bytes) :=
  es.map (fun e => (e.1, if e.1 = n then [] else compact e.2.value))

theorem blankTag_of_not_mem {n : Bytes} {es : List (Bytes × TagEntry)} (h : n ∉ es.map Prod.fst) :
    blankTag n es = es.map (fun e => (e.1, compact e.2.value)) := by
  unfold blankTag
  apply List.map_congr_left
  intro e he
  rw [if_neg]
  rintro rfl
  exact h (List.mem_map_of_mem he)

theorem Spec.TagText.erased {pos : Nat} {s : Bytes} {es : List (Bytes × TagEntry)} (h : TagText pos s es)
    {n bv before after : Bytes} (hm : (n, (⟨bv, (pos + before.length : Nat)⟩ : TagEntry)) ∈ es) (hb : bv ≠ [])
    (hs : s = before ++ bv ++ after) (hnd : (es.map Prod.fst).Nodup) :
    Squeezed (blankTag n es) (compact (before ++ after)) := by
  induction h generalizing before with
  | done => simp at hm
  | last pos i hwf =>
    simp only [List.mem_singleton, Prod.mk.injEq, TagEntry.mk.injEq] at hm
    obtain ⟨rfl, rfl, ho⟩ := hm
    rw [if_neg hb] at ho
    have hl : i.lead.length = before.length := by omega
    unfold TagItem.text at hs
    rw [List.append_assoc, List.append_assoc] at hs
    obtain ⟨rfl, h2⟩ := List.append_inj hs hl
    have h3 := List.append_cancel_left h2
    subst h3
    rw [compact_append, TagItem.compact_lead hwf, compact_loose hwf.2.2.2.2.2.1]
    have : blankTag i.name [(i.name, (⟨i.value, if i.value = [] then -1 else ((pos + i.lead.length : Nat) : Int)⟩ : TagEntry))] =
        [(i.name, [])] := by simp [blankTag]
    rw [this]
    have := Squeezed.last i.name [] hwf.2.1.facts.2 (by simp)
    simpa using this
  | cons pos i s es hwf htt ih =>
    simp only [List.map_cons, List.nodup_cons] at hnd
    rcases List.mem_cons.1 hm with hm | hm
    · simp only [Prod.mk.injEq, TagEntry.mk.injEq] at hm
      obtain ⟨rfl, rfl, ho⟩ := hm
      have hl : i.lead.length = before.length := by omega
      unfold TagItem.text at hs
      rw [List.append_assoc, List.append_assoc, List.append_assoc] at hs
      obtain ⟨rfl, h2⟩ := List.append_inj hs hl
      have h3 := List.append_cancel_left h2
      subst h3
      rw [compact_append, compact_append, TagItem.compact_lead hwf, compact_loose hwf.2.2.2.2.2.1,
        compact_cons (by decide)]
      have : blankTag i.name ((i.name, ({ value := i.value, offset := (pos + i.lead.length : Nat) } : TagEntry)) :: es) =
          (i.name, []) :: es.map (fun e => (e.1, compact e.2.value)) := by
        rw [← blankTag_of_not_mem hnd.1]
        simp [blankTag]
      rw [this]
      have := Squeezed.cons i.name [] _ _ hwf.2.1.facts.2 (by simp) htt.squeezed
      simpa using this
    · have hge := htt.offset_ge hm hb
      simp only at hge
      have hlen : i.text.length + 1 ≤ before.length := by omega
      have hne : i.name ≠ n := by
        rintro rfl
        exact hnd.1 (List.mem_map_of_mem (f := Prod.fst) hm)
      have e1 : (i.text ++ [SEMI]) ++ s = before ++ (bv ++ after) := by simpa using hs
      obtain ⟨z, h1⟩ : ∃ z, before = (i.text ++ [SEMI]) ++ z := by
        have h1 : (i.text ++ [SEMI]) <+: before ++ (bv ++ after) := ⟨s, e1⟩
        obtain ⟨z, hz⟩ := List.prefix_of_prefix_length_le h1 (List.prefix_append _ _) (by simp; omega)
        exact ⟨z, hz.symm⟩
      subst h1
      have h2 : s = z ++ (bv ++ after) := by
        rw [List.append_assoc _ z] at e1
        exact List.append_cancel_left e1
      have hm' : (n, (⟨bv, (pos + i.text.length + 1 + z.length : Nat)⟩ : TagEntry)) ∈ es := by
        have : pos + ((i.text ++ [SEMI]) ++ z).length = pos + i.text.length + 1 + z.length := by simp; omega
        rw [this] at hm; exact hm
      have hsq := ih hm' (by rw [h2]; simp) hnd.2
      have e2 : compact (i.text ++ [SEMI] ++ z ++ after) = i.name ++ EQ :: (compact i.value ++ SEMI :: compact (z ++ after)) := by
        rw [List.append_assoc, List.append_assoc, compact_append, TagItem.compact_text hwf]
        rw [List.singleton_append, compact_cons (show Spec.isLoose SEMI = false by decide)]
        simp
      rw [e2]
      have : blankTag n ((i.name, ({ value := i.value, offset := (pos + i.lead.length : Nat) } : TagEntry)) :: es) =
          (i.name, compact i.value) :: blankTag n es := by simp [blankTag, hne]
      rw [this]
      exact .cons _ _ _ _ hwf.2.1.facts.2 hwf.2.2.2.2.1.no_semi hsq

/-! ### the canonical signature field -/

theorem compact_squeeze (u : Bytes) : compact (squeeze u) = compact u := by
  have hw : ∀ c : Byte, Spec.isWSP c = true → Spec.isLoose c = true := by
    apply byte_forall; decide +kernel
  induction u with
  | nil => rfl
  | cons c r ih =>
    cases hc : Spec.isWSP c with
    | true =>
      have e : compact (c :: r) = compact r := by
        unfold compact
        rw [List.filter_cons_of_neg (by rw [hw c hc]; decide)]
      rw [e, ← ih]
      cases r with
      | nil => simp only [squeeze, hc, if_true]; rfl
      | cons d r =>
        cases hd : Spec.isWSP d with
        | true => rw [Spec.isWSP_eq] at hc hd; rw [squeeze_wsp_wsp hc hd]
        | false =>
          rw [Spec.isWSP_eq] at hc hd; rw [squeeze_wsp_not hc hd]
          rfl
    | false =>
      rw [Spec.isWSP_eq] at hc
      rw [squeeze_cons_not hc]
      have := compact_append [c] (squeeze r)
      have h2 := compact_append [c] r
      rw [List.singleton_append] at this h2
      rw [this, h2, ih]

theorem compact_rstrip (u : Bytes) : compact (rstrip Spec.isWSP u) = compact u := by
  have hw : ∀ c : Byte, Spec.isWSP c = true → Spec.isLoose c = true := by
    apply byte_forall; decide +kernel
  obtain ⟨t, h1, h2⟩ := rstrip_prefix Spec.isWSP u
  conv => rhs; rw [h1]
  rw [compact_append, compact_loose (fun c hc => hw c (h2 c hc)), List.append_nil]

theorem compact_dropWhile (u : Bytes) : compact (u.dropWhile Spec.isWSP) = compact u := by
  have hw : ∀ c : Byte, Spec.isWSP c = true → Spec.isLoose c = true := by
    apply byte_forall; decide +kernel
  obtain ⟨t, h1, h2⟩ := dropWhile_suffix Spec.isWSP u
  conv => rhs; rw [h1]
  rw [compact_append, compact_loose (fun c hc => hw c (h2 c hc)), List.nil_append]

theorem compact_unfold (u : Bytes) : compact (Spec.unfold u) = compact u := by
  unfold compact Spec.unfold
  rw [List.filter_filter]
  apply List.filter_congr
  have : ∀ c : Byte, (!Spec.isLoose c && (decide (c ≠ CR) && decide (c ≠ LF))) = !Spec.isLoose c := by
    apply byte_forall; decide +kernel
  intro c _
  exact this c

theorem compact_canonValue (u : Bytes) :
    compact ((canonLine .relaxed (Spec.unfold u)).dropWhile Spec.isWSP) = compact u := by
  rw [compact_dropWhile]
  show compact (rstrip Spec.isWSP (squeeze (Spec.unfold u))) = _
  rw [compact_rstrip, compact_squeeze, compact_unfold]

/-- Whatever the mode, the canonical form has a colon, and what follows the first one is the field's value up to
white space. -/
theorem canon_value {mode : CanonMode} {t c : Bytes} (h : WellFolded t) (hc : COLON ∈ t)
    (hf : filterHeader mode t = .ok c) :
    ∃ n cv, c = n ++ COLON :: cv ∧ COLON ∉ n ∧ compact cv = compact (fieldValue t) := by
  have hsplit : t = fieldName t ++ COLON :: fieldValue t ∧ COLON ∉ fieldName t := by
    obtain ⟨a, b, h1, h2⟩ : ∃ a b, t = a ++ COLON :: b ∧ COLON ∉ a := by
      obtain ⟨a, b, h1, h2⟩ := List.eq_append_cons_of_mem hc
      exact ⟨a, b, h1, h2⟩
    obtain ⟨e1, e2⟩ := fieldName_append (v := b) h2
    rw [← h1] at e1 e2
    rw [e1, e2]; exact ⟨h1, h2⟩
  cases mode with
  | simple =>
    cases hf
    exact ⟨_, _, hsplit.1, hsplit.2, rfl⟩
  | relaxed =>
    have hb : ¬ HasBareCR t := by
      intro hb
      obtain ⟨e, he⟩ := ((C06_throws_iff t h).1).2 (Or.inr hb)
      rw [hf] at he; cases he
    by_cases hn : Blank (fieldName t)
    · rw [C06_blank_name t h hb hc hn] at hf
      cases hf
      refine ⟨_, _, rfl, ?_, compact_canonValue _⟩
      split <;> decide
    · rw [C06_relaxed t h hb hc hn] at hf
      cases hf
      refine ⟨_, _, rfl, ?_, compact_canonValue _⟩
      intro hm
      have hm := mem_lower_colon hm
      rcases mem_squeeze (mem_rstrip hm) with h | ⟨h, _⟩
      · exact absurd h (by decide)
      · exact hsplit.2 (mem_unfold.1 h).1

/-- Removing a value from a folded field leaves a folded field. -/
theorem wellFolded_erase {a v b : Bytes} (h : WellFolded (a ++ (v ++ b))) (hv : v ≠ [])
    (h1 : ∀ c ∈ v.head?, IsValByte c) (h2 : ∀ c ∈ v.getLast?, IsValByte c) : WellFolded (a ++ b) := by
  have hvb : ∀ c : Byte, IsValByte c → Spec.isWSP c = false ∧ c ≠ CR := by
    unfold IsValByte
    apply byte_forall; decide +kernel
  intro x y e
  rcases List.append_eq_append_iff.1 e with ⟨z, e1, e2⟩ | ⟨z, e1, e2⟩
  · -- the LF is in `b`
    subst e1
    subst e2
    obtain ⟨⟨p, hp⟩, hw⟩ := h (a ++ (v ++ z)) y (by simp)
    refine ⟨?_, hw⟩
    rcases List.eq_nil_or_concat z with rfl | ⟨z', w, rfl⟩
    · exfalso
      rcases List.eq_nil_or_concat v with rfl | ⟨v', w, rfl⟩
      · exact hv rfl
      · simp only [List.concat_eq_append, List.append_nil] at hp h2
        rw [← List.append_assoc] at hp
        have := List.append_inj_right' hp rfl
        simp at this
        exact (hvb w (h2 w (by simp))).2 this
    · simp only [List.concat_eq_append] at hp
      have e3 : (a ++ (v ++ z')) ++ [w] = p ++ [CR] := by simpa using hp
      have := List.append_inj_right' e3 rfl
      simp at this
      subst this
      exact ⟨a ++ z', by simp⟩
  · cases z with
    | nil =>
      simp at e1 e2
      subst e1
      obtain ⟨⟨p, hp⟩, hw⟩ := h (a ++ v) y (by rw [← e2]; simp)
      exfalso
      rcases List.eq_nil_or_concat v with rfl | ⟨v', w, rfl⟩
      · exact hv rfl
      · simp only [List.concat_eq_append] at hp h2
        rw [← List.append_assoc] at hp
        have := List.append_inj_right' hp rfl
        simp at this
        exact (hvb w (h2 w (by simp))).2 this
    | cons l z =>
      simp only [List.cons_append, List.cons.injEq] at e2
      obtain ⟨rfl, rfl⟩ := e2
      subst e1
      obtain ⟨hp, w, b', hw1, hw2⟩ := h x (z ++ (v ++ b)) (by simp)
      refine ⟨hp, ?_⟩
      cases z with
      | nil =>
        exfalso
        cases v with
        | nil => exact hv rfl
        | cons u v =>
          simp at hw1
          have := (hvb u (h1 u (by simp))).1
          rw [hw1.1, hw2] at this; cases this
      | cons u z =>
        simp at hw1
        exact ⟨u, z ++ b, by simp, by rw [hw1.1]; exact hw2⟩

/-! ### the hash input determines its parts -/

theorem lines_concat (cs : List Bytes) (c : Bytes) : lines (cs ++ [c]) = lines cs ++ c ++ CRLF := by
  simp [lines]

theorem parts_noLF {cs cs' : List Bytes} {c c' : Bytes} (h1 : ∀ x ∈ cs, LF ∉ x) (h2 : ∀ x ∈ cs', LF ∉ x)
    (h3 : LF ∉ c) (h4 : LF ∉ c') (h : lines cs ++ c = lines cs' ++ c') : cs = cs' ∧ c = c' := by
  have := lines_inj_noLF (cs ++ [c]) (cs' ++ [c'])
    (by intro x hx; rcases List.mem_append.1 hx with hx | hx; exact h1 x hx; simp at hx; exact hx ▸ h3)
    (by intro x hx; rcases List.mem_append.1 hx with hx | hx; exact h2 x hx; simp at hx; exact hx ▸ h4)
    (by rw [lines_concat, lines_concat, h])
  have e := List.append_inj' this rfl
  exact ⟨e.1, by simpa using e.2⟩

theorem parts_folded {cs cs' : List Bytes} {c c' : Bytes} (h1 : ∀ x ∈ cs, StartsField x) (h2 : ∀ x ∈ cs', StartsField x)
    (h3 : StartsField c) (h4 : StartsField c') (h : lines cs ++ c = lines cs' ++ c') : cs = cs' ∧ c = c' := by
  have := lines_inj_folded (cs ++ [c]) (cs' ++ [c'])
    (by intro x hx; rcases List.mem_append.1 hx with hx | hx; exact h1 x hx; simp at hx; exact hx ▸ h3)
    (by intro x hx; rcases List.mem_append.1 hx with hx | hx; exact h2 x hx; simp at hx; exact hx ▸ h4)
    (by rw [lines_concat, lines_concat, h])
  have e := List.append_inj' this rfl
  exact ⟨e.1, by simpa using e.2⟩

/-- The first line of a field is not empty. -/
theorem fields_not_crlf (d : Bytes) (m : Message) (s' : IStream) (h : Message.parseAll {} (freshStream d) = .ok (m, s'))
    (f : Header) (hf : f ∈ m.headers) (r : Bytes) : f.header ≠ CR :: LF :: r := by
  intro he
  obtain ⟨ls, ht, _, groups, hg, hm, hall, _⟩ := C20_lossless d m s' h
  obtain ⟨n1, _⟩ := HeadText.nonempty ht
  have n2 := headText_lines ht
  have hfm : f.header ∈ groups.map joinLines := by rw [← hm]; exact List.mem_map_of_mem hf
  obtain ⟨g, hgm, hge⟩ := List.mem_map.1 hfm
  obtain ⟨hgne, _⟩ := hall g hgm
  match g, hgne with
  | l :: g', _ =>
    have hl : l ∈ ls := by rw [← hg]; exact List.mem_flatten.2 ⟨_, hgm, by simp⟩
    have h1 := n1 l hl
    have h2 := n2 l hl
    rw [he] at hge
    match l, g' with
    | [], _ => exact h1 rfl
    | [x], [] => simp [joinLines] at hge
    | [x], y :: g' =>
      simp only [joinLines] at hge
      simp at hge
      exact absurd hge.2.1 (by decide)
    | x :: y :: l, [] =>
      simp [joinLines] at hge
      exact h2.2 (by simp [hge.2.1])
    | x :: y :: l, z :: g' =>
      simp [joinLines] at hge
      exact h2.2 (by simp [hge.2.1])

theorem startsField_canon {mode : CanonMode} {t c : Bytes} (h : StartsField t) (hcr : ∀ r, t ≠ CR :: LF :: r)
    (hf : filterHeader mode t = .ok c) : StartsField c := by
  cases mode with
  | simple => cases hf; exact h
  | relaxed =>
    refine ⟨wellFolded_noLF (relaxed_no_LF t c h.1 hf), ?_⟩
    obtain ⟨hwf, x, r, rfl, hx⟩ := h
    have hno := (C06_throws_iff (x :: r) hwf).1
    have hc : COLON ∈ x :: r ∧ ¬ HasBareCR (x :: r) := by
      have : ¬ (COLON ∉ x :: r ∨ HasBareCR (x :: r)) := by
        intro h1; obtain ⟨e, he⟩ := hno.2 h1; rw [hf] at he; cases he
      simp only [not_or, Classical.not_not] at this
      exact this
    have hxcr : x ≠ CR := by
      rintro rfl
      apply hc.2
      refine ⟨[], r, rfl, ?_⟩
      intro e
      cases r with
      | nil => simp at e
      | cons y r => simp at e; exact hcr r (by rw [e])
    have hxlf := hwf.head_ne_LF
    by_cases hxc : x = COLON
    · subst hxc
      have hb : Blank (fieldName (COLON :: r)) := by intro c hc; simp [fieldName] at hc
      rw [C06_blank_name _ hwf hc.2 hc.1 hb] at hf
      cases hf
      have : Spec.unfold (fieldName (COLON :: r)) = [] := rfl
      rw [if_pos this]
      exact ⟨COLON, _, rfl, rfl⟩
    · have hname : ∃ n, fieldName (x :: r) = x :: n := by
        unfold fieldName
        rw [List.takeWhile_cons_of_pos (by simp [hxc])]
        exact ⟨_, rfl⟩
      obtain ⟨n, hn⟩ := hname
      have hloose : Spec.isLoose x = false := by
        have : ∀ x : Byte, Spec.isWSP x = false → x ≠ CR → x ≠ LF → Spec.isLoose x = false := by
          apply byte_forall; decide +kernel
        exact this x hx hxcr hxlf
      have hnb : ¬ Blank (fieldName (x :: r)) := by
        intro hb
        have := hb x (by rw [hn]; simp)
        rw [hloose] at this; cases this
      rw [C06_relaxed _ hwf hc.2 hc.1 hnb] at hf
      cases hf
      have hx' : Dkim.isWSP x = false := by rw [← Spec.isWSP_eq]; exact hx
      have e1 : canonLine .relaxed (Spec.unfold (fieldName (x :: r))) = x :: rstrip Spec.isWSP (squeeze (Spec.unfold n)) := by
        rw [hn]
        show rstrip Spec.isWSP (squeeze (Spec.unfold (x :: n))) = _
        have : Spec.unfold (x :: n) = x :: Spec.unfold n := by
          unfold Spec.unfold
          rw [List.filter_cons_of_pos (by simp [hxcr, hxlf])]
        rw [this, squeeze_cons_not hx']
        obtain ⟨t, h1, h2⟩ := rstrip_prefix Spec.isWSP (squeeze (Spec.unfold n))
        unfold rstrip
        rw [List.reverse_cons, List.dropWhile_append]
        split
        · rename_i he
          have hnil : List.dropWhile Spec.isWSP (squeeze (Spec.unfold n)).reverse = [] := by simpa using he
          rw [hnil, List.dropWhile_cons_of_neg (by rw [hx]; decide)]
          rfl
        · simp
      refine ⟨Spec.toLower x, Spec.lower (rstrip Spec.isWSP (squeeze (Spec.unfold n))) ++ COLON ::
        (canonLine .relaxed (Spec.unfold (fieldValue (x :: r)))).dropWhile Spec.isWSP, ?_, ?_⟩
      · unfold Spec.canonHeader
        rw [e1]
        rfl
      · have h9 := isWSP_toLower x
        show Dkim.isWSP (Dkim.toLower x) = false
        rw [h9]; exact hx'

end Dkim

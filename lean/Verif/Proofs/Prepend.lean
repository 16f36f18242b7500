import Verif.Proofs.SigLines
import Verif.Props.Unambiguous
/-!
# Proofs: a message with generated fields in front
-/

namespace Dkim
open Spec

variable {E : Env}

theorem headText_shift {pos : Nat} {r : Bytes} {ls : List Bytes} {off : Int} (h : HeadText pos r ls off) (k : Nat) :
    HeadText (pos + k) r ls (if off = -1 then -1 else off + k) := by
  induction h with
  | none pos => exact .none _
  | blankLF pos r =>
    rw [if_neg (by omega)]
    have := HeadText.blankLF (pos + k) r
    rw [show ((pos + k + 1 : Nat) : Int) = ((pos + 1 : Nat) : Int) + k from by omega] at this
    exact this
  | blankCRLF pos r =>
    rw [if_neg (by omega)]
    have := HeadText.blankCRLF (pos + k) r
    rw [show ((pos + k + 2 : Nat) : Int) = ((pos + 2 : Nat) : Int) + k from by omega] at this
    exact this
  | blankEnd pos => exact .blankEnd _
  | lastLine pos l h1 h2 h3 => exact .lastLine _ l h1 h2 h3
  | lastLineCR pos l h1 h2 => exact .lastLineCR _ l h1 h2
  | lineLF pos l r ls off h1 h2 h3 _ ih =>
    refine .lineLF _ l r ls _ h1 h2 h3 ?_
    rw [show pos + k + l.length + 1 = pos + l.length + 1 + k from by omega]; exact ih
  | lineCRLF pos l r ls off h1 h2 _ ih =>
    refine .lineCRLF _ l r ls _ h1 h2 ?_
    rw [show pos + k + l.length + 2 = pos + l.length + 2 + k from by omega]; exact ih

theorem headText_prepend (ls0 : List Bytes) (h0 : ∀ l ∈ ls0, l ≠ [] ∧ LF ∉ l) {r : Bytes} {ls : List Bytes} {off : Int}
    (pos : Nat) (h : HeadText (pos + (lines ls0).length) r ls off) : HeadText pos (lines ls0 ++ r) (ls0 ++ ls) off := by
  induction ls0 generalizing pos with
  | nil => simpa [lines] using h
  | cons l ls0 ih =>
    have hl := h0 l (by simp)
    have e : lines (l :: ls0) ++ r = l ++ CR :: LF :: (lines ls0 ++ r) := by simp [lines, CRLF]
    rw [e, List.cons_append]
    refine .lineCRLF _ l _ _ _ hl.1 hl.2 (ih (fun x hx => h0 x (by simp [hx])) _ ?_)
    have e2 : pos + (lines (l :: ls0)).length = pos + l.length + 2 + (lines ls0).length := by
      simp [lines, CRLF]; omega
    rw [e2] at h; exact h

theorem lines_joinLines {ls : List Bytes} (h : ls ≠ []) : lines ls = joinLines ls ++ CRLF := by
  induction ls with
  | nil => exact absurd rfl h
  | cons l ls ih =>
    cases ls with
    | nil => simp [lines, joinLines]
    | cons l2 ls =>
      rw [joinLines_cons_ne l (by simp), List.append_assoc, ← ih (by simp)]
      simp [lines]

/-- A field as its lines: the first does not start with white space, the others do. -/
def Spec.FieldLines (g : List Bytes) : Prop :=
  ∃ l ls, g = l :: ls ∧ isCont l = false ∧ (∀ x ∈ ls, isCont x = true) ∧ ∀ x ∈ g, x ≠ [] ∧ LF ∉ x

theorem groupLines_cons_cont (l l2 : Bytes) (ls : List Bytes) (h : isCont l2 = true) :
    ∃ g gs, groupLines (l2 :: ls) = g :: gs ∧ groupLines (l :: l2 :: ls) = (l :: g) :: gs := by
  have hne := groupLines_ne (ls := l2 :: ls) (by simp)
  obtain ⟨g, gs, e⟩ := List.exists_cons_of_ne_nil hne
  refine ⟨g, gs, e, ?_⟩
  rw [groupLines, if_pos h, e]

theorem groupLines_field (l : Bytes) (ls rest : List Bytes) (h2 : ∀ x ∈ ls, isCont x = true)
    (h3 : ∀ x ∈ rest.head?, isCont x = false) : groupLines (l :: ls ++ rest) = (l :: ls) :: groupLines rest := by
  induction ls generalizing l with
  | nil =>
    cases rest with
    | nil => rfl
    | cons y rest =>
      simp only [List.cons_append, List.nil_append]
      rw [groupLines, if_neg (by rw [h3 y rfl]; simp)]
  | cons x ls ih =>
    obtain ⟨g, gs, e1, e2⟩ := groupLines_cons_cont l x (ls ++ rest) (h2 x (by simp))
    have := ih x (fun y hy => h2 y (by simp [hy]))
    simp only [List.cons_append] at this e1 e2 ⊢
    rw [this] at e1
    rw [e2]
    simp only [List.cons.injEq] at e1
    rw [← e1.1, ← e1.2]

theorem groupLines_fields (fs : List (List Bytes)) (hf : ∀ g ∈ fs, FieldLines g) (rest : List Bytes)
    (h3 : ∀ x ∈ rest.head?, isCont x = false) : groupLines (fs.flatten ++ rest) = fs ++ groupLines rest := by
  induction fs with
  | nil => rfl
  | cons g fs ih =>
    obtain ⟨l, ls, rfl, h1, h2, h4⟩ := hf g (by simp)
    rw [List.flatten_cons, List.append_assoc, groupLines_field l ls _ h2, ih (fun g hg => hf g (by simp [hg]))]
    · rfl
    · intro x hx
      cases fs with
      | nil => exact h3 x (by simpa using hx)
      | cons g2 fs =>
        obtain ⟨l2, ls2, rfl, k1, _⟩ := hf g2 (by simp)
        simp at hx; subst hx; exact k1

theorem joinLines_flatten (fs : List (List Bytes)) (h : ∀ g ∈ fs, g ≠ []) :
    joinLines (fs.map joinLines) = joinLines fs.flatten := by
  induction fs with
  | nil => rfl
  | cons g fs ih =>
    have ih := ih (fun g hg => h g (by simp [hg]))
    cases fs with
    | nil => simp [joinLines]
    | cons g2 fs =>
      rw [List.map_cons, joinLines_cons_ne _ (by simp), ih,
        show (g :: g2 :: fs).flatten = g ++ (g2 :: fs).flatten from rfl,
        joinLines_append (h g (by simp)) (by simp [h g2 (by simp)])]

/-- Generated fields and CRLF in front of a message: they become the first fields; the rest of the
message and its body stay as they were. -/
theorem parse_prepended (fs : List (List Bytes)) (hne : fs ≠ []) (hf : ∀ g ∈ fs, FieldLines g) (d : Bytes)
    (hd : ∀ c ∈ d.head?, isWSP c = false) (m : Message) (s : IStream)
    (hm : Message.parseAll {} (freshStream d) = .ok (m, s)) :
    ∃ m' s', Message.parseAll {} (freshStream (joinLines (fs.map joinLines) ++ CRLF ++ d)) = .ok (m', s') ∧
      m'.headers = fs.map mkField ++ m.headers ∧
      bodyPart (joinLines (fs.map joinLines) ++ CRLF ++ d) m'.bodyOffset = bodyPart d m.bodyOffset := by
  have gne : ∀ g ∈ fs, g ≠ [] := by
    intro g hg; obtain ⟨l, ls, rfl, _⟩ := hf g hg; simp
  have fne : fs.flatten ≠ [] := by
    obtain ⟨g, gs, rfl⟩ := List.exists_cons_of_ne_nil hne
    simp [gne g (by simp)]
  obtain ⟨ls, off, ht⟩ := HeadText.total d 0
  obtain ⟨m2, s2, h1, h2, h3, _, _⟩ := parseAll_head ht (freshStream d) (at_fresh d)
  rw [hm] at h1; cases h1
  rw [joinLines_flatten fs gne, ← lines_joinLines fne]
  have hall : ∀ l ∈ fs.flatten, l ≠ [] ∧ LF ∉ l := by
    intro l hl
    obtain ⟨g, hg, hlg⟩ := List.mem_flatten.1 hl
    obtain ⟨a, b, rfl, _, _, h4⟩ := hf g hg
    exact h4 l hlg
  have hp := headText_prepend fs.flatten hall 0 (headText_shift ht (lines fs.flatten).length)
  obtain ⟨m', s', k1, k2, k3, _, _⟩ := parseAll_head hp (freshStream _) (at_fresh _)
  refine ⟨m', s', k1, ?_, ?_⟩
  · rw [k2, groupLines_fields fs hf ls, List.map_append, h2]
    intro x hx
    have hn := HeadText.nonempty ht
    have e := hn.2 x hx
    cases x with
    | nil => exact absurd rfl (hn.1 [] (List.mem_of_mem_head? hx))
    | cons c x => exact hd c (by rw [← e]; rfl)
  · rw [k3, h3]
    unfold bodyPart
    by_cases ho : off = -1
    · simp [ho]
    · rw [if_neg ho, if_neg ho]
      have hoff : 0 ≤ off := by
        rcases C20_body_offset d m s hm with ⟨n, h5, _⟩ | ⟨h5, _⟩
        · rw [← h3, h5]; omega
        · rw [h3] at h5; exact absurd h5 ho
      rw [if_neg (by omega)]
      have : (off + ((lines fs.flatten).length : Int)).toNat = (lines fs.flatten).length + off.toNat := by omega
      rw [this, ← List.drop_drop]
      simp

/-! ### the fields the verifier takes -/

theorem wanted_key {sel : List Bytes} {h h' : Header} (e : lower h.name = lower h'.name) : Wanted sel h ↔ Wanted sel h' := by
  unfold Wanted
  simp only [Spec.lower_eq]
  rw [e]
  have : h.name = [] ↔ h'.name = [] := by
    constructor <;> intro hh <;> rw [hh] at e
    · have := congrArg List.length e; simp [lower] at this; exact List.length_eq_zero_iff.1 this.symm
    · have := congrArg List.length e; simp [lower] at this; exact this
  rw [ne_eq, ne_eq, this]

/-- How many of these fields have the key. -/
def keyCount (p : List Header) (k : Bytes) : Nat := (p.filter (fun h => lower h.name = k)).length

theorem selectAux_wanted (sel : List Bytes) (rev : Bytes → List Header) (l : List Header) (rest : List Bytes)
    (p x : List Header)
    (hrev : ∀ k, rev k = (p ++ l).filter (fun h => lower h.name = k) ++ x.filter (fun h => lower h.name = k)) :
    selectAux rev (keyCount (p.filter (Wanted sel))) ((l.filter (Wanted sel)).map (fun h => lower h.name) ++ rest) =
      l.filter (Wanted sel) ++ selectAux rev (keyCount ((p ++ l).filter (Wanted sel))) rest := by
  induction l generalizing p with
  | nil => simp
  | cons h l ih =>
    have ih := ih (p ++ [h]) (by intro k; rw [hrev k]; simp)
    by_cases hw : Wanted sel h
    · rw [List.filter_cons_of_pos (by simpa using hw)]
      rw [List.map_cons, List.cons_append, selectAux, lower_lower]
      have hk : (p.filter (Wanted sel)).filter (fun h' => lower h'.name = lower h.name) =
          p.filter (fun h' => lower h'.name = lower h.name) := by
        rw [List.filter_filter]
        apply List.filter_congr
        intro y _
        by_cases hy : lower y.name = lower h.name
        · have := (wanted_key (sel := sel) hy).2 hw
          simp [hy, this]
        · simp [hy]
      have hget : (rev (lower h.name))[keyCount (p.filter (Wanted sel)) (lower h.name)]? = some h := by
        rw [hrev, keyCount, hk]
        simp
      rw [hget]
      have hb : bump (keyCount (p.filter (Wanted sel))) (lower h.name) = keyCount ((p ++ [h]).filter (Wanted sel)) := by
        funext k
        unfold bump keyCount
        rw [List.filter_append, List.filter_append, List.length_append,
          show List.filter (fun b => decide (Wanted sel b)) [h] = [h] from by simp [hw]]
        by_cases hk2 : k = lower h.name
        · subst hk2; simp
        · rw [if_neg hk2]
          have : ¬ lower h.name = k := fun e => hk2 e.symm
          simp [this]
      rw [hb, ih]
      simp
    · rw [List.filter_cons_of_neg (by simpa using hw)]
      have e1 : keyCount (p.filter (Wanted sel)) = keyCount ((p ++ [h]).filter (Wanted sel)) := by
        rw [List.filter_append, show List.filter (fun b => decide (Wanted sel b)) [h] = [] from by simp [hw]]
        simp
      rw [e1, ih]
      simp

theorem selectAux_none (rev : Bytes → List Header) (cnt : Bytes → Nat) (names : List Bytes)
    (h : ∀ n ∈ names, (rev (lower n)).length ≤ cnt (lower n)) : selectAux rev cnt names = [] := by
  induction names generalizing cnt with
  | nil => rfl
  | cons n names ih =>
    rw [selectAux, List.getElem?_eq_none (h n (by simp)), ih]
    · rfl
    · intro m hm
      have := h m (by simp [hm])
      unfold bump
      split <;> omega

/-- Oversigning has the intended effect: every oversign name is one whose fields in the message are
all signed (or there are none), and is not the name of a field put in front. -/
def Spec.OversignOK (sel over : List Bytes) (gens hs : List Header) : Prop :=
  ∀ n ∈ over, (∀ h ∈ hs, lower h.name = lower n → Wanted sel h) ∧ ∀ h ∈ gens, lower h.name ≠ lower n

/-- The verifier covers exactly the fields that were signed. -/
theorem selected_signed (sel over : List Bytes) (gens hs : List Header) (ho : OversignOK sel over gens hs) :
    selected (gens ++ hs) (signedNames sel over hs) = signedFields sel hs := by
  rw [selected_eq]
  have hrev : ∀ k, (byKey (gens ++ hs) k).reverse =
      ([] ++ hs.reverse).filter (fun h => lower h.name = k) ++ gens.reverse.filter (fun h => lower h.name = k) := by
    intro k
    unfold byKey
    rw [← List.filter_reverse]
    simp
  have := selectAux_wanted sel _ hs.reverse (over.map lower) [] gens.reverse hrev
  unfold signedNames signedFields
  have e0 : keyCount (List.filter (Wanted sel) []) = fun _ => 0 := by funext k; rfl
  rw [e0] at this
  simp only [Spec.lower_eq]
  rw [this]
  rw [selectAux_none, List.append_nil]
  intro n hn
  obtain ⟨n0, hn0, rfl⟩ := List.mem_map.1 hn
  rw [lower_lower, hrev]
  obtain ⟨h1, h2⟩ := ho n0 hn0
  have e1 : gens.reverse.filter (fun h => lower h.name = lower n0) = [] := by
    rw [List.filter_eq_nil_iff]
    intro h hh
    simpa using h2 h (by simpa using hh)
  rw [e1, List.append_nil, keyCount, List.filter_filter]
  simp only [List.nil_append]
  apply Nat.le_of_eq
  congr 1
  apply List.filter_congr
  intro h hh
  by_cases hk : lower h.name = lower n0
  · simp [hk, h1 h (by simpa using hh) hk]
  · simp [hk]

end Dkim

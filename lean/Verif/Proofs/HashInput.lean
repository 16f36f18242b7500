import Verif.Proofs.Ascii
import Verif.Spec.HashInput
import Verif.Model.Validatory
import Verif.Proofs.Errors
/-!
# The header block hashed by the verifier is the one `selected` describes
-/

namespace Dkim
open Spec

/-- Fields by lower-cased name. -/
def byKey (hs : List Header) (k : Bytes) : List Header := hs.filter (fun h => lower h.name = k)

/-- `cnt` with one more for `k`. -/
def bump (cnt : Bytes → Nat) (k : Bytes) : Bytes → Nat := fun x => if x = k then cnt x + 1 else cnt x

/-- The selection with counters. -/
def selectAux (rev : Bytes → List Header) : (Bytes → Nat) → List Bytes → List Header
  | _, [] => []
  | cnt, n :: ns => ((rev (lower n))[cnt (lower n)]?).toList ++ selectAux rev (bump cnt (lower n)) ns

theorem fill_eq (hs : List Header) : HeaderCache.fill hs = byKey hs := by
  have main : ∀ (hs : List Header) (c : HeaderCache),
      hs.foldl (fun c h => HeaderCache.put c (lower h.name) (c (lower h.name) ++ [h])) c =
        fun k => c k ++ byKey hs k := by
    intro hs
    induction hs with
    | nil => intro c; funext k; simp [byKey]
    | cons h hs ih =>
      intro c
      rw [List.foldl_cons, ih]
      funext k
      unfold HeaderCache.put byKey
      by_cases hk : k = lower h.name
      · subst hk; simp [List.filter_cons]
      · have : ¬ lower h.name = k := fun e => hk e.symm
        simp [hk, List.filter_cons, this]
  unfold HeaderCache.fill
  rw [main]
  funext k
  simp

theorem reverse_drop_getLast? {α : Type} (l : List α) (n : Nat) :
    ((l.drop n).reverse).getLast? = l[n]? := by
  rw [List.getLast?_reverse, List.head?_drop]

theorem reverse_drop_dropLast {α : Type} (l : List α) (n : Nat) :
    ((l.drop n).reverse).dropLast = (l.drop (n + 1)).reverse := by
  rw [List.dropLast_reverse, List.tail_drop]

theorem headLoop_ok (mode : CanonMode) (rev : Bytes → List Header) (cnt : Bytes → Nat) (names : List Bytes) (a : Bytes) :
    headLoop mode (fun k => ((rev k).drop (cnt k)).reverse) names = .ok a ↔
      ∃ cs, CanonAll mode (selectAux rev cnt names) cs ∧ a = lines cs := by
  induction names generalizing cnt a with
  | nil =>
    unfold headLoop selectAux CanonAll
    constructor
    · intro h; cases h; exact ⟨[], rfl, rfl⟩
    · rintro ⟨cs, h, rfl⟩
      cases cs with
      | nil => rfl
      | cons => simp at h
  | cons n ns ih =>
    unfold headLoop selectAux
    simp only
    rw [reverse_drop_getLast?]
    cases hg : (rev (lower n))[cnt (lower n)]? with
    | none =>
      simp only [Option.toList_none, List.nil_append]
      rw [← ih (bump cnt (lower n))]
      have : (fun k => ((rev k).drop (cnt k)).reverse) = fun k => ((rev k).drop (bump cnt (lower n) k)).reverse := by
        funext k
        unfold bump
        split
        · rename_i e
          subst e
          rw [List.getElem?_eq_none_iff] at hg
          rw [List.drop_eq_nil_of_le hg, List.drop_eq_nil_of_le (by omega)]
        · rfl
      rw [this]
    | some h =>
      have hput : HeaderCache.put (fun k => ((rev k).drop (cnt k)).reverse) (lower n)
          (((rev (lower n)).drop (cnt (lower n))).reverse).dropLast =
          fun k => ((rev k).drop (bump cnt (lower n) k)).reverse := by
        funext k
        unfold HeaderCache.put bump
        split
        · rename_i e
          subst e
          rw [reverse_drop_dropLast]
        · rfl
      simp only [Option.toList_some, List.cons_append, List.nil_append]
      rw [hput]
      constructor
      · intro hh
        cases hf : filterHeader mode h.header with
        | error e => rw [hf] at hh; cases hh
        | ok t =>
          rw [hf] at hh
          simp only at hh
          cases hl : headLoop mode (fun k => ((rev k).drop (bump cnt (lower n) k)).reverse) ns with
          | error e => rw [hl] at hh; cases hh
          | ok rest =>
            rw [hl] at hh
            cases hh
            obtain ⟨cs, h1, rfl⟩ := (ih _ _).1 hl
            refine ⟨t :: cs, ?_, ?_⟩
            · unfold CanonAll at *; simp [hf, h1]
            · simp [lines]
      · rintro ⟨cs, hc, rfl⟩
        unfold CanonAll at hc
        cases cs with
        | nil => simp at hc
        | cons t cs =>
          simp only [List.map_cons, List.cons.injEq] at hc
          rw [hc.1, (ih (bump cnt (lower n)) (lines cs)).2 ⟨cs, hc.2, rfl⟩]
          simp [lines]

theorem selectAux_eq (hs : List Header) (before rest : List Bytes) :
    selectAux (fun k => (byKey hs k).reverse) (fun k => before.countP (fun m => lower m = k)) rest =
      (rest.zipIdx before.length).filterMap
        (fun p => fromBottom hs p.1 (mentions ((before ++ rest).take p.2) p.1)) := by
  induction rest generalizing before with
  | nil => rfl
  | cons n ns ih =>
    unfold selectAux
    rw [List.zipIdx_cons, List.filterMap_cons]
    have hb : bump (fun k => before.countP (fun m => lower m = k)) (lower n) =
        fun k => (before ++ [n]).countP (fun m => lower m = k) := by
      funext k
      unfold bump
      rw [List.countP_append]
      by_cases hk : k = lower n
      · subst hk; simp
      · have : ¬ lower n = k := fun e => hk e.symm
        simp [hk, this]
    rw [hb, ih (before ++ [n])]
    have e1 : fromBottom hs n (mentions ((before ++ n :: ns).take before.length) n) =
        (byKey hs (lower n)).reverse[before.countP (fun m => lower m = lower n)]? := by
      unfold fromBottom mentions fieldsNamed byKey
      rw [List.take_left']
      · rfl
      · rfl
    simp only [e1]
    have e2 : before ++ [n] ++ ns = before ++ n :: ns := by simp
    rw [e2]
    simp only [List.length_append, List.length_singleton]
    cases (byKey hs (lower n)).reverse[before.countP (fun m => lower m = lower n)]? <;> simp

theorem selected_eq (hs : List Header) (names : List Bytes) :
    selected hs names = selectAux (fun k => (byKey hs k).reverse) (fun _ => 0) names := by
  have := selectAux_eq hs [] names
  simp only [List.countP_nil, List.nil_append, List.length_nil] at this
  rw [this]
  rfl

theorem headBlock_ok (mode : CanonMode) (hs : List Header) (names : List Bytes) (a : Bytes) :
    headLoop mode (HeaderCache.fill hs) names = .ok a ↔
      ∃ cs, CanonAll mode (selected hs names) cs ∧ a = lines cs := by
  rw [selected_eq, ← headLoop_ok, fill_eq]
  simp

theorem headLoop_perm (mode : CanonMode) (c : HeaderCache) (names : List Bytes) : OnlyPerm (headLoop mode c names) := by
  induction names generalizing c with
  | nil => exact .ok _
  | cons n ns ih =>
    unfold headLoop
    simp only
    split
    · exact ih _
    · rename_i h hh
      have h1 := filterHeader_perm mode h.header
      split
      · rename_i e he; intro e' h'; cases h'; exact h1 _ he
      · have h2 := ih (HeaderCache.put c (lower n) (c (lower n)).dropLast)
        split
        · rename_i e he; intro e' h'; cases h'; exact h2 _ he
        · exact .ok _

/-! ## How the selection changes when fields are added -/

/-- The selection depends only on the covered fields. -/
theorem selectAux_congr (rev rev' : Bytes → List Header) (cnt : Bytes → Nat) (names : List Bytes)
    (h : ∀ n ∈ names, (rev (lower n)).take (cnt (lower n) + mentions names n) =
      (rev' (lower n)).take (cnt (lower n) + mentions names n)) :
    selectAux rev cnt names = selectAux rev' cnt names := by
  induction names generalizing cnt with
  | nil => rfl
  | cons n ns ih =>
    unfold selectAux
    have hn := h n (by simp)
    have hm : mentions (n :: ns) n = mentions ns n + 1 := by simp [mentions]
    rw [hm] at hn
    have e1 : (rev (lower n))[cnt (lower n)]? = (rev' (lower n))[cnt (lower n)]? := by
      have := congrArg (fun l => l[cnt (lower n)]?) hn
      simp only [List.getElem?_take] at this
      rw [if_pos (by omega), if_pos (by omega)] at this
      exact this
    rw [e1, ih]
    intro m hm'
    have hx := h m (by simp [hm'])
    have : bump cnt (lower n) (lower m) + mentions ns m = cnt (lower m) + mentions (n :: ns) m := by
      unfold bump mentions
      rw [List.countP_cons]
      by_cases he : lower m = lower n
      · simp [he]; omega
      · have : ¬ lower n = lower m := fun e => he e.symm
        simp [he, this]
    rw [this]
    exact hx

theorem selected_congr (hs hs' : List Header) (names : List Bytes)
    (h : ∀ n ∈ names, (fieldsNamed hs n).reverse.take (mentions names n) =
      (fieldsNamed hs' n).reverse.take (mentions names n)) :
    selected hs names = selected hs' names := by
  rw [selected_eq, selected_eq]
  apply selectAux_congr
  intro n hn
  rw [Nat.zero_add]
  exact h n hn

/-- Separating one name from the selection. -/
theorem selectAux_split (rev : Bytes → List Header) (cnt : Bytes → Nat) (k : Bytes) (names : List Bytes) :
    (selectAux rev cnt names).Perm
      ((rev k).drop (cnt k) |>.take (names.countP (fun m => lower m = k)) |>.append
        (selectAux rev cnt (names.filter (fun m => lower m ≠ k)))) := by
  have irrel : ∀ (names : List Bytes) (cnt cnt' : Bytes → Nat), (∀ m ∈ names, lower m ≠ k) →
      (∀ x, x ≠ k → cnt x = cnt' x) → selectAux rev cnt names = selectAux rev cnt' names := by
    intro names
    induction names with
    | nil => intros; rfl
    | cons n ns ih =>
      intro cnt cnt' h1 h2
      unfold selectAux
      rw [h2 _ (h1 n (by simp))]
      congr 1
      apply ih _ _ (fun m hm => h1 m (by simp [hm]))
      intro x hx
      unfold bump
      split
      · rw [h2 x hx]
      · exact h2 x hx
  induction names generalizing cnt with
  | nil => simp [selectAux]
  | cons n ns ih =>
    by_cases hn : lower n = k
    · subst hn
      have ih' := ih (bump cnt (lower n))
      have ef : (n :: ns).filter (fun m => lower m ≠ lower n) = ns.filter (fun m => lower m ≠ lower n) := by
        simp
      have ec : (n :: ns).countP (fun m => lower m = lower n) = ns.countP (fun m => lower m = lower n) + 1 := by
        simp
      rw [ef, ec]
      have ei := irrel (ns.filter (fun m => lower m ≠ lower n)) (bump cnt (lower n)) cnt
        (by intro m hm; simpa using (List.mem_filter.1 hm).2) (by intro x hx; simp [bump, hx])
      rw [ei] at ih'
      have eb : bump cnt (lower n) (lower n) = cnt (lower n) + 1 := by simp [bump]
      rw [eb] at ih'
      have et : ((rev (lower n)).drop (cnt (lower n))).take (ns.countP (fun m => lower m = lower n) + 1) =
          ((rev (lower n))[cnt (lower n)]?).toList ++
            ((rev (lower n)).drop (cnt (lower n) + 1)).take (ns.countP (fun m => lower m = lower n)) := by
        cases hg : (rev (lower n))[cnt (lower n)]? with
        | none =>
          rw [List.getElem?_eq_none_iff] at hg
          simp [List.drop_eq_nil_of_le hg, List.drop_eq_nil_of_le (Nat.le_succ_of_le hg)]
        | some x =>
          obtain ⟨hlt, hx⟩ := List.getElem?_eq_some_iff.1 hg
          rw [List.drop_eq_getElem_cons hlt, hx]
          simp
      rw [et]
      rw [show selectAux rev cnt (n :: ns) = ((rev (lower n))[cnt (lower n)]?).toList ++ selectAux rev (bump cnt (lower n)) ns from rfl]
      simp only [List.append_eq, List.append_assoc]
      exact ih'.append_left _
    · have ef : (n :: ns).filter (fun m => lower m ≠ k) = n :: ns.filter (fun m => lower m ≠ k) := by
        simp [hn]
      have ec : (n :: ns).countP (fun m => lower m = k) = ns.countP (fun m => lower m = k) := by
        simp [hn]
      rw [ef, ec]
      unfold selectAux
      have ih' := ih (bump cnt (lower n))
      have eb : bump cnt (lower n) k = cnt k := by
        unfold bump
        rw [if_neg (fun e => hn e.symm)]
      rw [eb] at ih'
      refine (ih'.append_left _).trans ?_
      simp only [List.append_eq]
      rw [← List.append_assoc, ← List.append_assoc]
      exact (List.perm_append_comm).append_right _

end Dkim

import Verif.Spec.OptionsHeap
import Verif.Props.OptionsHistory
import Verif.Props.RoundTrip
/-!
# Property C91: options objects are independent of each other

Model: `Verif/Model/OptionsHeap.lean`. Spec: `Verif/Spec/OptionsHeap.lean`.
-/

namespace Dkim
open Spec

variable {E : Env}

/-- Every object was made by the calls `hist` and its pointers point into itself. -/
def Spec.Own (w : OptHeap E) (hist : Nat → List (OptOp E)) : Prop :=
  (∀ i a, w.at i = some a → a.ptr = i ∧ a.opts = Options.history {} (hist i)) ∧ ∀ i, w.length ≤ i → hist i = []

theorem heap_at_set (w : OptHeap E) (i k : Nat) (x : Option (OptObj E)) (hi : i < w.length) :
    OptHeap.at (w.set i x) k = if k = i then x else w.at k := by
  unfold OptHeap.at
  by_cases h : k = i
  · subst h; rw [if_pos rfl, List.getElem?_set_self hi]; rfl
  · rw [if_neg h, List.getElem?_set_ne (by omega)]

theorem heap_at_lt {w : OptHeap E} {i : Nat} {a : OptObj E} (h : w.at i = some a) : i < w.length := by
  unfold OptHeap.at at h
  cases hx : w[i]? with
  | none => rw [hx] at h; cases h
  | some x => exact (List.getElem?_eq_some_iff.1 hx).1

theorem optHistory_snoc (l : List (OptOp E)) (c : OptOp E) :
    Options.history ({} : Options E) (l ++ [c]) = (c.run (Options.history {} l)).2 := by
  unfold Options.history
  rw [List.foldl_append]
  rfl

theorem own_step {w w' : OptHeap E} {hist : Nat → List (OptOp E)} (h : Own w hist) (op : HeapOp E) (e : Option Err)
    (hop : ∀ i j, op ≠ .assign i j) (hs : w.step op = .ok (e, w')) : Own w' (fun i => hist i ++ callsTo i [op]) := by
  cases op with
  | new =>
    cases hs
    refine ⟨fun i a ha => ?_, fun i hi => ?_⟩
    · simp only [callsTo, List.filterMap_cons, List.filterMap_nil, List.append_nil]
      unfold OptHeap.at at ha
      by_cases hl : i < w.length
      · rw [List.getElem?_append_left hl] at ha
        exact h.1 i a ha
      · by_cases hl2 : i = w.length
        · subst hl2
          rw [List.getElem?_append_right (Nat.le_refl _), Nat.sub_self] at ha
          cases ha
          exact ⟨rfl, by rw [h.2 _ (Nat.le_refl _)]; rfl⟩
        · rw [List.getElem?_eq_none (by simp; omega)] at ha
          cases ha
    · simp only [List.length_append, List.length_singleton] at hi
      show hist i ++ _ = []
      rw [h.2 i (by omega)]
      rfl
  | assign i j => exact absurd rfl (hop i j)
  | destroy i =>
    simp only [OptHeap.step] at hs
    cases ha : w.at i with
    | none => rw [ha] at hs; cases hs
    | some a =>
      rw [ha] at hs
      cases hs
      refine ⟨fun k b hb => ?_, fun k hk => ?_⟩
      · rw [heap_at_set w i k none (heap_at_lt ha)] at hb
        simp only [callsTo, List.filterMap_cons, List.filterMap_nil, List.append_nil]
        split at hb
        · cases hb
        · exact h.1 k b hb
      · show hist k ++ _ = []
        rw [h.2 k (by simpa using hk)]; rfl
  | call i c =>
    simp only [OptHeap.step, OptHeap.call] at hs
    cases ha : w.at i with
    | none => rw [ha] at hs; cases hs
    | some a =>
      rw [ha] at hs
      obtain ⟨h1, h2⟩ := h.1 i a ha
      have hlt := heap_at_lt ha
      have key : ∃ x, w' = w.set i (some { a with opts := (c.run a.opts).2 }) ∧ x = e := by
        cases c with
        | sig o s =>
          cases o with
          | none =>
            simp only [h1, ha, Except.ok.injEq, Prod.mk.injEq] at hs
            exact ⟨e, by rw [h1]; exact hs.2.symm, rfl⟩
          | some k =>
            simp only at hs
            split at hs
            · simp only [Except.ok.injEq, Prod.mk.injEq] at hs
              exact ⟨e, hs.2.symm, rfl⟩
            · cases hs
        | _ =>
          simp only [Except.ok.injEq, Prod.mk.injEq] at hs
          exact ⟨e, hs.2.symm, rfl⟩
      obtain ⟨_, rfl, _⟩ := key
      refine ⟨fun k b hb => ?_, fun k hk => ?_⟩
      · rw [heap_at_set w i k _ hlt] at hb
        split at hb
        · rename_i hk
          subst hk
          cases hb
          refine ⟨h1, ?_⟩
          simp only [callsTo, List.filterMap_cons, List.filterMap_nil, if_true]
          rw [optHistory_snoc, h2]
        · rename_i hk
          simp only [callsTo, List.filterMap_cons, List.filterMap_nil, if_neg (Ne.symm hk), List.append_nil]
          exact h.1 k b hb
      · have hk' : w.length ≤ k := by simpa using hk
        simp only [callsTo, List.filterMap_cons, List.filterMap_nil, if_neg (show ¬ i = k by omega), List.append_nil]
        exact h.2 k hk'

theorem own_run {w w' : OptHeap E} {hist : Nat → List (OptOp E)} (h : Own w hist) (ops : List (HeapOp E)) (hn : NoAssign ops)
    (hr : w.run ops = .ok w') : Own w' (fun i => hist i ++ callsTo i ops) := by
  induction ops generalizing w hist with
  | nil =>
    cases hr
    simpa [callsTo] using h
  | cons op ops ih =>
    simp only [OptHeap.run] at hr
    cases hs : w.step op with
    | error e => rw [hs] at hr; cases hr
    | ok r =>
      obtain ⟨e, w1⟩ := r
      rw [hs] at hr
      have h1 := own_step h op e (fun i j he => hn i j (by rw [he]; simp)) hs
      have := ih h1 (fun i j hm => hn i j (by simp [hm])) hr
      have hc : ∀ i, callsTo i (op :: ops) = callsTo i [op] ++ callsTo i ops := by
        intro i
        unfold callsTo
        rw [← List.filterMap_append]
        rfl
      simpa only [hc, List.append_assoc] using this

/-- C91 (without assignment between objects): in every program with any number of options objects, each object is
determined by the setter calls made on it: it signs with the options those calls alone would have produced on a single
object, and its getters report them. -/
theorem C91_independent_partial (ops : List (HeapOp E)) (hn : NoAssign ops) (w : OptHeap E)
    (hr : OptHeap.run ([] : OptHeap E) ops = .ok w) (i : Nat) (o : Options E) (hi : w.options i = some o) :
    o = Options.history {} (callsTo i ops) ∧ w.getDomain i = .ok o.first.domain ∧ w.getAlg i = .ok o.first.alg := by
  have h0 : Own ([] : OptHeap E) (fun _ => []) := ⟨fun i a ha => by simp [OptHeap.at] at ha, fun _ _ => rfl⟩
  have h := own_run h0 ops hn hr
  unfold OptHeap.options at hi
  cases ha : w.at i with
  | none => rw [ha] at hi; cases hi
  | some a =>
    rw [ha] at hi
    cases hi
    obtain ⟨h1, h2⟩ := h.1 i a ha
    refine ⟨by simpa using h2, ?_, ?_⟩
    · simp only [OptHeap.getDomain, ha, h1]
    · simp only [OptHeap.getAlg, ha, h1]

/-- C91: an assignment `a = b` copies: right after it, `a` signs with the options of `b`, and no object other than `a` has changed. -/
theorem C91_assign_copies (w w' : OptHeap E) (i j : Nat) (e : Option Err) (h : w.step (.assign i j) = .ok (e, w')) :
    w'.options i = w.options j ∧ e = none ∧ ∀ k, k ≠ i → w'.options k = w.options k := by
  simp only [OptHeap.step] at h
  cases ha : w.at i with
  | none => rw [ha] at h; cases h
  | some a =>
    cases hb : w.at j with
    | none => rw [ha, hb] at h; cases h
    | some b =>
      rw [ha, hb] at h
      cases h
      refine ⟨?_, rfl, fun k hk => ?_⟩
      · unfold OptHeap.options
        rw [heap_at_set w i i _ (heap_at_lt ha), if_pos rfl, hb]
      · unfold OptHeap.options
        rw [heap_at_set w i k _ (heap_at_lt ha), if_neg hk]

/-- C91 (the exact effect of aliasing): a setter for the first signature never changes the object it is called on, once
that object was assigned from another one; it changes the first signature of the object its pointers point at. -/
theorem C91_alias_exact (w w' : OptHeap E) (i : Nat) (a : OptObj E) (ha : w.at i = some a) (hp : a.ptr ≠ i) (s : SigOp E)
    (e : Option Err) (h : w.step (.call i (.sig none s)) = .ok (e, w')) :
    w'.options i = w.options i ∧
    ∃ b, w.options a.ptr = some b ∧ w'.options a.ptr = some (runFirst s b).2 ∧ e = (runFirst s b).1 := by
  simp only [OptHeap.step, OptHeap.call, ha] at h
  cases hb : w.at a.ptr with
  | none => rw [hb] at h; cases h
  | some b =>
    rw [hb] at h
    cases h
    unfold OptHeap.options
    rw [heap_at_set w a.ptr i _ (heap_at_lt hb), heap_at_set w a.ptr a.ptr _ (heap_at_lt hb), if_neg (Ne.symm hp), if_pos rfl, hb]
    exact ⟨rfl, b.opts, rfl, rfl, rfl⟩

/-! ## Programs with assignments -/

theorem heap_at_append (w : OptHeap E) (x : Option (OptObj E)) (i : Nat) :
    OptHeap.at (w ++ [x]) i = if i = w.length then x else w.at i := by
  unfold OptHeap.at
  by_cases h : i = w.length
  · subst h; rw [if_pos rfl, List.getElem?_append_right (Nat.le_refl _), Nat.sub_self]; rfl
  · rw [if_neg h]
    by_cases hl : i < w.length
    · rw [List.getElem?_append_left hl]
    · rw [List.getElem?_eq_none (by simp; omega), List.getElem?_eq_none (by omega)]

/-- A setter call moves no pointer and creates no object. -/
theorem call_ptr {w w' : OptHeap E} {i : Nat} {c : OptOp E} {e : Option Err} (h : w.call i c = .ok (e, w')) :
    w'.length = w.length ∧ ∀ k, (w'.at k).map (·.ptr) = (w.at k).map (·.ptr) := by
  unfold OptHeap.call at h
  cases ha : w.at i with
  | none => rw [ha] at h; cases h
  | some a =>
    rw [ha] at h
    have own : ∀ o' : Options E, w' = w.set i (some { a with opts := o' }) →
        w'.length = w.length ∧ ∀ k, (w'.at k).map (·.ptr) = (w.at k).map (·.ptr) := by
      rintro o' rfl
      refine ⟨by simp, fun k => ?_⟩
      rw [heap_at_set w i k _ (heap_at_lt ha)]
      split
      · rename_i hk; subst hk; rw [ha]; rfl
      · rfl
    cases c with
    | sig o s =>
      cases o with
      | none =>
        simp only at h
        cases hb : w.at a.ptr with
        | none => rw [hb] at h; cases h
        | some b =>
          rw [hb] at h
          cases h
          refine ⟨by simp, fun k => ?_⟩
          rw [heap_at_set w a.ptr k _ (heap_at_lt hb)]
          split
          · rename_i hk; subst hk; rw [hb]; rfl
          · rfl
      | some k =>
        simp only at h
        split at h
        · cases h; exact own _ rfl
        · cases h
    | _ => cases h; exact own _ rfl

/-- Pointers after a program. -/
theorem ptr_run (ops : List (HeapOp E)) : ∀ (P : Nat → Nat) (w w' : OptHeap E), (∀ i a, w.at i = some a → a.ptr = P i) →
    (∀ i, w.length ≤ i → P i = i) → w.run ops = .ok w' → ∀ i a, w'.at i = some a →
      a.ptr = ops.foldl (fun P op => match op with
        | .assign a b => fun i => if i = a then P b else P i
        | _ => P) P i := by
  induction ops with
  | nil => intro P w w' h1 _ hr i a ha; cases hr; exact h1 i a ha
  | cons op ops ih =>
    intro P w w' h1 h2 hr
    simp only [OptHeap.run] at hr
    cases hs : w.step op with
    | error e => rw [hs] at hr; cases hr
    | ok r =>
      obtain ⟨e, w1⟩ := r
      rw [hs] at hr
      rw [List.foldl_cons]
      refine ih _ w1 w' ?_ ?_ hr
      · intro i a ha
        cases op with
        | new =>
          cases hs
          rw [heap_at_append] at ha
          split at ha
          · rename_i hi
            cases ha
            exact (hi ▸ (h2 i (by omega)).symm : w.length = P i)
          · exact h1 i a ha
        | call k c =>
          have := (call_ptr hs).2 i
          rw [ha] at this
          cases hb : w.at i with
          | none => rw [hb] at this; cases this
          | some b =>
            rw [hb] at this
            have := Option.some.inj this
            rw [show a.ptr = b.ptr from this]
            exact h1 i b hb
        | assign k j =>
          simp only [OptHeap.step] at hs
          split at hs
          · rename_i x b hx hb
            cases hs
            rw [heap_at_set w k i _ (heap_at_lt hx)] at ha
            show a.ptr = if i = k then P j else P i
            split at ha
            · rename_i hi
              cases ha
              rw [if_pos hi]; exact h1 j _ hb
            · rename_i hi
              rw [if_neg hi]; exact h1 i a ha
          · cases hs
        | destroy k =>
          simp only [OptHeap.step] at hs
          cases hx : w.at k with
          | none => rw [hx] at hs; cases hs
          | some x =>
            rw [hx] at hs
            cases hs
            rw [heap_at_set w k i _ (heap_at_lt hx)] at ha
            split at ha
            · cases ha
            · exact h1 i a ha
      · intro i hi
        cases op with
        | new => cases hs; exact h2 i (by simp at hi; omega)
        | call k c => exact h2 i (by have := (call_ptr hs).1; omega)
        | assign k j =>
          simp only [OptHeap.step] at hs
          split at hs
          · rename_i x b hx hb
            cases hs
            have := heap_at_lt hx
            have hl : w.length ≤ i := by simpa using hi
            show (if i = k then P j else P i) = i
            rw [if_neg (by omega)]
            exact h2 i hl
          · cases hs
        | destroy k =>
          simp only [OptHeap.step] at hs
          cases hx : w.at k with
          | none => rw [hx] at hs; cases hs
          | some x => rw [hx] at hs; cases hs; exact h2 i (by simpa using hi)

/-- C91, what happens in every program, assignments included: the getters of a live object for its first signature
report the first signature of the object it `reaches`, and a setter call for the first signature acts on that one, on
nothing else; both are undefined if that object has been destroyed. -/
theorem C91_reaches (ops : List (HeapOp E)) (w : OptHeap E) (hr : OptHeap.run ([] : OptHeap E) ops = .ok w) (i : Nat)
    (hi : w.options i ≠ none) (s : SigOp E) :
    match w.options (reaches ops i) with
    | none => w.getDomain i = .error .ub ∧ w.getAlg i = .error .ub ∧ w.step (.call i (.sig none s)) = .error .ub
    | some b => w.getDomain i = .ok b.first.domain ∧ w.getAlg i = .ok b.first.alg ∧
        ∃ w', w.step (.call i (.sig none s)) = .ok ((runFirst s b).1, w') ∧
          ∀ k, w'.options k = if k = reaches ops i then some (runFirst s b).2 else w.options k := by
  cases ha : w.at i with
  | none => exact absurd (by unfold OptHeap.options; rw [ha]; rfl) hi
  | some a =>
    have hp : a.ptr = reaches ops i := ptr_run ops id [] w (fun i a ha => by simp [OptHeap.at] at ha) (fun _ _ => rfl) hr i a ha
    rw [← hp]
    have hg : w.options a.ptr = (w.at a.ptr).map (·.opts) := rfl
    cases hb : w.at a.ptr with
    | none =>
      rw [hg, hb]
      simp only [Option.map_none, OptHeap.getDomain, OptHeap.getAlg, OptHeap.step, OptHeap.call, ha, hb, and_self]
    | some b =>
      rw [hg, hb]
      simp only [Option.map_some, OptHeap.getDomain, OptHeap.getAlg, OptHeap.step, OptHeap.call, ha, hb, true_and]
      refine ⟨_, rfl, fun k => ?_⟩
      unfold OptHeap.options
      rw [heap_at_set w a.ptr k _ (heap_at_lt hb)]
      split <;> rfl

/-- C91: every other setter call on a live object acts on that object alone, as on a single object; it is undefined only for a
signature the object does not hold. -/
theorem C91_own_members (w : OptHeap E) (i : Nat) (o : Options E) (hi : w.options i = some o) (c : OptOp E) (hc : ∀ s, c ≠ .sig none s) :
    (w.step (.call i c) = .error .ub ↔ ∃ k s, c = .sig (some k) s ∧ o.more.length ≤ k) ∧
    ∀ e w', w.step (.call i c) = .ok (e, w') → e = (c.run o).1 ∧ ∀ k, w'.options k = if k = i then some (c.run o).2 else w.options k := by
  cases ha : w.at i with
  | none => unfold OptHeap.options at hi; rw [ha] at hi; cases hi
  | some a =>
    have ho : a.opts = o := by unfold OptHeap.options at hi; rw [ha] at hi; exact Option.some.inj hi
    subst ho
    have set : ∀ k, OptHeap.options (w.set i (some { a with opts := (c.run a.opts).2 })) k = if k = i then some (c.run a.opts).2 else w.options k := by
      intro k
      unfold OptHeap.options
      rw [heap_at_set w i k _ (heap_at_lt ha)]
      split <;> rfl
    cases c with
    | sig x s =>
      cases x with
      | none => exact absurd rfl (hc s)
      | some k =>
        simp only [OptHeap.step, OptHeap.call, ha]
        by_cases hk : k < a.opts.more.length
        · rw [if_pos hk]
          refine ⟨⟨?_, ?_⟩, ?_⟩
          · intro h; cases h
          · rintro ⟨k', s', h1, h2⟩; cases h1; omega
          · intro e w' h; cases h; exact ⟨rfl, set⟩
        · rw [if_neg hk]
          refine ⟨⟨fun _ => ⟨k, s, rfl, by omega⟩, fun _ => rfl⟩, ?_⟩
          intro e w' h; cases h
    | _ =>
      simp only [OptHeap.step, OptHeap.call, ha]
      refine ⟨⟨?_, ?_⟩, ?_⟩
      · intro h; cases h
      · rintro ⟨k', s', h1, _⟩; cases h1
      · intro e w' h; cases h; exact ⟨rfl, set⟩

/-- C91: using a destroyed object (or one never made) is undefined, whatever the use. -/
theorem C91_destroyed (w : OptHeap E) (i : Nat) (hi : w.options i = none) :
    w.getDomain i = .error .ub ∧ w.getAlg i = .error .ub ∧ (∀ c, w.step (.call i c) = .error .ub) ∧ w.step (.destroy i) = .error .ub ∧
    (∀ j, w.step (.assign i j) = .error .ub) ∧ (∀ j, w.step (.assign j i) = .error .ub) := by
  cases ha : w.at i with
  | some a => unfold OptHeap.options at hi; rw [ha] at hi; cases hi
  | none =>
    simp only [OptHeap.getDomain, OptHeap.getAlg, OptHeap.step, OptHeap.call, ha, true_and, implies_true]
    intro j
    cases w.at j <;> rfl

/-- C91 (without assignment between objects): no call on a live object is undefined, but for a signature it does not hold. -/
theorem C91_defined_partial (ops : List (HeapOp E)) (hn : NoAssign ops) (w : OptHeap E) (hr : OptHeap.run ([] : OptHeap E) ops = .ok w)
    (i : Nat) (o : Options E) (hi : w.options i = some o) (c : OptOp E) (hc : ∀ k s, c = .sig (some k) s → k < o.more.length) :
    ∃ w', w.step (.call i c) = .ok ((c.run o).1, w') ∧ ∀ k, w'.options k = if k = i then some (c.run o).2 else w.options k := by
  have hself : reaches ops i = i := by
    unfold reaches
    have : ∀ ops : List (HeapOp E), NoAssign ops → ∀ P : Nat → Nat, ops.foldl (fun P op => match op with
        | .assign a b => fun i => if i = a then P b else P i
        | _ => P) P = P := by
      intro ops
      induction ops with
      | nil => intro _ P; rfl
      | cons op ops ih =>
        intro hn P
        rw [List.foldl_cons, ih (fun i j hm => hn i j (by simp [hm]))]
        cases op with
        | assign a b => exact absurd (by simp) (hn a b)
        | _ => rfl
    exact congrFun (this ops hn id) i
  by_cases hs : ∃ s, c = .sig none s
  · obtain ⟨s, rfl⟩ := hs
    have h := C91_reaches ops w hr i (by rw [hi]; simp) s
    rw [hself, hi] at h
    obtain ⟨_, _, w', h1, h2⟩ := h
    exact ⟨w', h1, h2⟩
  · have hs' : ∀ s, c ≠ .sig none s := fun s h => hs ⟨s, h⟩
    obtain ⟨h1, h2⟩ := C91_own_members w i o hi c hs'
    cases hst : w.step (.call i c) with
    | error e =>
      exfalso
      have : e = .ub := by
        simp only [OptHeap.step, OptHeap.call] at hst
        cases ha : w.at i with
        | none => rw [ha] at hst; cases hst; rfl
        | some a =>
          rw [ha] at hst
          cases c with
          | sig x s =>
            cases x with
            | none => exact absurd rfl (hs' s)
            | some k =>
              simp only at hst
              split at hst
              · cases hst
              · cases hst; rfl
          | _ => cases hst
      subst this
      obtain ⟨k, s, e1, e2⟩ := h1.1 hst
      have := hc k s e1
      omega
    | ok r =>
      obtain ⟨e, w'⟩ := r
      obtain ⟨h3, h4⟩ := h2 e w' hst
      exact ⟨w', by rw [h3], h4⟩

/-! ## counterexamples -/

/-- Two objects; the second is given a domain, assigned to the first, then the first is given another domain. -/
def Samples.aliasing : List (HeapOp toyEnv) :=
  [.new, .new, .call 1 (.sig none (.domain b!"b.example")), .assign 0 1, .call 0 (.sig none (.domain b!"a.example"))]

/-- The domain an object signs with. -/
def Samples.signsFor (ops : List (HeapOp toyEnv)) (i : Nat) : Option Bytes :=
  match OptHeap.run [] ops with
  | .ok w => (w.options i).map (·.first.domain)
  | .error _ => none

/-- C91 fails with assignment: `SignatoryOptions a, b; b.SetDomain("b.example"); a = b; a.SetDomain("a.example");` leaves `a`
signing for b.example and `b` signing for a.example, while `a.GetDomain()` says a.example. -/
theorem C91_alias_witness : Samples.signsFor Samples.aliasing 0 = some b!"b.example" ∧
    Samples.signsFor Samples.aliasing 1 = some b!"a.example" ∧
    (match OptHeap.run [] Samples.aliasing with
     | .ok w => (w.getDomain 0).toOption
     | .error _ => none) = some b!"a.example" := by
  decide +kernel

/-- C91 fails with assignment: `options = SignatoryOptions();` (the temporary is destroyed at the end of the statement)
leaves an object whose next setter call or getter is undefined behaviour. -/
theorem C91_reset_witness (E : Env) (d : Bytes) :
    OptHeap.run ([] : OptHeap E) [.new, .new, .assign 0 1, .destroy 1, .call 0 (.sig none (.domain d))] = .error .ub ∧
    ∃ w, OptHeap.run ([] : OptHeap E) [.new, .new, .assign 0 1, .destroy 1] = .ok w ∧ w.getDomain 0 = .error .ub :=
  ⟨rfl, _, rfl, rfl⟩

/-- The theorem applies: two objects set up in turns; the second signs for its own domain. -/
example : ∃ w o, OptHeap.run ([] : OptHeap toyEnv)
      [.new, .new, .call 0 (.sig none (.domain b!"a.example")), .call 1 (.sig none (.domain b!"b.example")),
       .call 0 .addSignature, .call 0 (.sig (some 0) (.domain b!"c.example"))] = .ok w ∧ w.options 1 = some o ∧
    o = Options.history {} [.sig none (.domain b!"b.example")] ∧ w.getDomain 1 = .ok o.first.domain := by
  refine ⟨_, _, rfl, rfl, ?_⟩
  have := C91_independent_partial (E := toyEnv) [.new, .new, .call 0 (.sig none (.domain b!"a.example")),
    .call 1 (.sig none (.domain b!"b.example")), .call 0 .addSignature, .call 0 (.sig (some 0) (.domain b!"c.example"))]
    (by intro i j h; simp at h) _ rfl 1 _ rfl
  exact ⟨this.1, this.2.1⟩

/-- The general theorem on the aliasing program: the first object reaches the second, which signs for the domain set last. -/
example : ∃ w, OptHeap.run [] Samples.aliasing = .ok w ∧ w.options 0 ≠ none ∧ reaches Samples.aliasing 0 = 1 ∧
    w.getDomain 0 = .ok b!"a.example" := by
  refine ⟨_, rfl, by simp [OptHeap.options, OptHeap.at], rfl, ?_⟩
  have := C91_reaches Samples.aliasing _ rfl 0 (by simp [OptHeap.options, OptHeap.at]) (.domain [])
  exact this.1

end Dkim

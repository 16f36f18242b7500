import Verif.Model.Ownership
/-!
# Properties C61, C62: who frees RSA keys
-/

namespace Dkim.Own

/-! ### Specification -/

/-- Keys the caller handed over (`free = true`) in a history, with repetitions. -/
def handed (ops : List Op) : List Nat :=
  ops.filterMap (fun o => match o with | .give _ (some n) true => some n | _ => none)

/-- Keys passed by the caller at all. -/
def passed (ops : List Op) : List Nat :=
  ops.filterMap (fun o => match o with | .give _ (some n) _ => some n | _ => none)

/-- No holder is assigned to another. -/
def NoCopy (ops : List Op) : Prop := ∀ o ∈ ops, ∀ i j, o ≠ .copy i j

/-- A key handed over is passed only once. -/
def HandedOnce (ops : List Op) : Prop := ∀ n ∈ handed ops, (passed ops).count n = 1

/-- The RSA objects that are pointed to by live holders. -/
def World.held (w : World) : List Key := w.cells.flatMap (fun c => match c.slot with | some s => s.key.toList | none => [])

/-! ### Proof -/

/-- Keys the live holders will free. -/
def World.owned (w : World) : List Key := w.cells.flatMap (fun c => match c.slot with | some s => s.drop | none => [])

/-- A contribution of each cell. -/
def sumOf (f : Slot → List Key) (cs : List Cell) : List Key := cs.flatMap (fun c => match c.slot with | some s => f s | none => [])

theorem sum_split (f : Slot → List Key) (cs : List Cell) (i : Nat) (c : Cell) (h : cs[i]? = some c) (s : Slot) (hs : c.slot = some s) (s' : Slot)
    (k : Key) :
    (sumOf f (cs.modify i (fun c => { c with slot := some s' }))).count k + (f s).count k = (sumOf f cs).count k + (f s').count k := by
  induction cs generalizing i with
  | nil => simp at h
  | cons d ds ih =>
    cases i with
    | zero =>
      simp only [List.getElem?_cons_zero, Option.some.injEq] at h
      subst h
      simp only [List.modify_zero_cons, sumOf, List.flatMap_cons, List.count_append, hs]
      omega
    | succ i =>
      simp only [List.getElem?_cons_succ] at h
      have := ih i h
      simp only [List.modify_succ_cons, sumOf, List.flatMap_cons, List.count_append] at this ⊢
      omega

theorem get_cell {w : World} {i : Nat} {kind : Bool → Bool} {s : Slot} (h : w.get i kind = some s) :
    ∃ c, w.cells[i]? = some c ∧ c.slot = some s ∧ kind c.pub = true := by
  unfold World.get at h
  cases hc : w.cells[i]? with
  | none => rw [hc] at h; cases h
  | some c =>
    rw [hc] at h
    simp only at h
    split at h
    · rename_i hk; exact ⟨c, rfl, h, hk⟩
    · cases h

theorem put_count {w : World} {i : Nat} {kind : Bool → Bool} {s : Slot} (h : w.get i kind = some s) (s' : Slot) (f : Slot → List Key) (k : Key) :
    (sumOf f (w.put i s').cells).count k + (f s).count k = (sumOf f w.cells).count k + (f s').count k := by
  obtain ⟨c, h1, h2, _⟩ := get_cell h
  exact sum_split f w.cells i c h1 s h2 s' k

theorem destroy_owned (o : Nat) (cs : List Cell) (k : Key) :
    (destroyCells o cs).1.count k + (sumOf Slot.drop (destroyCells o cs).2).count k = (sumOf Slot.drop cs).count k := by
  induction cs with
  | nil => rfl
  | cons c cs ih =>
    unfold destroyCells
    simp only
    cases hs : c.slot with
    | none => simp only [sumOf, List.flatMap_cons, hs, List.count_append] at ih ⊢; omega
    | some s =>
      simp only
      split
      · simp only [sumOf, List.flatMap_cons, hs, List.count_append, List.count_nil] at ih ⊢; omega
      · simp only [sumOf, List.flatMap_cons, hs, List.count_append] at ih ⊢; omega

theorem drop_le (s : Slot) (k : Key) : s.drop.count k ≤ s.key.toList.count k := by
  unfold Slot.drop; split
  · exact Nat.le_refl _
  · simp

theorem destroy_held (o : Nat) (cs : List Cell) (k : Key) :
    (destroyCells o cs).1.count k + (sumOf (fun s => s.key.toList) (destroyCells o cs).2).count k ≤
      (sumOf (fun s => s.key.toList) cs).count k := by
  induction cs with
  | nil => exact Nat.le_refl _
  | cons c cs ih =>
    unfold destroyCells
    simp only
    cases hs : c.slot with
    | none => simp only [sumOf, List.flatMap_cons, hs, List.count_append] at ih ⊢; omega
    | some s =>
      simp only
      have := drop_le s k
      split
      · simp only [sumOf, List.flatMap_cons, hs, List.count_append, List.count_nil] at ih ⊢; omega
      · simp only [sumOf, List.flatMap_cons, hs, List.count_append] at ih ⊢; omega

/-- What holds of every world reached by a history `ops`. -/
structure Inv (w : World) (ops : List Op) : Prop where
  lib : ∀ n, w.freed.count (.lib n) + w.held.count (.lib n) ≤ if n < w.next then 1 else 0
  caller : ∀ n, w.freed.count (.caller n) + w.held.count (.caller n) ≤ (passed ops).count n
  handed : ∀ n, w.freed.count (.caller n) + w.owned.count (.caller n) ≤ (handed ops).count n
  pub : ∀ c ∈ w.cells, c.pub = true → ∀ s, c.slot = some s → s.free = true ∧ ∀ n, s.key ≠ some (.caller n)

theorem modify_mem (cs : List Cell) (i : Nat) (s' : Slot) (c : Cell) (h : c ∈ cs.modify i (fun c => { c with slot := some s' })) :
    c ∈ cs ∨ ∃ d, cs[i]? = some d ∧ c = { d with slot := some s' } := by
  induction cs generalizing i with
  | nil => simp at h
  | cons d ds ih =>
    cases i with
    | zero =>
      simp only [List.modify_zero_cons, List.mem_cons] at h
      rcases h with rfl | h
      · exact Or.inr ⟨d, rfl, rfl⟩
      · exact Or.inl (by simp [h])
    | succ i =>
      simp only [List.modify_succ_cons, List.mem_cons] at h
      rcases h with rfl | h
      · exact Or.inl (by simp)
      · rcases ih i h with h | ⟨d', h1, h2⟩
        · exact Or.inl (by simp [h])
        · exact Or.inr ⟨d', h1, h2⟩

theorem put_pub {w : World} {i : Nat} {kind : Bool → Bool} {s s' : Slot} (h : w.get i kind = some s)
    (hp : ∀ c ∈ w.cells, c.pub = true → ∀ s, c.slot = some s → s.free = true ∧ ∀ n, s.key ≠ some (.caller n))
    (hs : ∀ b, kind b = true → b = true → (s.free = true ∧ ∀ n, s.key ≠ some (.caller n)) → s'.free = true ∧ ∀ n, s'.key ≠ some (.caller n)) :
    ∀ c ∈ (w.put i s').cells, c.pub = true → ∀ t, c.slot = some t → t.free = true ∧ ∀ n, t.key ≠ some (.caller n) := by
  intro c hc hpub t ht
  obtain ⟨d, h1, h2, h3⟩ := get_cell h
  rcases modify_mem _ _ _ _ hc with hc | ⟨d', h4, rfl⟩
  · exact hp c hc hpub t ht
  · rw [h1] at h4
    cases h4
    simp only [Option.some.injEq] at ht
    subst ht
    exact hs d.pub h3 hpub (hp d (List.mem_of_getElem? h1) hpub s h2)

theorem destroy_pub (o : Nat) (cs : List Cell) (P : Cell → Prop) (hP : ∀ c ∈ cs, P c) (hnone : ∀ c, P c → P { c with slot := none }) :
    ∀ c ∈ (destroyCells o cs).2, P c := by
  induction cs with
  | nil => simp [destroyCells]
  | cons c cs ih =>
    have := ih (fun x hx => hP x (by simp [hx]))
    have hc := hP c (by simp)
    unfold destroyCells
    simp only
    split
    · split
      · simp only [List.mem_cons, forall_eq_or_imp]; exact ⟨hnone c hc, this⟩
      · simp only [List.mem_cons, forall_eq_or_imp]; exact ⟨hc, this⟩
    · simp only [List.mem_cons, forall_eq_or_imp]; exact ⟨hc, this⟩

theorem passed_snoc (ops : List Op) (op : Op) (n : Nat) : (passed (ops ++ [op])).count n = (passed ops).count n + (passed [op]).count n := by
  unfold passed; rw [List.filterMap_append, List.count_append]

theorem handed_snoc (ops : List Op) (op : Op) (n : Nat) : (handed (ops ++ [op])).count n = (handed ops).count n + (handed [op]).count n := by
  unfold handed; rw [List.filterMap_append, List.count_append]

theorem drop_eq (s : Slot) (k : Key) : s.drop.count k = if s.free then s.key.toList.count k else 0 := by
  unfold Slot.drop; split <;> simp_all

theorem toList_count (o : Option Key) (k : Key) : o.toList.count k = if o = some k then 1 else 0 := by
  cases o with
  | none => simp
  | some x =>
    simp only [Option.toList_some, Option.some.injEq, List.count_cons, List.count_nil, Nat.zero_add, beq_iff_eq]

/-- Adding an empty holder changes nothing. -/
theorem inv_append {w : World} {ops : List Op} (I : Inv w ops) (c : Cell) (hc : c.slot = some {}) (op : Op)
    (h1 : passed [op] = []) (h2 : handed [op] = []) : Inv { w with cells := w.cells ++ [c] } (ops ++ [op]) := by
  have e : ∀ f : Slot → List Key, f {} = [] → sumOf f (w.cells ++ [c]) = sumOf f w.cells := by
    intro f hf
    unfold sumOf
    simp [hc, hf]
  refine ⟨?_, ?_, ?_, ?_⟩
  · intro n
    have := I.lib n
    show w.freed.count _ + (sumOf (fun s => s.key.toList) (w.cells ++ [c])).count _ ≤ _
    rw [e _ rfl]; exact this
  · intro n
    have := I.caller n
    show w.freed.count _ + (sumOf (fun s => s.key.toList) (w.cells ++ [c])).count _ ≤ _
    rw [e _ rfl, passed_snoc]; exact Nat.le_trans this (Nat.le_add_right _ _)
  · intro n
    have := I.handed n
    show w.freed.count _ + (sumOf Slot.drop (w.cells ++ [c])).count _ ≤ _
    rw [e _ rfl, handed_snoc]; exact Nat.le_trans this (Nat.le_add_right _ _)
  · intro d hd hp s hs
    rcases List.mem_append.1 hd with hd | hd
    · exact I.pub d hd hp s hs
    · rw [List.mem_singleton] at hd
      subst hd
      rw [hc] at hs
      cases hs
      exact ⟨rfl, by simp⟩

theorem inv_step {w w' : World} {ops : List Op} {op : Op} (I : Inv w ops) (hop : ∀ i j, op ≠ .copy i j) (h : w.step op = some w') :
    Inv w' (ops ++ [op]) := by
  cases op with
  | create => cases h; exact inv_append I _ rfl _ rfl rfl
  | createPublic => cases h; exact inv_append I _ rfl _ rfl rfl
  | add o =>
    simp only [World.step] at h
    split at h
    · cases h
    · cases h; exact inv_append I _ rfl _ rfl rfl
  | copy i j => exact absurd rfl (hop i j)
  | load i l =>
    simp only [World.step] at h
    split at h
    · cases h
    · rename_i s hg
      have p0 : ∀ n, (passed [Op.load i l]).count n = 0 := fun n => rfl
      have h0 : ∀ n, (handed [Op.load i l]).count n = 0 := fun n => rfl
      cases l with
      | ok =>
        cases h
        refine ⟨?_, ?_, ?_, ?_⟩
        · intro n
          have := I.lib n
          have e := put_count hg { s with key := some (.lib w.next) } (fun s => s.key.toList) (.lib n)
          change w.freed.count _ + (sumOf (fun s => s.key.toList) w.cells).count _ ≤ _ at this
          show w.freed.count _ + (sumOf (fun s => s.key.toList) (w.put i _).cells).count _ ≤ if n < w.next + 1 then 1 else 0
          simp only [toList_count, Option.some.injEq, Key.lib.injEq] at e
          by_cases hn : w.next = n
          · rw [if_pos hn] at e
            rw [if_neg (by omega)] at this
            rw [if_pos (by omega)]
            omega
          · rw [if_neg hn] at e
            by_cases hl : n < w.next
            · rw [if_pos hl] at this; rw [if_pos (by omega)]; omega
            · rw [if_neg hl] at this; rw [if_neg (by omega)]; omega
        · intro n
          have := I.caller n
          have e := put_count hg { s with key := some (.lib w.next) } (fun s => s.key.toList) (.caller n)
          change w.freed.count _ + (sumOf (fun s => s.key.toList) w.cells).count _ ≤ _ at this
          show w.freed.count _ + (sumOf (fun s => s.key.toList) (w.put i _).cells).count _ ≤ _
          rw [passed_snoc, p0]
          simp only [toList_count, Option.some.injEq, reduceCtorEq, if_false] at e
          omega
        · intro n
          have := I.handed n
          have e := put_count hg { s with key := some (.lib w.next) } Slot.drop (.caller n)
          change w.freed.count _ + (sumOf Slot.drop w.cells).count _ ≤ _ at this
          show w.freed.count _ + (sumOf Slot.drop (w.put i _).cells).count _ ≤ _
          rw [handed_snoc, h0]
          simp only [drop_eq, toList_count, Option.some.injEq, reduceCtorEq, if_false, ite_self] at e
          omega
        · exact put_pub hg I.pub (fun b _ _ q => ⟨q.1, by simp⟩)
      | badDer =>
        cases h
        refine ⟨?_, ?_, ?_, ?_⟩
        · intro n
          have := I.lib n
          have e := put_count hg { s with key := none } (fun s => s.key.toList) (.lib n)
          change w.freed.count _ + (sumOf (fun s => s.key.toList) w.cells).count _ ≤ _ at this
          show w.freed.count _ + (sumOf (fun s => s.key.toList) (w.put i _).cells).count _ ≤ if n < w.next then 1 else 0
          simp only [toList_count, reduceCtorEq, if_false] at e
          omega
        · intro n
          have := I.caller n
          have e := put_count hg { s with key := none } (fun s => s.key.toList) (.caller n)
          change w.freed.count _ + (sumOf (fun s => s.key.toList) w.cells).count _ ≤ _ at this
          show w.freed.count _ + (sumOf (fun s => s.key.toList) (w.put i _).cells).count _ ≤ _
          rw [passed_snoc, p0]
          simp only [toList_count, reduceCtorEq, if_false] at e
          omega
        · intro n
          have := I.handed n
          have e := put_count hg { s with key := none } Slot.drop (.caller n)
          change w.freed.count _ + (sumOf Slot.drop w.cells).count _ ≤ _ at this
          show w.freed.count _ + (sumOf Slot.drop (w.put i _).cells).count _ ≤ _
          rw [handed_snoc, h0]
          simp only [drop_eq, toList_count, reduceCtorEq, if_false, ite_self] at e
          omega
        · exact put_pub hg I.pub (fun b _ _ q => ⟨q.1, by simp⟩)
      | untouched =>
        cases h
        exact ⟨I.lib, fun n => by rw [passed_snoc, p0]; exact I.caller n, fun n => by rw [handed_snoc, h0]; exact I.handed n, I.pub⟩
  | give i k free =>
    simp only [World.step] at h
    split at h
    · cases h
    · rename_i s hg
      cases h
      have pk : ∀ n, (passed [Op.give i k free]).count n = if k.map Key.caller = some (.caller n) then 1 else 0 := by
        intro n
        cases k with
        | none => rfl
        | some m => simp [passed, List.count_cons]
      have hk : ∀ n, (handed [Op.give i k free]).count n = if free then (if k.map Key.caller = some (.caller n) then 1 else 0) else 0 := by
        intro n
        cases k with
        | none => cases free <;> rfl
        | some m => cases free <;> simp [handed, List.count_cons]
      refine ⟨?_, ?_, ?_, ?_⟩
      · intro n
        have := I.lib n
        have e := put_count hg { key := k.map .caller, free := free } (fun s => s.key.toList) (.lib n)
        change w.freed.count _ + (sumOf (fun s => s.key.toList) w.cells).count _ ≤ _ at this
        show w.freed.count _ + (sumOf (fun s => s.key.toList) (w.put i _).cells).count _ ≤ if n < w.next then 1 else 0
        have z : k.map Key.caller ≠ some (.lib n) := by cases k <;> simp
        simp only [toList_count, if_neg z] at e
        omega
      · intro n
        have := I.caller n
        have e := put_count hg { key := k.map .caller, free := free } (fun s => s.key.toList) (.caller n)
        change w.freed.count _ + (sumOf (fun s => s.key.toList) w.cells).count _ ≤ _ at this
        show w.freed.count _ + (sumOf (fun s => s.key.toList) (w.put i _).cells).count _ ≤ _
        rw [passed_snoc, pk]
        simp only [toList_count] at e
        omega
      · intro n
        have := I.handed n
        have e := put_count hg { key := k.map .caller, free := free } Slot.drop (.caller n)
        change w.freed.count _ + (sumOf Slot.drop w.cells).count _ ≤ _ at this
        show w.freed.count _ + (sumOf Slot.drop (w.put i _).cells).count _ ≤ _
        rw [handed_snoc, hk]
        simp only [drop_eq, toList_count] at e
        omega
      · exact put_pub hg I.pub (fun b h1 h2 _ => by subst h2; cases h1)
  | reset i =>
    simp only [World.step] at h
    split at h
    · cases h
    · rename_i s hg
      cases h
      obtain ⟨c, g1, g2, g3⟩ := get_cell hg
      obtain ⟨f1, f2⟩ := I.pub c (List.mem_of_getElem? g1) g3 s g2
      have p0 : ∀ n, (passed [Op.reset i]).count n = 0 := fun n => rfl
      have h0 : ∀ n, (handed [Op.reset i]).count n = 0 := fun n => rfl
      refine ⟨?_, ?_, ?_, ?_⟩
      · intro n
        have := I.lib n
        have e := put_count hg { s with key := none } (fun s => s.key.toList) (.lib n)
        change w.freed.count _ + (sumOf (fun s => s.key.toList) w.cells).count _ ≤ _ at this
        show (w.freed ++ s.key.toList).count _ + (sumOf (fun s => s.key.toList) (w.put i _).cells).count _ ≤ if n < w.next then 1 else 0
        rw [List.count_append]
        simp only [Option.toList_none, List.count_nil] at e
        omega
      · intro n
        have := I.caller n
        have e := put_count hg { s with key := none } (fun s => s.key.toList) (.caller n)
        change w.freed.count _ + (sumOf (fun s => s.key.toList) w.cells).count _ ≤ _ at this
        show (w.freed ++ s.key.toList).count _ + (sumOf (fun s => s.key.toList) (w.put i _).cells).count _ ≤ _
        rw [List.count_append, passed_snoc, p0]
        simp only [Option.toList_none, List.count_nil] at e
        omega
      · intro n
        have := I.handed n
        have e := put_count hg { s with key := none } Slot.drop (.caller n)
        change w.freed.count _ + (sumOf Slot.drop w.cells).count _ ≤ _ at this
        show (w.freed ++ s.key.toList).count _ + (sumOf Slot.drop (w.put i { s with key := none }).cells).count _ ≤ _
        rw [List.count_append, handed_snoc, h0]
        generalize (sumOf Slot.drop (w.put i { s with key := none }).cells).count (.caller n) = x at e ⊢
        simp only [drop_eq, f1, if_true, Option.toList_none, List.count_nil] at e
        omega
      · exact put_pub hg I.pub (fun b _ _ q => ⟨q.1, by simp⟩)
  | destroy o =>
    simp only [World.step] at h
    split at h
    · cases h
    · cases h
      have p0 : ∀ n, (passed [Op.destroy o]).count n = 0 := fun n => rfl
      have h0 : ∀ n, (handed [Op.destroy o]).count n = 0 := fun n => rfl
      refine ⟨?_, ?_, ?_, ?_⟩
      · intro n
        have := I.lib n
        have e := destroy_held o w.cells (.lib n)
        change w.freed.count _ + (sumOf (fun s => s.key.toList) w.cells).count _ ≤ _ at this
        show (w.freed ++ (destroyCells o w.cells).1).count _ + (sumOf (fun s => s.key.toList) (destroyCells o w.cells).2).count _ ≤ if n < w.next then 1 else 0
        rw [List.count_append]
        omega
      · intro n
        have := I.caller n
        have e := destroy_held o w.cells (.caller n)
        change w.freed.count _ + (sumOf (fun s => s.key.toList) w.cells).count _ ≤ _ at this
        show (w.freed ++ (destroyCells o w.cells).1).count _ + (sumOf (fun s => s.key.toList) (destroyCells o w.cells).2).count _ ≤ _
        rw [List.count_append, passed_snoc, p0]
        omega
      · intro n
        have := I.handed n
        have e := destroy_owned o w.cells (.caller n)
        change w.freed.count _ + (sumOf Slot.drop w.cells).count _ ≤ _ at this
        show (w.freed ++ (destroyCells o w.cells).1).count _ + (sumOf Slot.drop (destroyCells o w.cells).2).count _ ≤ _
        rw [List.count_append, handed_snoc, h0]
        omega
      · exact destroy_pub o w.cells (fun c => c.pub = true → ∀ s, c.slot = some s → s.free = true ∧ ∀ n, s.key ≠ some (.caller n)) I.pub
          (fun c _ _ s hs => by cases hs)

theorem inv_run {ops : List Op} (hno : NoCopy ops) : ∀ (w w' : World) (before : List Op), Inv w before → w.run ops = some w' →
    Inv w' (before ++ ops) := by
  induction ops with
  | nil => intro w w' before I h; cases h; simpa using I
  | cons op ops ih =>
    intro w w' before I h
    unfold World.run at h
    split at h
    · cases h
    · rename_i w1 hs
      have := ih (fun o ho => hno o (by simp [ho])) w1 w' (before ++ [op]) (inv_step I (hno op (by simp)) hs) h
      simpa using this

theorem inv_init : Inv {} [] := ⟨fun n => by simp [World.held], fun n => by simp [World.held], fun n => by simp [World.owned], by simp⟩

/-- C61: in every history without assignments between holders, in which a key handed over is passed only once: no RSA object is freed
twice, no live object points to a freed one, and a key that was not handed over is never freed. -/
theorem C61_ownership (ops : List Op) (w : World) (hno : NoCopy ops) (hh : HandedOnce ops) (h : ({} : World).run ops = some w) :
    (∀ k, w.freed.count k ≤ 1) ∧ (∀ k ∈ w.held, k ∉ w.freed) ∧ (∀ n, Key.caller n ∈ w.freed → n ∈ handed ops) := by
  have I := inv_run hno {} w [] inv_init h
  simp only [List.nil_append] at I
  have hle : ∀ n, (handed ops).count n ≤ (passed ops).count n := by
    intro n
    unfold handed passed
    clear h hh hno I
    induction ops with
    | nil => exact Nat.le_refl _
    | cons o os ih =>
      simp only [List.filterMap_cons]
      cases o with
      | give i k free =>
        cases k with
        | none => cases free <;> exact ih
        | some m =>
          cases free with
          | true => simp only [List.count_cons]; omega
          | false => simp only [List.count_cons]; omega
      | _ => exact ih
  have key : ∀ k, w.freed.count k ≤ 1 ∧ (k ∈ w.freed → w.held.count k = 0) := by
    intro k
    cases k with
    | lib n =>
      have := I.lib n
      constructor
      · split at this <;> omega
      · intro hk
        have := List.count_pos_iff.2 hk
        rename_i q
        split at q <;> omega
    | caller n =>
      have q1 := I.caller n
      have q2 := I.handed n
      by_cases hn : n ∈ handed ops
      · have := hh n hn
        exact ⟨by omega, fun hk => by have := List.count_pos_iff.2 hk; omega⟩
      · have : (handed ops).count n = 0 := List.count_eq_zero.2 hn
        exact ⟨by omega, fun hk => by have := List.count_pos_iff.2 hk; omega⟩
  refine ⟨fun k => (key k).1, ?_, ?_⟩
  · intro k hk hf
    have := (key k).2 hf
    have := List.count_pos_iff.2 hk
    omega
  · intro n hn
    have q2 := I.handed n
    have := List.count_pos_iff.2 hn
    exact List.count_pos_iff.1 (by omega)

/-- Several objects, keys and destructors. -/
example : let ops : List Op := [.create, .add 0, .createPublic, .load 0 .ok, .give 1 (some 5) true, .load 2 .ok, .create, .give 3 (some 6) false,
    .reset 2, .load 2 .ok, .destroy 0, .destroy 3, .destroy 2]
    NoCopy ops ∧ HandedOnce ops ∧ (({} : World).run ops).map World.freed = some [.lib 1, .lib 0, .caller 5, .lib 2] := by
  refine ⟨by unfold NoCopy; simp, by unfold HandedOnce; decide, by decide⟩

/-- C61: assignment (which the compiler supplies) copies the pointer: both objects free it. -/
theorem C61_assignment_witness : (({} : World).run [.createPublic, .createPublic, .load 0 .ok, .copy 1 0, .destroy 0, .destroy 1]).map World.freed =
    some [.lib 0, .lib 0] := by decide

/-! ## C62: nothing is lost -/

/-- A call that stores a key finds an object that holds none and would free it. -/
def Careful (w : World) : List Op → Prop
  | [] => True
  | op :: ops =>
    (match op with
     | .load i _ => ∀ s, w.get i (fun _ => true) = some s → s = {}
     | .give i _ _ => ∀ s, w.get i (fun _ => true) = some s → s.key = none
     | .copy _ _ => False
     | _ => True) ∧
    match w.step op with
    | none => True
    | some w' => Careful w' ops

/-- All objects are gone. -/
def World.AllGone (w : World) : Prop := ∀ c ∈ w.cells, c.slot = none

/-- Number of keys the library loaded in a history. -/
def loads (ops : List Op) : Nat := (ops.filter (fun o => match o with | .load _ .ok => true | _ => false)).length

/-- What careful histories keep. -/
structure Kept (w : World) (ops : List Op) : Prop where
  count : w.next = loads ops
  lib : ∀ n, n < w.next → 1 ≤ w.freed.count (.lib n) + (sumOf Slot.drop w.cells).count (.lib n)
  handed : ∀ n ∈ handed ops, 1 ≤ w.freed.count (.caller n) + (sumOf Slot.drop w.cells).count (.caller n)

theorem loads_snoc (ops : List Op) (op : Op) : loads (ops ++ [op]) = loads ops + loads [op] := by
  unfold loads; rw [List.filter_append, List.length_append]

theorem mem_handed_snoc {ops : List Op} {op : Op} {n : Nat} (h : n ∈ handed (ops ++ [op])) : n ∈ handed ops ∨ n ∈ handed [op] := by
  unfold handed at h ⊢; rw [List.filterMap_append, List.mem_append] at h; exact h

/-- A step that loads and takes nothing and loses nothing. -/
theorem kept_same {w w' : World} {ops : List Op} {op : Op} (K : Kept w ops) (hn : w'.next = w.next) (hl : loads [op] = 0) (hh : Own.handed [op] = [])
    (hc : ∀ k, w.freed.count k + (sumOf Slot.drop w.cells).count k ≤ w'.freed.count k + (sumOf Slot.drop w'.cells).count k) :
    Kept w' (ops ++ [op]) := by
  refine ⟨by rw [loads_snoc, hl, hn]; exact K.count, ?_, ?_⟩
  · intro n h
    exact Nat.le_trans (K.lib n (by rw [← hn]; exact h)) (hc _)
  · intro n h
    rcases mem_handed_snoc h with h | h
    · exact Nat.le_trans (K.handed n h) (hc _)
    · rw [hh] at h; cases h

theorem get_any {w : World} {i : Nat} {kind : Bool → Bool} {s : Slot} (h : w.get i kind = some s) : w.get i (fun _ => true) = some s := by
  obtain ⟨c, h1, h2, _⟩ := get_cell h
  simp [World.get, h1, h2]

theorem kept_step {w w' : World} {ops : List Op} {op : Op} (I : Inv w ops) (K : Kept w ops) (hc : Careful w [op]) (h : w.step op = some w') :
    Kept w' (ops ++ [op]) := by
  have app : ∀ c : Cell, c.slot = some {} → ∀ k, (sumOf Slot.drop (w.cells ++ [c])).count k = (sumOf Slot.drop w.cells).count k := by
    intro c hc k
    unfold sumOf
    simp [hc, Slot.drop]
  have hc := hc.1
  cases op with
  | create =>
    cases h
    exact kept_same K rfl rfl rfl (fun k => by show _ ≤ w.freed.count k + (sumOf Slot.drop (w.cells ++ [_])).count k; rw [app _ rfl]; exact Nat.le_refl _)
  | createPublic =>
    cases h
    exact kept_same K rfl rfl rfl (fun k => by show _ ≤ w.freed.count k + (sumOf Slot.drop (w.cells ++ [_])).count k; rw [app _ rfl]; exact Nat.le_refl _)
  | add o =>
    simp only [World.step] at h
    split at h
    · cases h
    · cases h
      exact kept_same K rfl rfl rfl (fun k => by show _ ≤ w.freed.count k + (sumOf Slot.drop (w.cells ++ [_])).count k; rw [app _ rfl]; exact Nat.le_refl _)
  | copy i j => exact hc.elim
  | load i l =>
    simp only [World.step] at h
    split at h
    · cases h
    · rename_i s hg
      have hs := hc s hg
      subst hs
      cases l with
      | ok =>
        cases h
        have e : ∀ k, (sumOf Slot.drop (w.put i { key := some (.lib w.next) }).cells).count k = (sumOf Slot.drop w.cells).count k + [Key.lib w.next].count k :=
          fun k => put_count hg { key := some (.lib w.next) } Slot.drop k
        refine ⟨?_, ?_, ?_⟩
        · show w.next + 1 = _
          rw [loads_snoc, K.count]; rfl
        · intro n hn
          show 1 ≤ w.freed.count (.lib n) + (sumOf Slot.drop (w.put i { key := some (.lib w.next) }).cells).count (.lib n)
          rw [e]
          by_cases hl : n < w.next
          · have := K.lib n hl; omega
          · have : n < w.next + 1 := hn
            have : n = w.next := by omega
            subst this
            simp only [List.count_singleton_self]
            omega
        · intro n hn
          show 1 ≤ w.freed.count (.caller n) + (sumOf Slot.drop (w.put i { key := some (.lib w.next) }).cells).count (.caller n)
          rw [e]
          rcases mem_handed_snoc hn with hn | hn
          · have := K.handed n hn; omega
          · cases hn
      | badDer =>
        cases h
        exact kept_same K rfl rfl rfl (fun k => by
          have e : _ = _ := put_count hg { key := none } Slot.drop k
          show _ ≤ w.freed.count k + (sumOf Slot.drop (w.put i { key := none }).cells).count k
          simp only [Slot.drop, if_true, Option.toList_none, List.count_nil, Nat.add_zero] at e
          rw [e]; exact Nat.le_refl _)
      | untouched =>
        cases h
        exact kept_same K rfl rfl rfl (fun k => Nat.le_refl _)
  | give i k free =>
    simp only [World.step] at h
    split at h
    · cases h
    · rename_i s hg
      cases h
      have hs := hc s (get_any hg)
      have hd : s.drop = [] := by unfold Slot.drop; rw [hs]; split <;> rfl
      have e : ∀ x, (sumOf Slot.drop (w.put i { key := k.map .caller, free := free }).cells).count x =
          (sumOf Slot.drop w.cells).count x + (Slot.drop { key := k.map .caller, free := free }).count x := by
        intro x
        have := put_count hg { key := k.map .caller, free := free } Slot.drop x
        rw [hd] at this
        exact this
      refine ⟨by rw [loads_snoc]; exact K.count, ?_, ?_⟩
      · intro n hn
        show 1 ≤ w.freed.count (.lib n) + (sumOf Slot.drop (w.put i { key := k.map .caller, free := free }).cells).count (.lib n)
        rw [e]
        have := K.lib n hn
        omega
      · intro n hn
        show 1 ≤ w.freed.count (.caller n) + (sumOf Slot.drop (w.put i { key := k.map .caller, free := free }).cells).count (.caller n)
        rw [e]
        rcases mem_handed_snoc hn with hn | hn
        · have := K.handed n hn; omega
        · cases k with
          | none => cases free <;> cases hn
          | some m =>
            cases free with
            | false => cases hn
            | true =>
              have : n = m := by simpa [Own.handed] using hn
              subst this
              simp only [Slot.drop, if_true, Option.map_some, Option.toList_some, List.count_singleton_self]
              omega
  | reset i =>
    simp only [World.step] at h
    split at h
    · cases h
    · rename_i s hg
      cases h
      obtain ⟨c, g1, g2, g3⟩ := get_cell hg
      obtain ⟨f1, _⟩ := I.pub c (List.mem_of_getElem? g1) g3 s g2
      have hd : s.drop = s.key.toList := by unfold Slot.drop; rw [f1]; rfl
      have hd' : (Slot.drop { s with key := none }) = [] := by unfold Slot.drop; simp
      exact kept_same K rfl rfl rfl (fun k => by
        have e := put_count hg { s with key := none } Slot.drop k
        rw [hd, hd'] at e
        simp only [List.count_nil] at e
        show _ ≤ (w.freed ++ s.key.toList).count k + (sumOf Slot.drop (w.put i { s with key := none }).cells).count k
        rw [List.count_append]
        omega)
  | destroy o =>
    simp only [World.step] at h
    split at h
    · cases h
    · cases h
      exact kept_same K rfl rfl rfl (fun k => by
        have e := destroy_owned o w.cells k
        show _ ≤ (w.freed ++ (destroyCells o w.cells).1).count k + (sumOf Slot.drop (destroyCells o w.cells).2).count k
        rw [List.count_append]
        omega)

theorem careful_head {w : World} {op : Op} {ops : List Op} (h : Careful w (op :: ops)) : Careful w [op] := by
  refine ⟨h.1, ?_⟩
  split <;> trivial

theorem kept_run {ops : List Op} : ∀ (w w' : World) (before : List Op), Inv w before → Kept w before → Careful w ops → w.run ops = some w' →
    Inv w' (before ++ ops) ∧ Kept w' (before ++ ops) := by
  induction ops with
  | nil => intro w w' before I K _ h; cases h; simpa using ⟨I, K⟩
  | cons op ops ih =>
    intro w w' before I K hc h
    unfold World.run at h
    split at h
    · cases h
    · rename_i w1 hs
      have hno : ∀ i j, op ≠ .copy i j := by
        intro i j he
        subst he
        exact hc.1
      have hc' := hc.2
      rw [hs] at hc'
      have := ih w1 w' (before ++ [op]) (inv_step I hno hs) (kept_step I K (careful_head hc) hs) hc' h
      simpa using this

theorem kept_init : Kept {} [] := ⟨rfl, fun n h => absurd h (Nat.not_lt_zero n), by simp [handed]⟩

/-- C62: in a careful history, once all objects are gone, every RSA object loaded by the library has been freed exactly once, and so
has every key that was handed over. Histories that are not careful leak; see the witnesses below. -/
theorem C62_no_leak_partial (ops : List Op) (w : World) (hc : Careful {} ops) (hh : HandedOnce ops) (h : ({} : World).run ops = some w)
    (hg : w.AllGone) :
    (∀ n, n < loads ops → w.freed.count (.lib n) = 1) ∧ (∀ n ∈ handed ops, w.freed.count (.caller n) = 1) := by
  obtain ⟨I, K⟩ := kept_run {} w [] inv_init kept_init hc h
  simp only [List.nil_append] at I K
  have h0 : ∀ k, (sumOf Slot.drop w.cells).count k = 0 := by
    intro k
    refine List.count_eq_zero.2 ?_
    unfold sumOf
    intro hk
    obtain ⟨c, h1, h2⟩ := List.mem_flatMap.1 hk
    rw [hg c h1] at h2
    cases h2
  constructor
  · intro n hn
    rw [← K.count] at hn
    have a := K.lib n hn
    have b := I.lib n
    rw [h0] at a
    rw [if_pos hn] at b
    omega
  · intro n hn
    have a := K.handed n hn
    have b := I.caller n
    rw [h0] at a
    rw [hh n hn] at b
    omega

/-- A careful history that ends with all objects gone. -/
theorem careful_example : let ops : List Op := [.create, .add 0, .createPublic, .load 0 .ok, .give 1 (some 5) true, .load 2 .ok, .reset 2, .load 2 .badDer,
    .load 2 .ok, .destroy 0, .destroy 2]
    Careful {} ops ∧ HandedOnce ops ∧ ∃ w, ({} : World).run ops = some w ∧ w.AllGone ∧ loads ops = 3 ∧ w.freed = [.lib 1, .lib 0, .caller 5, .lib 2] := by
  refine ⟨?_, by unfold HandedOnce; decide, ?_⟩
  · simp [Careful, World.step, World.get, World.put, destroyCells]
  · refine ⟨_, rfl, ?_, rfl, rfl⟩
    unfold World.AllGone
    decide

/-- C62: loading a second key into the same signature loses the first. -/
theorem C62_reload_witness : (({} : World).run [.create, .load 0 .ok, .load 0 .ok, .destroy 0]).map (fun w => (w.next, w.freed)) = some (2, [.lib 1]) := by
  decide

/-- C62: a key loaded by the library after the caller lent one is never freed. -/
theorem C62_lent_witness : (({} : World).run [.create, .give 0 (some 5) false, .load 0 .ok, .destroy 0]).map (fun w => (w.next, w.freed)) = some (1, []) := by
  decide

/-- C62: a failed attempt to load a key loses the one that was handed over. -/
theorem C62_failed_load_witness : (({} : World).run [.create, .give 0 (some 5) true, .load 0 .badDer, .destroy 0]).map World.freed = some [] := by
  decide

/-- C62: reading two records into the same `PublicKey` without `Reset` loses the first key. -/
theorem C62_public_witness : (({} : World).run [.createPublic, .load 0 .ok, .load 0 .ok, .destroy 0]).map (fun w => (w.next, w.freed)) = some (2, [.lib 1]) := by
  decide

end Dkim.Own

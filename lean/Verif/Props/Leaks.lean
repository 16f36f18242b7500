import Verif.Props.Ownership
/-!
# Property C62: exactly which RSA objects leak
-/

namespace Dkim.Own

/-! ### Specification -/

/-- Pointers a call makes disappear without freeing them: the one it overwrites, or those an object holds that is destroyed but does not
own them. -/
def World.loses (w : World) : Op → List Key
  | .load i .ok | .load i .badDer | .give i _ _ | .copy i _ =>
    match w.get i (fun _ => true) with
    | some s => s.key.toList
    | none => []
  | .destroy o => w.cells.flatMap (fun c => match c.slot with
    | some s => if c.owner = o ∧ s.free = false then s.key.toList else []
    | none => [])
  | _ => []

/-- All pointers lost in a history. -/
def World.lost : World → List Op → List Key
  | _, [] => []
  | w, op :: ops => w.loses op ++ match w.step op with | none => [] | some w' => w'.lost ops

/-! ### Proof -/

/-- Pointers a call makes. -/
def World.gains (w : World) : Op → List Key
  | .load _ .ok => [.lib w.next]
  | .give _ k _ => (k.map Key.caller).toList
  | .copy _ j => match w.get j (fun _ => true) with
    | some s => s.key.toList
    | none => []
  | _ => []

/-- The pointers of live holders, as a sum. -/
abbrev ptrs (cs : List Cell) : List Key := sumOf (fun s => s.key.toList) cs

theorem destroy_exact (o : Nat) (cs : List Cell) (k : Key) :
    (destroyCells o cs).1.count k + (ptrs (destroyCells o cs).2).count k +
      (cs.flatMap (fun c => match c.slot with
        | some s => if c.owner = o ∧ s.free = false then s.key.toList else []
        | none => [])).count k = (ptrs cs).count k := by
  unfold ptrs
  induction cs with
  | nil => rfl
  | cons c cs ih =>
    unfold destroyCells
    simp only
    cases hs : c.slot with
    | none => simp only [sumOf, List.flatMap_cons, hs, List.count_append, List.count_nil] at ih ⊢; omega
    | some s =>
      simp only
      by_cases ho : c.owner = o
      · rw [if_pos ho]
        cases hf : s.free with
        | true =>
          have : s.drop = s.key.toList := by unfold Slot.drop; rw [hf]; rfl
          simp only [sumOf, List.flatMap_cons, hs, List.count_append, List.count_nil, this, hf] at ih ⊢
          simp only [Bool.true_eq_false, and_false, if_false, List.count_nil]
          omega
        | false =>
          have : s.drop = [] := by unfold Slot.drop; rw [hf]; rfl
          simp only [sumOf, List.flatMap_cons, hs, List.count_append, List.count_nil, this, hf, ho] at ih ⊢
          simp only [and_self, if_true]
          omega
      · rw [if_neg ho]
        simp only [sumOf, List.flatMap_cons, hs, List.count_append, ho, false_and, if_false, List.count_nil] at ih ⊢
        omega

theorem step_exact {w w' : World} {op : Op} (h : w.step op = some w') (k : Key) :
    w'.freed.count k + (ptrs w'.cells).count k + (w.loses op).count k = w.freed.count k + (ptrs w.cells).count k + (w.gains op).count k := by
  have app : ∀ c : Cell, c.slot = some {} → (ptrs (w.cells ++ [c])).count k = (ptrs w.cells).count k := by
    intro c hc
    unfold ptrs sumOf
    simp [hc]
  cases op with
  | create => cases h; show _ + (ptrs (w.cells ++ [_])).count k + 0 = _ + _ + 0; rw [app _ rfl]
  | createPublic => cases h; show _ + (ptrs (w.cells ++ [_])).count k + 0 = _ + _ + 0; rw [app _ rfl]
  | add o =>
    simp only [World.step] at h
    split at h
    · cases h
    · cases h; show _ + (ptrs (w.cells ++ [_])).count k + 0 = _ + _ + 0; rw [app _ rfl]
  | load i l =>
    simp only [World.step] at h
    split at h
    · cases h
    · rename_i s hg
      cases l with
      | ok =>
        cases h
        have e := put_count hg { s with key := some (.lib w.next) } (fun s => s.key.toList) k
        simp only [World.loses, World.gains, get_any hg]
        show w.freed.count k + (ptrs (w.put i { s with key := some (.lib w.next) }).cells).count k + _ = _
        simp only [Option.toList_some] at e
        unfold ptrs at *
        omega
      | badDer =>
        cases h
        have e := put_count hg { s with key := none } (fun s => s.key.toList) k
        simp only [World.loses, World.gains, get_any hg]
        show w.freed.count k + (ptrs (w.put i { s with key := none }).cells).count k + _ = _
        simp only [Option.toList_none, List.count_nil] at e ⊢
        unfold ptrs at *
        omega
      | untouched => cases h; rfl
  | give i kk free =>
    simp only [World.step] at h
    split at h
    · cases h
    · rename_i s hg
      cases h
      have e := put_count hg { key := kk.map .caller, free := free } (fun s => s.key.toList) k
      simp only [World.loses, World.gains, get_any hg]
      show w.freed.count k + (ptrs (w.put i { key := kk.map .caller, free := free }).cells).count k + _ = _
      unfold ptrs at *
      simp only at e
      omega
  | reset i =>
    simp only [World.step] at h
    split at h
    · cases h
    · rename_i s hg
      cases h
      have e := put_count hg { s with key := none } (fun s => s.key.toList) k
      show (w.freed ++ s.key.toList).count k + (ptrs (w.put i { s with key := none }).cells).count k + 0 = _ + _ + 0
      rw [List.count_append]
      simp only [Option.toList_none, List.count_nil] at e
      unfold ptrs at *
      omega
  | copy i j =>
    simp only [World.step] at h
    split at h
    · rename_i s0 s hg hj
      cases h
      have e := put_count hg s (fun s => s.key.toList) k
      simp only [World.loses, World.gains, hg, hj]
      show w.freed.count k + (ptrs (w.put i s).cells).count k + _ = _
      unfold ptrs at *
      omega
    · cases h
  | destroy o =>
    simp only [World.step] at h
    split at h
    · cases h
    · cases h
      have e := destroy_exact o w.cells k
      show (w.freed ++ (destroyCells o w.cells).1).count k + (ptrs (destroyCells o w.cells).2).count k + _ = _ + _ + 0
      rw [List.count_append]
      simp only [World.loses]
      omega

theorem step_next {w w' : World} {op : Op} (h : w.step op = some w') : w'.next = w.next + loads [op] := by
  cases op with
  | create => cases h; rfl
  | createPublic => cases h; rfl
  | add o => simp only [World.step] at h; split at h <;> cases h; rfl
  | load i l => simp only [World.step] at h; split at h <;> cases l <;> cases h <;> rfl
  | give i k f => simp only [World.step] at h; split at h <;> cases h; rfl
  | reset i => simp only [World.step] at h; split at h <;> cases h; rfl
  | copy i j => simp only [World.step] at h; split at h <;> cases h; rfl
  | destroy o => simp only [World.step] at h; split at h <;> cases h; rfl

theorem loads_cons (op : Op) (ops : List Op) : loads (op :: ops) = loads [op] + loads ops := by
  show loads ([op] ++ ops) = _
  unfold loads; rw [List.filter_append, List.length_append]

theorem run_exact {ops : List Op} (hno : NoCopy ops) : ∀ (w w' : World), w.run ops = some w' →
    (∀ n, w'.freed.count (.lib n) + (ptrs w'.cells).count (.lib n) + (w.lost ops).count (.lib n) =
      w.freed.count (.lib n) + (ptrs w.cells).count (.lib n) + if w.next ≤ n ∧ n < w.next + loads ops then 1 else 0) ∧
    (∀ n, w'.freed.count (.caller n) + (ptrs w'.cells).count (.caller n) + (w.lost ops).count (.caller n) =
      w.freed.count (.caller n) + (ptrs w.cells).count (.caller n) + (passed ops).count n) := by
  induction ops with
  | nil =>
    intro w w' h
    cases h
    refine ⟨fun n => ?_, fun n => rfl⟩
    have : ¬ (w.next ≤ n ∧ n < w.next + loads []) := by simp [loads]
    rw [if_neg this]; rfl
  | cons op ops ih =>
    intro w w' h
    unfold World.run at h
    split at h
    · cases h
    · rename_i w1 hs
      obtain ⟨a, b⟩ := ih (fun o ho => hno o (by simp [ho])) w1 w' h
      have hl : ∀ k, (w.lost (op :: ops)).count k = (w.loses op).count k + (w1.lost ops).count k := by
        intro k
        show (w.loses op ++ (match w.step op with | none => [] | some w' => w'.lost ops)).count k = _
        rw [hs, List.count_append]
      have hnx := step_next hs
      have hcopy := hno op (by simp)
      constructor
      · intro n
        have e := step_exact hs (.lib n)
        have a := a n
        rw [hl]
        have g : (w.gains op).count (.lib n) = if w.next ≤ n ∧ n < w.next + loads [op] then 1 else 0 := by
          cases op with
          | load i l =>
            cases l with
            | ok =>
              have h1 : loads [Op.load i .ok] = 1 := rfl
              simp only [World.gains, List.count_cons, List.count_nil, h1, beq_iff_eq, Key.lib.injEq, Nat.zero_add]
              by_cases hn : w.next = n
              · rw [if_pos hn, if_pos (by omega)]
              · rw [if_neg hn, if_neg (by omega)]
            | badDer =>
              have h1 : loads [Op.load i .badDer] = 0 := rfl
              rw [h1, if_neg (by omega)]; rfl
            | untouched =>
              have h1 : loads [Op.load i .untouched] = 0 := rfl
              rw [h1, if_neg (by omega)]; rfl
          | give i k f =>
            have h1 : loads [Op.give i k f] = 0 := rfl
            rw [h1, if_neg (by omega)]
            cases k with
            | none => rfl
            | some m => simp [World.gains]
          | copy i j => exact absurd rfl (hcopy i j)
          | create => have h1 : loads [Op.create] = 0 := rfl; rw [h1, if_neg (by omega)]; rfl
          | createPublic => have h1 : loads [Op.createPublic] = 0 := rfl; rw [h1, if_neg (by omega)]; rfl
          | add o => have h1 : loads [Op.add o] = 0 := rfl; rw [h1, if_neg (by omega)]; rfl
          | reset o => have h1 : loads [Op.reset o] = 0 := rfl; rw [h1, if_neg (by omega)]; rfl
          | destroy o => have h1 : loads [Op.destroy o] = 0 := rfl; rw [h1, if_neg (by omega)]; rfl
        have hsum : (if w.next ≤ n ∧ n < w.next + loads (op :: ops) then 1 else 0) =
            (if w.next ≤ n ∧ n < w.next + loads [op] then 1 else 0) + (if w1.next ≤ n ∧ n < w1.next + loads ops then 1 else 0) := by
          rw [loads_cons, hnx]
          split <;> split <;> split <;> omega
        omega
      · intro n
        have e := step_exact hs (.caller n)
        have b := b n
        rw [hl]
        have g : (w.gains op).count (.caller n) = (passed [op]).count n := by
          cases op with
          | load i l => cases l <;> simp [World.gains, passed]
          | give i k f => cases k <;> simp [World.gains, passed, List.count_cons]
          | copy i j => exact absurd rfl (hcopy i j)
          | _ => rfl
        have hp : (passed (op :: ops)).count n = (passed [op]).count n + (passed ops).count n := by
          show (passed ([op] ++ ops)).count n = _
          unfold passed
          rw [List.filterMap_append, List.count_append]
        omega

/-- C62: in every history (without assignments between holders) that ends with all objects gone, a key loaded by the library has been freed
exactly once or lost exactly once: the keys that leak are exactly those that a later call overwrote, or that were in an object which did
not own them when it was destroyed. A key of the caller is freed as often as it was passed, except for the times it was lost in this way. -/
theorem C62_exact (ops : List Op) (w : World) (hno : NoCopy ops) (h : ({} : World).run ops = some w) (hg : w.AllGone) :
    (∀ n, n < loads ops → w.freed.count (.lib n) + (({} : World).lost ops).count (.lib n) = 1) ∧
    (∀ n, w.freed.count (.caller n) + (({} : World).lost ops).count (.caller n) = (passed ops).count n) := by
  obtain ⟨a, b⟩ := run_exact hno {} w h
  have h0 : ∀ k, (ptrs w.cells).count k = 0 := by
    intro k
    refine List.count_eq_zero.2 ?_
    unfold ptrs sumOf
    intro hk
    obtain ⟨c, h1, h2⟩ := List.mem_flatMap.1 hk
    rw [hg c h1] at h2
    cases h2
  have z : ∀ k, (ptrs ({} : World).cells).count k = 0 := fun k => rfl
  have f : ∀ k, ({} : World).freed.count k = 0 := fun k => rfl
  constructor
  · intro n hn
    have a := a n
    rw [h0, z, f] at a
    have hn' : ({} : World).next ≤ n ∧ n < ({} : World).next + loads ops := ⟨Nat.zero_le _, by show n < 0 + loads ops; omega⟩
    rw [if_pos hn'] at a
    omega
  · intro n
    have b := b n
    rw [h0, z, f] at b
    omega

/-- C62: while objects live, a key is freed, lost or held by exactly one of them. -/
theorem C62_always (ops : List Op) (w : World) (hno : NoCopy ops) (h : ({} : World).run ops = some w) (n : Nat) (hn : n < loads ops) :
    w.freed.count (.lib n) + w.held.count (.lib n) + (({} : World).lost ops).count (.lib n) = 1 := by
  have a := (run_exact hno {} w h).1 n
  have z : (ptrs ({} : World).cells).count (.lib n) = 0 := rfl
  have f : ({} : World).freed.count (.lib n) = 0 := rfl
  have hn' : ({} : World).next ≤ n ∧ n < ({} : World).next + loads ops := ⟨Nat.zero_le _, by show n < 0 + loads ops; omega⟩
  rw [z, f, if_pos hn'] at a
  exact a

/-- A history that loses keys in all ways. -/
theorem lost_example : let ops : List Op := [.create, .add 0, .load 0 .ok, .load 0 .ok, .give 1 (some 5) false, .load 1 .ok, .createPublic, .load 2 .ok,
    .reset 2, .load 2 .ok, .load 2 .badDer, .destroy 0, .destroy 2]
    NoCopy ops ∧ ({} : World).lost ops = [.lib 0, .caller 5, .lib 4, .lib 2] ∧
    ∃ w, ({} : World).run ops = some w ∧ w.AllGone ∧ w.freed = [.lib 3, .lib 1] := by
  refine ⟨by unfold NoCopy; simp, by decide, _, rfl, ?_, rfl⟩
  unfold World.AllGone
  decide

end Dkim.Own

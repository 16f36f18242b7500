import Verif.Spec.Temporaries
import Verif.Proofs.EState
/-! Lemmas about temporary objects. -/

namespace Dkim
open Spec

namespace Tmp

/-- On every heap on which the objects `need` are alive, `f` does what `g` does, and it frees what
it creates, except that it may lose one digest context when it throws an error with `P`. -/
def Ends (need : List Nat) (P : Err → Prop) (f : TmpM σ α) (g : EStateM Err σ α) : Prop :=
  ∀ st h, Numbered h → (∀ i ∈ need, h.alive i = true) →
    outcome (f (st, h)) = g st ∧ h.next ≤ (leftover (f (st, h))).next ∧
    (AllFreed h (leftover (f (st, h))) ∨
      ((∃ e w, f (st, h) = .error e w ∧ P e) ∧ OneContextLost h (leftover (f (st, h)))))

theorem Ends.mono {need need' : List Nat} {P P' : Err → Prop} {f : TmpM σ α} {g : EStateM Err σ α}
    (h : Ends need P f g) (hn : ∀ i ∈ need, i ∈ need') (hp : ∀ e, P e → P' e) : Ends need' P' f g := by
  intro st o hw ha
  obtain ⟨h1, h2, h3⟩ := h st o hw (fun i hi => ha i (hn i hi))
  refine ⟨h1, h2, h3.imp_right ?_⟩
  rintro ⟨⟨e, w, a, b⟩, c⟩
  exact ⟨⟨e, w, a, hp e b⟩, c⟩

theorem numbered_of {h h' : TmpObjects} (hw : Numbered h) (hl : h'.live = h.live) (hn : h.next ≤ h'.next) :
    Numbered h' := by
  intro p hp
  rw [hl] at hp
  exact Nat.lt_of_lt_of_le (hw p hp) hn

theorem alive_congr {h h' : TmpObjects} (hl : h'.live = h.live) (i : Nat) : h'.alive i = h.alive i := by
  unfold TmpObjects.alive; rw [hl]

theorem Ends.bind {need : List Nat} {P : Err → Prop} {f : TmpM σ α} {g : EStateM Err σ α}
    {f' : α → TmpM σ β} {g' : α → EStateM Err σ β}
    (h : Ends need P f g) (h' : ∀ a, Ends need P (f' a) (g' a)) : Ends need P (f >>= f') (g >>= g') := by
  intro st o hw ha
  obtain ⟨h1, h2, h3⟩ := h st o hw ha
  show outcome (EStateM.bind f f' (st, o)) = EStateM.bind g g' st ∧ _ ≤ (leftover (EStateM.bind f f' (st, o))).next ∧
    (AllFreed o (leftover (EStateM.bind f f' (st, o))) ∨
      ((∃ e w, EStateM.bind f f' (st, o) = .error e w ∧ P e) ∧ OneContextLost o (leftover (EStateM.bind f f' (st, o)))))
  unfold EStateM.bind
  rw [← h1]
  cases hf : f (st, o) with
  | error e w =>
    rw [hf] at h2 h3
    refine ⟨rfl, h2, ?_⟩
    rcases h3 with h3 | ⟨⟨e', w', he, p⟩, h3⟩
    · exact Or.inl h3
    · cases he; exact Or.inr ⟨⟨e, w, rfl, p⟩, h3⟩
  | ok a w =>
    obtain ⟨st', o'⟩ := w
    rw [hf] at h2 h3
    simp only [leftover] at h2 h3
    have hl : AllFreed o o' := by
      rcases h3 with h3 | ⟨⟨e, w, he, _⟩, _⟩
      · exact h3
      · cases he
    obtain ⟨i1, i2, i3⟩ := h' a st' o' (numbered_of hw hl.1 h2)
      (fun i hi => by rw [alive_congr hl.1]; exact ha i hi)
    refine ⟨i1, Nat.le_trans h2 i2, ?_⟩
    rcases i3 with i3 | ⟨e, i, j1, j2, j3, j4⟩
    · exact Or.inl ⟨i3.1.trans hl.1, i3.2.trans hl.2⟩
    · exact Or.inr ⟨e, i, Nat.le_trans h2 j1, j2, j3.trans (by rw [hl.1]), j4.trans hl.2⟩

theorem Ends.lift (need : List Nat) (P : Err → Prop) (g : EStateM Err σ α) : Ends need P (Tmp.lift g) g := by
  intro st o hw ha
  unfold Tmp.lift
  dsimp only
  cases g st with
  | ok a s => exact ⟨rfl, Nat.le_refl _, Or.inl ⟨rfl, rfl⟩⟩
  | error e s => exact ⟨rfl, Nat.le_refl _, Or.inl ⟨rfl, rfl⟩⟩

theorem Ends.liftX (need : List Nat) (P : Err → Prop) (r : Except Err α) :
    Ends need P (Tmp.liftX (σ := σ) r) (liftE r) := by
  intro st o hw ha
  unfold Tmp.liftX
  cases r with
  | ok a => exact ⟨rfl, Nat.le_refl _, Or.inl ⟨rfl, rfl⟩⟩
  | error e => exact ⟨rfl, Nat.le_refl _, Or.inl ⟨rfl, rfl⟩⟩

theorem Ends.pure (need : List Nat) (P : Err → Prop) (a : α) :
    Ends need P (Pure.pure a : TmpM σ α) (Pure.pure a) :=
  fun _ _ _ _ => ⟨rfl, Nat.le_refl _, Or.inl ⟨rfl, rfl⟩⟩

theorem Ends.use {need : List Nat} (P : Err → Prop) {i : Nat} (hi : i ∈ need) :
    Ends need P (Tmp.use (σ := σ) i) (Pure.pure ()) := by
  intro st o hw ha
  unfold Tmp.use
  simp only [ha i hi, if_true]
  exact ⟨rfl, Nat.le_refl _, Or.inl ⟨rfl, rfl⟩⟩

/-- The heap with one more object. -/
def push (h : TmpObjects) (k : TmpKind) : TmpObjects :=
  { h with next := h.next + 1, live := (h.next, k) :: h.live }

theorem numbered_push {h : TmpObjects} (hw : Numbered h) (k : TmpKind) : Numbered (push h k) := by
  intro p hp
  simp only [push, List.mem_cons] at hp ⊢
  rcases hp with rfl | hp
  · exact Nat.lt_succ_self _
  · exact Nat.lt_succ_of_lt (hw p hp)

theorem filter_old {h : TmpObjects} (hw : Numbered h) {i : Nat} (hi : h.next ≤ i) :
    h.live.filter (fun p => p.1 ≠ i) = h.live := by
  rw [List.filter_eq_self]
  intro p hp
  have := hw p hp
  simp only [ne_eq, decide_not, Bool.not_eq_true', decide_eq_false_iff_not]
  omega

/-- Freeing the object created last before. -/
theorem free_last {h h' : TmpObjects} (hw : Numbered h) (k : TmpKind) (hl : h'.live = (push h k).live)
    (hm : h'.misused = h.misused) (st : σ) :
    ∃ o, free h.next (st, h') = .ok () (st, o) ∧ o.next = h'.next ∧ AllFreed h o := by
  unfold free
  have ha : h'.alive h.next = true := by
    rw [alive_congr hl]; simp [TmpObjects.alive, push]
  simp only [ha, if_true]
  refine ⟨_, rfl, rfl, ?_, hm⟩
  simp only [hl, push, ne_eq, not_true_eq_false, decide_false, Bool.false_eq_true, not_false_iff,
    List.filter_cons_of_neg]
  exact filter_old hw (Nat.le_refl _)

theorem Ends.guarded {need : List Nat} {P : Err → Prop} {k : TmpKind} {block : Nat → TmpM σ α}
    {g : EStateM Err σ α} (h : ∀ i, Ends (i :: need) P (block i) g) :
    Ends need P (Tmp.guarded k block) g := by
  intro st o hw ha
  obtain ⟨h1, h2, h3⟩ := h o.next st (push o k) (numbered_push hw k) (by
    intro i hi
    simp only [TmpObjects.alive, push, List.any_cons, Bool.or_eq_true, decide_eq_true_eq]
    rcases List.mem_cons.1 hi with rfl | hi
    · exact Or.inl rfl
    · exact Or.inr (ha i hi))
  have hrun : Tmp.guarded k block (st, o) = (match block o.next (st, push o k) with
    | .ok a w' => match free o.next w' with
      | .ok () w'' => .ok a w''
      | .error e w'' => .error e w''
    | .error e w' => match free o.next w' with
      | .ok () w'' => .error e w''
      | .error e' w'' => .error e' w'') := rfl
  rw [hrun, ← h1]
  cases hb : block o.next (st, push o k) with
  | ok a w =>
    obtain ⟨st', o'⟩ := w
    rw [hb] at h2 h3
    simp only [leftover] at h2 h3
    have hl : AllFreed (push o k) o' := by
      rcases h3 with h3 | ⟨⟨e, w, he, _⟩, _⟩
      · exact h3
      · cases he
    obtain ⟨o2, e2, n2, f2⟩ := free_last hw k hl.1 hl.2 st'
    simp only [e2]
    refine ⟨rfl, ?_, Or.inl f2⟩
    simp only [leftover, n2]
    exact Nat.le_trans (Nat.le_succ _) h2
  | error e w =>
    obtain ⟨st', o'⟩ := w
    rw [hb] at h2 h3
    simp only [leftover] at h2 h3
    rcases h3 with hl | ⟨⟨e', w', he, p⟩, i, j1, j2, j3, j4⟩
    · obtain ⟨o2, e2, n2, f2⟩ := free_last hw k hl.1 hl.2 st'
      simp only [e2]
      refine ⟨rfl, ?_, Or.inl f2⟩
      simp only [leftover, n2]
      exact Nat.le_trans (Nat.le_succ _) h2
    · cases he
      have j1' : o.next + 1 ≤ i := j1
      have halive : o'.alive o.next = true := by
        simp [TmpObjects.alive, j3, push]
      have e2 : free o.next (st', o') = .ok () (st', { o' with live := o'.live.filter (fun p => p.1 ≠ o.next) }) := by
        unfold free; simp only [halive, if_true]
      simp only [e2]
      refine ⟨rfl, Nat.le_trans (Nat.le_succ _) h2, Or.inr ⟨⟨_, _, rfl, p⟩, i, by omega, j2, ?_, j4⟩⟩
      simp only [leftover, j3, push]
      rw [List.filter_cons_of_pos (by simp; omega), List.filter_cons_of_neg (by simp), filter_old hw (Nat.le_refl _)]

/-- A new object that is used and freed at once. -/
theorem new_use_free {need : List Nat} {P : Err → Prop} {k : TmpKind} {f : TmpM σ α} {g : EStateM Err σ α}
    (h : Ends need P f g) :
    Ends need P (do let i ← new k; use i; free i; f) g := by
  have hc : Ends need P (Tmp.guarded k (fun i => use i)) (Pure.pure () : EStateM Err σ Unit) :=
    Ends.guarded (fun i => Ends.use P (List.mem_cons_self ..))
  have := hc.bind (f' := fun _ => f) (g' := fun _ => g) (fun _ => h)
  exact this

end Tmp
end Dkim

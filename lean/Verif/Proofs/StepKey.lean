import Verif.Proofs.StepLower
import Verif.Proofs.StepWords
import Verif.Props.StringStream
import Verif.Props.TagList
import Verif.Proofs.PublicKey
/-!
# The steps of `PublicKey::Parse`
-/

namespace Dkim.Steps

variable {α β : Type} {E : Env}

/-! ## Results -/

/-- The counting program does what the program does. -/
def SimK (mc : KM E α) (m : KeyM E α) : Prop := ∀ k n, ∃ c,
  mc (k, n) = match m k with
    | .ok a k' => .ok a (k', n + c)
    | .error e k' => .error e (k', n + c)

theorem SimK.bind {mc : KM E α} {m : KeyM E α} {fc : α → KM E β} {f : α → KeyM E β} (h : SimK mc m) (h2 : ∀ a, SimK (fc a) (f a)) :
    SimK (mc >>= fc) (m >>= f) := by
  intro k n
  obtain ⟨c, hc⟩ := h k n
  rw [es_bind, es_bind, hc]
  cases hm : m k with
  | ok a k' =>
    obtain ⟨c2, hc2⟩ := h2 a k' (n + c)
    refine ⟨c + c2, ?_⟩
    rw [← Nat.add_assoc]
    exact hc2
  | error e k' => exact ⟨c, rfl⟩

theorem simK_onKey (m : KeyM E α) : SimK (onKey m) m := by
  intro k n
  refine ⟨0, ?_⟩
  unfold onKey
  dsimp only
  cases m k <;> rfl

theorem simK_pure (a : α) : SimK (E := E) (pure a) (pure a) := fun _ _ => ⟨0, rfl⟩
theorem simK_throw (e : Err) : SimK (E := E) (throw e : KM E α) (throw e) := fun _ _ => ⟨0, rfl⟩

theorem simK_tags (lr : Bool) (txt : Bytes) : SimK (E := E) (keyTagList lr txt) (Dkim.keyTagList txt) := by
  intro k n
  refine ⟨(tagParse lr txt k.tags).1.2, ?_⟩
  unfold keyTagList Dkim.keyTagList
  rw [C77_tag_list lr txt k.tags, ← tagParse_eq lr txt k.tags]
  dsimp only
  obtain ⟨⟨x, c⟩, t⟩ := tagParse lr txt k.tags
  cases x with
  | ok u => rfl
  | error e => cases e <;> rfl

theorem simK_values (lr : Bool) (v : Bytes) : SimK (E := E) (keyValues lr v) (liftE (Dkim.valueList v)) := by
  intro k n
  refine ⟨(valueList lr v).2, ?_⟩
  unfold keyValues liftE
  rw [← C77_value_list lr v, ← valueList_eq lr v]
  dsimp only
  obtain ⟨x, c⟩ := valueList lr v
  cases x with
  | ok u => rfl
  | error e => cases e <;> rfl

theorem simK_h (lr : Bool) : SimK (E := E) (keyH lr) Dkim.keyH := by
  unfold keyH Dkim.keyH
  refine SimK.bind (simK_onKey _) fun o => ?_
  cases o with
  | none => exact simK_pure _
  | some h =>
    dsimp only
    by_cases hv : h.value.isEmpty = true
    · rw [if_pos hv, if_pos hv]; exact simK_throw _
    · rw [if_neg hv, if_neg hv]; exact SimK.bind (simK_values lr _) fun _ => simK_onKey _

theorem simK_s (lr : Bool) : SimK (E := E) (keyS lr) Dkim.keyS := by
  unfold keyS Dkim.keyS
  refine SimK.bind (simK_onKey _) fun o => ?_
  cases o with
  | none => exact simK_pure _
  | some h =>
    dsimp only
    by_cases hv : h.value.isEmpty = true
    · rw [if_pos hv, if_pos hv]; exact simK_throw _
    · rw [if_neg hv, if_neg hv]; exact SimK.bind (simK_values lr _) fun _ => simK_onKey _

theorem simK_t (lr : Bool) : SimK (E := E) (keyT lr) Dkim.keyT := by
  unfold keyT Dkim.keyT
  refine SimK.bind (simK_onKey _) fun o => ?_
  cases o with
  | none => exact simK_pure _
  | some h => exact SimK.bind (simK_values lr _) fun _ => simK_onKey _

/-- Outcome and object are those of `PublicKey::Parse`. -/
theorem keyParse_eq (lr : Bool) (txt : Bytes) :
    PublicKey.parse (E := E) txt {} = (match keyParse E lr txt with
      | (.ok (), k, _) => .ok () k
      | (.error e, k, _) => .error e k) := by
  have h : SimK (E := E) (do keyTagList lr txt; onKey keyV; keyH lr; onKey keyK; onKey keyP; keyS lr; keyT lr) (PublicKey.parse txt) :=
    SimK.bind (simK_tags lr txt) fun _ => SimK.bind (simK_onKey _) fun _ => SimK.bind (simK_h lr) fun _ => SimK.bind (simK_onKey _) fun _ =>
      SimK.bind (simK_onKey _) fun _ => SimK.bind (simK_s lr) fun _ => simK_t lr
  obtain ⟨c, hc⟩ := h {} 0
  unfold keyParse
  dsimp only
  rw [hc]
  cases PublicKey.parse (E := E) txt {} <;> rfl

/-! ## Bounds -/

/-- From an object with `P`, at most `C` steps, and `P` again at the end. -/
def CostK (P : PublicKey E → Prop) (C : Nat) (m : KM E α) : Prop := ∀ k n, P k →
  match m (k, n) with
  | .ok _ (k', n') => P k' ∧ n' ≤ n + C
  | .error _ (_, n') => n' ≤ n + C

variable {P : PublicKey E → Prop} {C C' : Nat}

theorem CostK.bind {m : KM E α} {f : α → KM E β} (h : CostK P C m) (h2 : ∀ a, CostK P C' (f a)) : CostK P (C + C') (m >>= f) := by
  intro k n hk
  have := h k n hk
  rw [es_bind]
  cases hm : m (k, n) with
  | ok a r =>
    rw [hm] at this
    dsimp only at this
    have h3 := h2 a r.1 r.2 this.1
    change match f a r with
      | .ok _ (k', n') => P k' ∧ n' ≤ n + (C + C')
      | .error _ (_, n') => n' ≤ n + (C + C')
    cases hf : f a r with
    | ok b r' => rw [hf] at h3; exact ⟨h3.1, by have := h3.2; omega⟩
    | error e r' => rw [hf] at h3; dsimp only at h3 ⊢; omega
  | error e r => rw [hm] at this; dsimp only [esBind] at this ⊢; omega

theorem costK_onKey {m : KeyM E α} (h : ∀ k a k', P k → m k = .ok a k' → P k') : CostK P 0 (onKey m) := by
  intro k n hk
  unfold onKey
  dsimp only
  cases hm : m k with
  | ok a k' => exact ⟨h _ _ _ hk hm, Nat.le_refl _⟩
  | error e k' => exact Nat.le_refl _

theorem costK_pure (a : α) : CostK P C (pure a : KM E α) := fun _ _ hk => ⟨hk, Nat.le_add_right _ _⟩
theorem costK_throw (e : Err) : CostK P C (throw e : KM E α) := fun _ _ _ => Nat.le_add_right _ _

theorem CostK.mono {m : KM E α} (h : CostK P C m) (hc : C ≤ C') : CostK P C' m := by
  intro k n hk
  have := h k n hk
  revert this
  cases m (k, n) with
  | ok a r => exact fun h => ⟨h.1, Nat.le_trans h.2 (by omega)⟩
  | error e r => exact fun h => Nat.le_trans h (by omega)

/-- Every stored value costs at most `V`. -/
def Cheap (lr : Bool) (V : Nat) (k : PublicKey E) : Prop := ∀ name t, k.tags.getTag name = some t → (valueList lr t.value).2 ≤ V

theorem cheap_tags {lr : Bool} {V : Nat} {k k' : PublicKey E} (h : Cheap lr V k) (ht : k'.tags = k.tags) : Cheap lr V k' := by
  unfold Cheap; rw [ht]; exact h

theorem costK_values {lr : Bool} {V : Nat} {v : Bytes} (h : (valueList lr v).2 ≤ V) (P : PublicKey E → Prop) : CostK P V (keyValues lr v) := by
  intro k n hk
  unfold keyValues
  dsimp only
  revert h
  obtain ⟨x, c⟩ := valueList lr v
  intro h
  cases x with
  | ok l => exact ⟨hk, Nat.add_le_add_left h _⟩
  | error e => exact Nat.add_le_add_left h n

/-- Looking a tag up, then the rest. -/
theorem costK_tag {lr : Bool} {V C : Nat} {name : Bytes} {f : Option TagEntry → KM E β} (h1 : CostK (Cheap lr V) C (f none))
    (h2 : ∀ t, (valueList lr t.value).2 ≤ V → CostK (Cheap lr V) C (f (some t))) : CostK (Cheap lr V) C (onKey (keyTag name) >>= f) := by
  intro k n hk
  rw [es_bind]
  show match f (k.tags.getTag name) (k, n) with
    | .ok _ (k', n') => _ ∧ n' ≤ n + C
    | .error _ (_, n') => n' ≤ n + C
  cases hg : k.tags.getTag name with
  | none => exact h1 k n hk
  | some t => exact h2 t (hk _ _ hg) k n hk

/-- Code that leaves the tags alone. -/
def Keeps (m : KeyM E α) : Prop := ∀ k a k', m k = .ok a k' → k'.tags = k.tags

theorem Keeps.bind {m : KeyM E α} {f : α → KeyM E β} (h : Keeps m) (h2 : ∀ a, Keeps (f a)) : Keeps (m >>= f) := by
  intro k a k' hm
  rw [es_bind] at hm
  cases hx : m k with
  | ok b k1 => rw [hx] at hm; exact (h2 b _ _ _ hm).trans (h _ _ _ hx)
  | error e k1 => rw [hx] at hm; cases hm

theorem keeps_pure (a : α) : Keeps (E := E) (pure a) := by intro k b k' h; cases h; rfl
theorem keeps_throw (e : Err) : Keeps (E := E) (throw e : KeyM E α) := by intro k b k' h; cases h
theorem keeps_get : Keeps (E := E) MonadState.get := by intro k b k' h; cases h; rfl
theorem keeps_tag (name : Bytes) : Keeps (E := E) (keyTag name) := Keeps.bind keeps_get fun _ => keeps_pure _
theorem keeps_modify {f : PublicKey E → PublicKey E} (h : ∀ k, (f k).tags = k.tags) : Keeps (modify f) := by
  intro k b k' hm; cases hm; exact h k

theorem Keeps.cost {m : KeyM E α} (h : Keeps m) (lr : Bool) (V : Nat) : CostK (Cheap lr V) 0 (onKey m) :=
  costK_onKey fun _ _ _ hk hm => cheap_tags hk (h _ _ _ hm)

theorem keeps_v : Keeps (E := E) keyV := by
  unfold keyV
  refine Keeps.bind (keeps_tag _) fun o => ?_
  cases o with
  | none => exact keeps_pure _
  | some t => dsimp only; split <;> first | exact keeps_throw _ | exact keeps_pure _

theorem keeps_k : Keeps (E := E) keyK := by
  unfold keyK
  refine Keeps.bind (keeps_tag _) fun o => ?_
  cases o with
  | none => exact keeps_pure _
  | some t =>
    dsimp only
    split
    · exact keeps_modify fun _ => rfl
    split
    · exact keeps_modify fun _ => rfl
    · exact keeps_throw _

theorem keeps_p : Keeps (E := E) keyP := by
  unfold keyP
  refine Keeps.bind (keeps_tag _) fun o => ?_
  cases o with
  | none => exact keeps_throw _
  | some t =>
    dsimp only
    split
    · exact keeps_throw _
    refine Keeps.bind keeps_get fun k => ?_
    split
    · split
      · exact keeps_throw _
      · exact keeps_throw _
      · exact keeps_modify fun _ => rfl
    · split
      · exact keeps_throw _
      · exact keeps_modify fun _ => rfl

theorem cost_h (lr : Bool) (V : Nat) : CostK (E := E) (Cheap lr V) V (keyH lr) := by
  unfold keyH
  refine costK_tag (costK_pure _) fun t ht => ?_
  dsimp only
  split
  · exact costK_throw _
  · refine CostK.bind (C' := 0) (costK_values ht _) fun _ => Keeps.cost (keeps_modify ?_) lr V
    exact fun _ => rfl

theorem cost_s (lr : Bool) (V : Nat) : CostK (E := E) (Cheap lr V) V (keyS lr) := by
  unfold keyS
  refine costK_tag (costK_pure _) fun t ht => ?_
  dsimp only
  split
  · exact costK_throw _
  · refine CostK.bind (C' := 0) (costK_values ht _) fun _ => Keeps.cost (keeps_modify ?_) lr V
    exact fun _ => rfl

theorem cost_t (lr : Bool) (V : Nat) : CostK (E := E) (Cheap lr V) V (keyT lr) := by
  unfold keyT
  refine costK_tag (costK_pure _) fun t ht => ?_
  refine CostK.bind (C' := 0) (costK_values ht _) fun _ => Keeps.cost (keeps_modify ?_) lr V
  exact fun _ => rfl

/-- The steps of `PublicKey::Parse`, if every value stored by the tag list costs at most `V`. -/
theorem keyParse_cost {lr : Bool} {V : Nat} {txt : Bytes}
    (hV : ∀ m, TagList.parse txt [] = .ok () m → ∀ name t, m.getTag name = some t → (valueList lr t.value).2 ≤ V) :
    (keyParse E lr txt).2.2 ≤ 57 * txt.length + 48 + 3 * V := by
  have hrest : CostK (E := E) (Cheap lr V) (0 + (V + (0 + (0 + (V + V))))) (do onKey keyV; keyH lr; onKey keyK; onKey keyP; keyS lr; keyT lr) :=
    CostK.bind (keeps_v.cost lr V) fun _ => CostK.bind (cost_h lr V) fun _ => CostK.bind (keeps_k.cost lr V) fun _ =>
      CostK.bind (keeps_p.cost lr V) fun _ => CostK.bind (cost_s lr V) fun _ => cost_t lr V
  have hc := tagParse_cost lr txt []
  have h77 := C77_tag_list lr txt []
  rw [← tagParse_eq lr txt []] at h77
  unfold keyParse
  dsimp only
  rw [es_bind]
  generalize hg : (do onKey keyV; keyH lr; onKey keyK; onKey keyP; keyS lr; keyT lr : KM E Unit) = rest at hrest
  have hd : keyTagList (E := E) lr txt ({}, 0) = match tagParse lr txt [] with
      | ((.ok (), c), t) => .ok () ({ tags := t }, 0 + c)
      | ((.error e, c), t) => .error e.toErr ({ tags := t }, 0 + c) := rfl
  rw [hd]
  revert hc h77
  obtain ⟨⟨x, c⟩, t⟩ := tagParse lr txt []
  intro hc h77
  dsimp only at hc h77
  cases x with
  | error e => dsimp only [esBind]; omega
  | ok u =>
    rw [esBind_ok]
    have hk := hrest { tags := t } (0 + c) (hV t h77)
    revert hk
    cases rest ({ tags := t }, 0 + c) with
    | ok a r => intro hk; have := hk.2; dsimp only; omega
    | error e r => intro hk; dsimp only at hk ⊢; omega

/-! ## The values of a record -/

theorem value_slice {txt : Bytes} {m : TagList} (h : TagList.parse txt [] = .ok () m) {name : Bytes} {t : TagEntry} (ht : m.getTag name = some t) :
    t.value = [] ∨ ∃ before after, txt = before ++ t.value ++ after := by
  by_cases hv : t.value = []
  · exact .inl hv
  · obtain ⟨b, a, h1, _⟩ := C12_offset_delimits txt m h name t ht hv
    exact .inr ⟨b, a, h1⟩

theorem value_length {txt : Bytes} {m : TagList} (h : TagList.parse txt [] = .ok () m) {name : Bytes} {t : TagEntry} (ht : m.getTag name = some t) :
    t.value.length ≤ txt.length := by
  rcases value_slice h ht with h1 | ⟨b, a, h1⟩
  · rw [h1]; exact Nat.zero_le _
  · rw [h1]; simp; omega

theorem tagText_value {pos : Nat} {s : Bytes} {es : List (Bytes × TagEntry)} (h : Spec.TagText pos s es) {n : Bytes} {t : TagEntry}
    (hm : (n, t) ∈ es) : Spec.IsTagValue t.value := by
  induction h with
  | done => simp at hm
  | last pos i hw =>
    simp only [List.mem_singleton, Prod.mk.injEq] at hm
    rw [hm.2]; exact hw.2.2.2.2.1
  | cons pos i s es hw _ ih =>
    simp only [List.mem_cons, Prod.mk.injEq] at hm
    rcases hm with hm | hm
    · rw [hm.2]; exact hw.2.2.2.2.1
    · exact ih hm

theorem value_folded {txt : Bytes} {m : TagList} (h : TagList.parse txt [] = .ok () m) {name : Bytes} {t : TagEntry} (ht : m.getTag name = some t)
    (hf : Spec.FoldsOnly txt) : Spec.FoldsOnly t.value := by
  obtain ⟨es, h1, h2⟩ := C11_getTag txt m h
  have hval := tagText_value h1 ((h2 name t).1 ht)
  intro x y hxy
  rcases value_slice h ht with h3 | ⟨b, a, h3⟩
  · rw [h3] at hxy; simp [CRLF] at hxy
  · rw [hxy] at h3
    obtain ⟨c, r, h4, h5⟩ := hf (b ++ x) (y ++ a) (by rw [h3]; simp)
    cases y with
    | nil =>
      exfalso
      have := hval.2.2 LF (by rw [hxy]; simp [CRLF])
      revert this; unfold Spec.IsValByte; decide
    | cons d y =>
      rw [List.cons_append, List.cons.injEq] at h4
      exact ⟨d, y, rfl, by rw [h4.1]; exact h5⟩

end Dkim.Steps

import Verif.Proofs.StepBounds
import Verif.Spec.Steps
/-!
# Bounds on the number of steps: `ValueList`, `FilterHeader`
-/

namespace Dkim.Steps
open SS (toChar code)

variable {α β : Type} {D : Bytes → Prop} {N W : Nat} {s : SS} {r n : Nat}

/-- `ReadWhiteSpace(READ_FWS)` costs at most `3` steps for each byte it returns and `W` more. -/
def FW (lr : Bool) (D : Bytes → Prop) (N W : Nat) : Prop :=
  ∀ (s : SS) (r n : Nat), At D N s r → Bd s n (readFWS lr) (fun w s' n' => n ≤ n' ∧
    (∃ r', At D N s' r' ∧ r = w.length + r') ∧ n' ≤ n + 3 * w.length + W) (n + 3 * r + W)

theorem fw_any (lr : Bool) (N : Nat) : FW lr (fun _ => True) N (4 * N + 14) := by
  intro s r n ha
  have := ha.pos
  refine (bd_readFWS lr ha).mono ?_ (by omega)
  rintro w s' n' ⟨h0, h1, -, h3⟩
  exact ⟨h0, h1, by omega⟩

theorem folded_at {input : Bytes} (h : Spec.FoldsOnly input) {i : Nat} (h1 : input[i]? = some CR) (h2 : input[i + 1]? = some LF) :
    i + 2 < input.length ∧ (input[i + 2]? = some SP ∨ input[i + 2]? = some TAB) := by
  have e : input = input.take i ++ CRLF ++ input.drop (i + 2) := by
    have hl : i < input.length := by
      rcases Nat.lt_or_ge i input.length with h | h
      · exact h
      · rw [List.getElem?_eq_none h] at h1; simp at h1
    have hl2 : i + 1 < input.length := by
      rcases Nat.lt_or_ge (i + 1) input.length with h | h
      · exact h
      · rw [List.getElem?_eq_none h] at h2; simp at h2
    rw [List.getElem?_eq_getElem hl] at h1
    rw [List.getElem?_eq_getElem hl2] at h2
    have e1 := List.drop_eq_getElem_cons hl
    have e2 := List.drop_eq_getElem_cons hl2
    have e3 := (List.take_append_drop i input).symm
    rw [e1, e2] at e3
    simp only [Option.some.injEq] at h1 h2
    rw [h1, h2] at e3
    rw [List.append_assoc]
    exact e3
  obtain ⟨c, rest, hc, hw⟩ := h _ _ e
  have hl : i + 2 < input.length := by
    rcases Nat.lt_or_ge (i + 2) input.length with h | h
    · exact h
    · rw [List.drop_eq_nil_of_le h] at hc; simp at hc
  refine ⟨hl, ?_⟩
  rw [List.drop_eq_getElem_cons hl] at hc
  have hc := (List.cons.inj hc).1
  rw [List.getElem?_eq_getElem hl, hc]
  simpa [Spec.isWSP] using hw

theorem fw_folded (lr : Bool) {input : Bytes} (hf : Spec.FoldsOnly input) : FW lr (fun d => d = input) input.length 14 := by
  intro s r n ha
  unfold readFWS
  refine Bd.call (bd_left ha) (by omega) ?_
  rintro f s0 n0 ⟨-, rfl, rfl⟩
  refine Bd.call (bd_loopWSP _ [] s0 r n0 ha) (by omega) ?_
  rintro w s1 n1 ⟨h0, d, r1, h1, h2, h3, h4⟩
  simp only [List.length_nil, Nat.zero_add] at h3
  refine Bd.call (bd_readCRLF lr h1) (by omega) ?_
  rintro t s2 n2 ⟨g1, g0, ⟨r2, g2, g3⟩, g4⟩
  refine Bd.ite (fun ht => ?_) fun ht => ?_
  · have ht : t = [] := by simpa using ht
    subst ht
    exact Bd.pure ⟨by omega, ⟨r2, g2, by simp at g3; omega⟩, by omega⟩
  · rcases g4 with g4 | ⟨g4, g5, g6, g7, g8, g9⟩
    · subst g4; simp at ht
    have hd1 : s1.data = input := h1.d
    rw [hd1] at g6 g7
    obtain ⟨k1, k2⟩ := folded_at hf g6 g7
    have hd2 : s2.data = input := g2.d
    have hr : Ready s2 := ⟨g5, by rw [hd2, g9]; exact k1⟩
    refine Bd.call (bd_readWSP_at g2 hr (by rw [hd2, g9]; exact k2)) (by omega) ?_
    rintro t2 s3 n3 ⟨i1, i0, i2, r3, i3, i4⟩
    refine Bd.ite (fun ht2 => ?_) fun ht2 => ?_
    · have ht2 : t2 = [] := by simpa using ht2
      subst ht2
      simp at i2
    · refine Bd.call (bd_left i3) (by omega) ?_
      rintro f s4 n4 ⟨-, rfl, rfl⟩
      refine (bd_loopWSP _ _ s4 r3 n4 i3).mono ?_ (by omega)
      rintro x s5 n5 ⟨j0, d2, r5, j1, j2, j3, j4⟩
      rw [List.length_append, List.length_append] at j3
      exact ⟨by omega, ⟨r5, j1, by omega⟩, by omega⟩

theorem price {l W : Nat} (h : l ≠ 0) : 3 * l + W ≤ (3 + W) * l := by
  obtain ⟨l, rfl⟩ := Nat.exists_eq_succ_of_ne_zero h
  rw [Nat.add_mul, Nat.mul_succ W]
  have := Nat.zero_le (W * l)
  omega

theorem isEmpty_len {w : Bytes} (h : ¬ w.isEmpty = true) : w.length ≠ 0 := by
  cases w with
  | nil => simp at h
  | cons a b => simp

theorem bd_skipFWS {lr : Bool} (hF : FW lr D N W) (fuel : Nat) : ∀ (b : Bool) (s : SS) (r n : Nat), At D N s r →
    Bd s n (skipFWS lr fuel b) (fun _ s' n' => n ≤ n' ∧ ∃ d r', At D N s' r' ∧ r = d + r' ∧ n' ≤ n + (3 + W) * d + W)
      (n + (3 + W) * r + W) := by
  induction fuel with
  | zero => intro b s r n ha; exact Bd.throw (by omega)
  | succ fuel ih =>
    intro b s r n ha
    unfold skipFWS
    have h3r : 3 * r ≤ (3 + W) * r := Nat.mul_le_mul_right _ (by omega)
    refine Bd.call (hF s r n ha) (by omega) ?_
    rintro w s1 n1 ⟨h0, ⟨r1, h1, h2⟩, h3⟩
    refine Bd.ite (fun hw => ?_) fun hw => ?_
    · have hw : w = [] := by simpa using hw
      subst hw
      exact Bd.pure ⟨h0, 0, r1, h1, by simpa using h2, by simpa using h3⟩
    · have hp := price (W := W) (isEmpty_len hw)
      have hm : (3 + W) * r = (3 + W) * w.length + (3 + W) * r1 := by rw [h2, Nat.mul_add]
      refine (ih true s1 r1 n1 h1).mono ?_ (by omega)
      rintro _ s2 n2 ⟨g0, d, r2, g1, g2, g3⟩
      refine ⟨by omega, w.length + d, r2, g1, by omega, ?_⟩
      rw [Nat.mul_add]
      omega

theorem bd_valueLoop {lr : Bool} (hF : FW lr D N W) (fuel : Nat) : ∀ (b v : Bytes) (s : SS) (r n : Nat), At D N s r →
    Bd s n (valueLoop lr fuel b v) (fun _ s' n' => n ≤ n' ∧ ∃ d r', At D N s' r' ∧ r = d + r' ∧ n' ≤ n + (3 + W) * d + W + 2)
      (n + (3 + W) * r + W + 2) := by
  induction fuel with
  | zero => intro b v s r n ha; exact Bd.throw (by omega)
  | succ fuel ih =>
    intro b v s r n ha
    unfold valueLoop
    have h3r : 3 * r ≤ (3 + W) * r := Nat.mul_le_mul_right _ (by omega)
    refine Bd.call (hF s r n ha) (by omega) ?_
    rintro w s1 n1 ⟨h0, ⟨r1, h1, h2⟩, h3⟩
    refine Bd.ite (fun hw => ?_) fun hw => ?_
    · have hw : w = [] := by simpa using hw
      subst hw
      simp only [List.length_nil, Nat.zero_add, Nat.mul_zero, Nat.add_zero] at h2 h3
      subst h2
      refine Bd.test ((ct_is COLON).or ct_eof) h1 (by omega) ?_ ?_
      · intro s2 n2 k0 k1 k2 _ _
        exact Bd.pure ⟨by omega, 0, r, k2, by omega, by omega⟩
      · intro s2 n2 k0 k1 k2 k3 _
        refine Bd.call (bd_get k2 (k3 rfl)) (by omega) ?_
        rintro c s3 n3 ⟨i1, ⟨r3, i2, i3⟩, -⟩
        have hm : (3 + W) * r = (3 + W) * r3 + (3 + W) := by rw [i2, Nat.mul_add, Nat.mul_one]
        refine (ih _ _ s3 r3 n3 i3).mono ?_ (by omega)
        rintro _ s4 n4 ⟨g0, d, r4, g1, g2, g3⟩
        refine ⟨by omega, d + 1, r4, g1, by omega, ?_⟩
        rw [Nat.mul_add, Nat.mul_one]
        omega
    · have hp := price (W := W) (isEmpty_len hw)
      have hm : (3 + W) * r = (3 + W) * w.length + (3 + W) * r1 := by rw [h2, Nat.mul_add]
      refine (ih _ _ s1 r1 n1 h1).mono ?_ (by omega)
      rintro _ s2 n2 ⟨g0, d, r2, g1, g2, g3⟩
      refine ⟨by omega, w.length + d, r2, g1, by omega, ?_⟩
      rw [Nat.mul_add]
      omega

theorem bd_valueListLoop {lr : Bool} (hF : FW lr D N W) (fuel : Nat) : ∀ (vs : List Bytes) (s : SS) (r n : Nat), At D N s r →
    Bd s n (valueListLoop lr fuel vs) (fun _ _ n' => n' ≤ n + 2 * ((3 + W) * r) + 2 * (3 + W)) (n + 2 * ((3 + W) * r) + 2 * (3 + W)) := by
  induction fuel with
  | zero => intro vs s r n ha; exact Bd.throw (by omega)
  | succ fuel ih =>
    intro vs s r n ha
    unfold valueListLoop
    refine Bd.call (bd_left ha) (by omega) ?_
    rintro f s0 n0 ⟨-, rfl, rfl⟩
    refine Bd.call (bd_skipFWS hF _ _ s0 r n0 ha) (by omega) ?_
    rintro _ s1 n1 ⟨h0, d, r1, h1, h2, h3⟩
    have hm : (3 + W) * r = (3 + W) * d + (3 + W) * r1 := by rw [h2, Nat.mul_add]
    refine Bd.test ct_eof h1 (by omega) ?_ ?_
    · intro s2 n2 k0 k1 k2 _ _
      exact Bd.pure (by omega)
    · intro s2 n2 k0 k1 k2 k3 _
      refine Bd.call (bd_left k2) (by omega) ?_
      rintro f s3 n3 ⟨-, rfl, rfl⟩
      refine Bd.call (bd_valueLoop hF _ _ _ s3 r1 n3 k2) (by omega) ?_
      rintro v s4 n4 ⟨g0, d2, r4, g1, g2, g3⟩
      have hm2 : (3 + W) * r1 = (3 + W) * d2 + (3 + W) * r4 := by rw [g2, Nat.mul_add]
      refine Bd.ite (fun _ => bd_throwPos g1 (by omega)) fun _ => ?_
      refine Bd.call (bd_get_any g1) (by omega) ?_
      rintro o s5 n5 ⟨i1, r5, i2, i3, i4⟩
      refine Bd.ite (fun _ => Bd.pure (by omega)) fun ho => ?_
      have i4 := i4 (by intro h; rw [h] at ho; simp at ho)
      have hm3 : (3 + W) * r4 = (3 + W) * r5 + (3 + W) := by rw [i4, Nat.mul_add, Nat.mul_one]
      refine (ih _ s5 r5 n5 i2).mono ?_ (by omega)
      intro _ s6 n6 g
      omega

theorem run_bd {m : CM α} {input : Bytes} {K : Nat} (h : Bd { data := input } 0 m (fun _ _ n' => n' ≤ K) K) : (run m input).2 ≤ K := by
  unfold Bd at h
  unfold run
  cases hm : m ({ data := input }, 0) with
  | ok a r => rw [hm] at h; exact h
  | error e r => rw [hm] at h; exact h

theorem valueList_cost {lr : Bool} {input : Bytes} (hF : FW lr D input.length W) (hD : D input) :
    (valueList lr input).2 ≤ 2 * (3 + W) * (input.length + 1) := by
  refine run_bd ?_
  have e : 0 + 2 * ((3 + W) * input.length) + 2 * (3 + W) = 2 * (3 + W) * (input.length + 1) := by
    rw [Nat.mul_succ, Nat.mul_assoc, Nat.zero_add]
  refine (bd_valueListLoop hF _ [] _ input.length 0 (At.start hD)).mono ?_ (by omega)
  intro _ _ _ h
  omega

theorem bd_collapse {lr : Bool} (hF : FW lr D N W) (fuel : Nat) : ∀ (x : Bytes) (s : SS) (r n : Nat), At D N s r →
    Bd s n (collapse lr fuel x) (fun _ _ n' => n' ≤ n + (3 + W) * r + (3 + W)) (n + (3 + W) * r + (3 + W)) := by
  induction fuel with
  | zero => intro x s r n ha; exact Bd.throw (by omega)
  | succ fuel ih =>
    intro x s r n ha
    unfold collapse
    refine Bd.call (bd_left ha) (by omega) ?_
    rintro f s0 n0 ⟨-, rfl, rfl⟩
    refine Bd.call (bd_skipFWS hF _ _ s0 r n0 ha) (by omega) ?_
    rintro found s1 n1 ⟨h0, d, r1, h1, h2, h3⟩
    have hm : (3 + W) * r = (3 + W) * d + (3 + W) * r1 := by rw [h2, Nat.mul_add]
    refine Bd.test ct_eof h1 (by omega) ?_ ?_
    · intro s2 n2 k0 k1 k2 _ _
      exact Bd.pure (by omega)
    · intro s2 n2 k0 k1 k2 k3 _
      refine Bd.call (bd_get k2 (k3 rfl)) (by omega) ?_
      rintro c s3 n3 ⟨i1, ⟨r3, i2, i3⟩, -⟩
      have hm : (3 + W) * r1 = (3 + W) * r3 + (3 + W) := by rw [i2, Nat.mul_add, Nat.mul_one]
      refine (ih _ s3 r3 n3 i3).mono ?_ (by omega)
      intro _ _ _ h
      omega

theorem collapse_cost {lr : Bool} {input : Bytes} (hF : FW lr D input.length W) (hD : D input) :
    (run (collapse lr (input.length + 1) []) input).2 ≤ (3 + W) * (input.length + 1) := by
  refine run_bd ?_
  have e : 0 + (3 + W) * input.length + (3 + W) = (3 + W) * (input.length + 1) := by
    rw [Nat.mul_add, Nat.mul_one, Nat.zero_add]
  refine (bd_collapse hF _ [] _ input.length 0 (At.start hD)).mono ?_ (by omega)
  intro _ _ _ h
  omega

end Dkim.Steps

import Verif.Proofs.StepLists
/-!
# Bounds on the number of steps: `ParseAddressList`
-/

namespace Dkim.Steps
open SS (toChar code)

variable {α β : Type} {D : Bytes → Prop} {N W : Nat} {s : SS} {r n : Nat}

theorem bd_quotedLoop (fuel : Nat) : ∀ (t : Bytes) (s : SS) (r n : Nat), At D N s r →
    Bd s n (quotedLoop true fuel t) (fun x s' n' => n ≤ n' ∧ ∃ d r', At D N s' r' ∧ r = d + r' ∧ x.length + 1 ≤ t.length + d ∧ n' ≤ n + 2 * d)
      (n + 2 * r + 2) := by
  induction fuel with
  | zero => intro t s r n ha; exact Bd.throw (by omega)
  | succ fuel ih =>
    intro t s r n ha
    unfold quotedLoop
    refine Bd.call (bd_get_any ha) (by omega) ?_
    rintro o s1 n1 ⟨h1, r1, h2, h3, h4⟩
    refine Bd.ite (fun _ => bd_throwPlain (by omega)) fun ho => ?_
    have h4 := h4 (by intro h; rw [h] at ho; exact ho (by decide))
    refine Bd.ite (fun _ => ?_) fun _ => Bd.ite (fun _ => ?_) fun _ => ?_
    · refine Bd.test ct_eof h2 (by omega) ?_ ?_
      · intro s2 n2 _ _ _ _ _
        exact bd_throwPlain (by omega)
      · intro s2 n2 g0 g1 g2 g3 _
        refine Bd.call (bd_get g2 (g3 rfl)) (by omega) ?_
        rintro c s3 n3 ⟨i1, ⟨r3, i2, i3⟩, -⟩
        refine (ih _ s3 r3 n3 i3).mono ?_ (by omega)
        rintro x s4 n4 ⟨j0, d, r4, j1, j2, j3, j4⟩
        rw [List.length_append, List.length_singleton] at j3
        exact ⟨by omega, d + 2, r4, j1, by omega, by omega, by omega⟩
    · exact Bd.pure ⟨by omega, 1, r1, h2, by omega, by omega, by omega⟩
    · refine (ih _ s1 r1 n1 h2).mono ?_ (by omega)
      rintro x s4 n4 ⟨j0, d, r4, j1, j2, j3, j4⟩
      rw [List.length_append, List.length_singleton] at j3
      exact ⟨by omega, d + 1, r4, j1, by omega, by omega, by omega⟩

theorem bd_commentStep (dp : Nat) (t : Bytes) (ha : At D N s r) :
    Bd s n (commentStep dp t) (fun _ s' n' => n ≤ n' ∧ n' ≤ n + 3 ∧ ∃ r', At D N s' r' ∧ r' ≤ r ∧ (Ready s → r = r' + 1)) (n + 3) := by
  unfold commentStep
  refine Bd.call (ct_is 40 _ _ s r n ha) (by omega) ?_
  rintro x s1 n1 ⟨h0, h1, h2, h3, -⟩
  refine Bd.call (ct_is 41 _ _ s1 r n1 h2) (by omega) ?_
  rintro y s2 n2 ⟨g0, g1, g2, g3, -⟩
  have key : Bd s2 n2 get (fun _ s' n' => n' = n2 + 1 ∧ ∃ r', At D N s' r' ∧ r' ≤ r ∧ (Ready s → r = r' + 1)) n2 := by
    by_cases hr : Ready s2
    · refine (bd_get g2 hr).mono ?_ (Nat.le_refl _)
      rintro o s3 n3 ⟨i1, ⟨r3, i2, i3⟩, -⟩
      exact ⟨i1, r3, i3, by omega, fun _ => i2⟩
    · refine (bd_get_any g2).mono ?_ (Nat.le_refl _)
      rintro o s3 n3 ⟨i1, r3, i2, i3, -⟩
      exact ⟨i1, r3, i2, i3, fun h => absurd (g3.2 (h3.2 h)) hr⟩
  refine Bd.call key (by omega) ?_
  rintro o s3 n3 ⟨i1, r3, i2, i3, i4⟩
  exact Bd.ite (fun _ => Bd.pure ⟨by omega, by omega, r3, i2, i3, i4⟩) fun _ => Bd.pure ⟨by omega, by omega, r3, i2, i3, i4⟩

theorem bd_commentLoop (fuel : Nat) : ∀ (dp : Nat) (t : Bytes) (s : SS) (r n : Nat), At D N s r →
    Bd s n (commentLoop fuel dp t) (fun _ s' n' => n ≤ n' ∧ ∃ d r', At D N s' r' ∧ r = d + r' ∧ n' ≤ n + 5 * d) (n + 5 * r + 1) := by
  induction fuel with
  | zero => intro dp t s r n ha; exact Bd.throw (by omega)
  | succ fuel ih =>
    intro dp t s r n ha
    unfold commentLoop
    refine Bd.ite (fun _ => Bd.pure ⟨Nat.le_refl _, 0, r, ha, by omega, by omega⟩) fun _ => ?_
    refine Bd.test ct_eof ha (by omega) ?_ ?_
    · intro s1 n1 _ _ _ _ _
      exact bd_throwPlain (by omega)
    intro s1 n1 h0 h1 h2 h3 _
    have hpos := (h3 rfl).pos h2
    refine Bd.test (ct_is 92) h2 (by omega) ?_ ?_
    · intro s2 n2 g0 g1 g2 g3 _
      refine Bd.call (bd_get g2 (g3 rfl)) (by omega) ?_
      rintro c s3 n3 ⟨i1, ⟨r3, i2, i3⟩, -⟩
      refine Bd.test ct_eof i3 (by omega) ?_ ?_
      · intro s4 n4 _ _ _ _ _
        exact bd_throwPlain (by omega)
      intro s4 n4 j0 j1 j2 j3 _
      have hpos2 := (j3 rfl).pos j2
      refine Bd.call (bd_get j2 (j3 rfl)) (by omega) ?_
      rintro c s5 n5 ⟨k1, ⟨r5, k2, k3⟩, -⟩
      refine Bd.call (bd_commentStep _ _ k3) (by omega) ?_
      rintro ⟨dp2, t2⟩ s6 n6 ⟨l0, l1, r6, l2, l3, -⟩
      refine (ih _ _ s6 r6 n6 l2).mono ?_ (by omega)
      rintro x s7 n7 ⟨m0, d, r7, m1, m2, m3⟩
      exact ⟨by omega, r - r7, r7, m1, by omega, by omega⟩
    · intro s2 n2 g0 g1 g2 _ g4
      refine Bd.call (bd_commentStep _ _ g2) (by omega) ?_
      rintro ⟨dp2, t2⟩ s6 n6 ⟨l0, l1, r6, l2, l3, l4⟩
      have l4 := l4 (g4.2 (h3 rfl))
      refine (ih _ _ s6 r6 n6 l2).mono ?_ (by omega)
      rintro x s7 n7 ⟨m0, d, r7, m1, m2, m3⟩
      exact ⟨by omega, r - r7, r7, m1, by omega, by omega⟩

theorem mul15 (W d : Nat) : 15 * d ≤ (W + 15) * d := Nat.mul_le_mul_right _ (by omega)

theorem bd_nextTok {lr : Bool} (hF : FW lr D N W) (fuel : Nat) : ∀ (t : Bytes) (s : SS) (r n : Nat), At D N s r →
    Bd s n (nextTok lr true fuel t) (fun p s' n' => n ≤ n' ∧ ∃ d r', At D N s' r' ∧ r = d + r' ∧
        (p.1 ≠ .eof → 1 ≤ d ∨ t ≠ []) ∧ (p.1 = .quoted → t = [] ∧ p.2.length + 2 ≤ d ∧ n' ≤ n + W + 15 + 5 * d) ∧
        n' ≤ n + (W + 15) * d + (W + 15)) (n + (W + 15) * r + (W + 15)) := by
  induction fuel with
  | zero => intro t s r n ha; exact Bd.throw (by omega)
  | succ fuel ih =>
    intro t s r n ha
    have m15 := mul15 W r
    have done : ∀ (s1 : SS) (n1 d1 r1 : Nat), At D N s1 r1 → r = d1 + r1 → n ≤ n1 → n1 ≤ n + (W + 15) * d1 + (W + 15) →
        Bd s1 n1 (if t.isEmpty = true then pure (AddrTok.eof, t) else pure (AddrTok.atom, t))
          (fun p s' n' => n ≤ n' ∧ ∃ d r', At D N s' r' ∧ r = d + r' ∧
            (p.1 ≠ .eof → 1 ≤ d ∨ t ≠ []) ∧ (p.1 = .quoted → t = [] ∧ p.2.length + 2 ≤ d ∧ n' ≤ n + W + 15 + 5 * d) ∧
            n' ≤ n + (W + 15) * d + (W + 15)) (n + (W + 15) * r + (W + 15)) := by
      intro s1 n1 d1 r1 h1 h2 h3 h4
      refine Bd.ite (fun _ => Bd.pure ⟨h3, d1, r1, h1, h2, fun h => absurd rfl h, fun h => (by cases h), h4⟩) fun ht => ?_
      exact Bd.pure ⟨h3, d1, r1, h1, h2, fun _ => .inr (by intro h; rw [h] at ht; simp at ht), fun h => (by cases h), h4⟩
    have atom : ∀ (s1 : SS) (n1 d1 r1 : Nat), (!t.isEmpty) = true → At D N s1 r1 → r = d1 + r1 → n ≤ n1 → n1 ≤ n + (W + 15) * d1 + (W + 15) →
        Bd s1 n1 (pure (AddrTok.atom, t))
          (fun p s' n' => n ≤ n' ∧ ∃ d r', At D N s' r' ∧ r = d + r' ∧
            (p.1 ≠ .eof → 1 ≤ d ∨ t ≠ []) ∧ (p.1 = .quoted → t = [] ∧ p.2.length + 2 ≤ d ∧ n' ≤ n + W + 15 + 5 * d) ∧
            n' ≤ n + (W + 15) * d + (W + 15)) (n + (W + 15) * r + (W + 15)) := by
      intro s1 n1 d1 r1 ht h1 h2 h3 h4
      exact Bd.pure ⟨h3, d1, r1, h1, h2, fun _ => .inr (by intro h; rw [h] at ht; simp at ht), fun h => (by cases h), h4⟩
    have one : ∀ (ty : AddrTok) (s1 : SS) (n1 d1 r1 : Nat), ty ≠ .quoted → At D N s1 r1 → Ready s1 → r = d1 + r1 → n ≤ n1 →
        n1 + 1 ≤ n + (W + 15) * d1 + (W + 15) →
        Bd s1 n1 (do let _ ← get; return (ty, t))
          (fun p s' n' => n ≤ n' ∧ ∃ d r', At D N s' r' ∧ r = d + r' ∧
            (p.1 ≠ .eof → 1 ≤ d ∨ t ≠ []) ∧ (p.1 = .quoted → t = [] ∧ p.2.length + 2 ≤ d ∧ n' ≤ n + W + 15 + 5 * d) ∧
            n' ≤ n + (W + 15) * d + (W + 15)) (n + (W + 15) * r + (W + 15)) := by
      intro ty s1 n1 d1 r1 hty h1 hr h2 h3 h4
      have hm : (W + 15) * r = (W + 15) * d1 + (W + 15) * r1 := by rw [h2, Nat.mul_add]
      refine Bd.call (bd_get h1 hr) (by omega) ?_
      rintro c s2 n2 ⟨i1, ⟨r2, i2, i3⟩, -⟩
      have hm2 : (W + 15) * (d1 + 1) = (W + 15) * d1 + (W + 15) := by rw [Nat.mul_add, Nat.mul_one]
      exact Bd.pure ⟨by omega, d1 + 1, r2, i3, by omega, fun _ => .inl (by omega), fun h => absurd h hty, by omega⟩
    unfold nextTok
    refine Bd.test ct_eof ha (by omega) ?_ ?_
    · intro s1 n1 h0 h1 h2 _ _
      exact done s1 n1 0 r h2 (by omega) (by omega) (by omega)
    intro s1 n1 h0 h1 h2 h3 _
    have hpos := (h3 rfl).pos h2
    refine Bd.call (hF s1 r n1 h2) (by omega) ?_
    rintro w s2 n2 ⟨g0, ⟨r2, g1, g2⟩, g3⟩
    have m15w := mul15 W w.length
    have hm : (W + 15) * r = (W + 15) * w.length + (W + 15) * r2 := by rw [g2, Nat.mul_add]
    refine Bd.ite (fun _ => done s2 n2 w.length r2 g1 g2 (by omega) (by omega)) fun _ => ?_
    refine Bd.test ct_eof g1 (by omega) ?_ ?_
    · intro s3 n3 i0 i1 i2 _ _
      exact done s3 n3 w.length r2 i2 g2 (by omega) (by omega)
    intro s3 n3 i0 i1 i2 i3 _
    have hready := i3 rfl
    have hpos2 := hready.pos i2
    refine Bd.test (ct_is 34) i2 (by omega) ?_ ?_
    · intro s4 n4 j0 j1 j2 j3 _
      refine Bd.ite (fun ht => atom s4 n4 w.length r2 ht j2 g2 (by omega) (by omega)) fun ht => ?_
      have ht : t = [] := by simpa using ht
      refine Bd.call (bd_get j2 (j3 rfl)) (by omega) ?_
      rintro c s5 n5 ⟨k1, ⟨r5, k2, k3⟩, -⟩
      refine Bd.call (bd_left k3) (by omega) ?_
      rintro f s6 n6 ⟨-, rfl, rfl⟩
      have m15b := mul15 W r2
      refine Bd.call (bd_quotedLoop _ [] s6 r5 n6 k3) (by omega) ?_
      rintro x s7 n7 ⟨l0, d, r7, l1, l2, l3, l4⟩
      simp only [List.length_nil, Nat.zero_add] at l3
      have m15c := mul15 W (w.length + 1 + d)
      exact Bd.pure ⟨by omega, w.length + 1 + d, r7, l1, by omega, fun _ => .inl (by omega),
        fun _ => ⟨ht, by show x.length + 2 ≤ _; omega, by omega⟩, by omega⟩
    intro s4 n4 j0 j1 j2 _ j4
    refine Bd.test (ct_is 40) j2 (by omega) ?_ ?_
    · intro s5 n5 k0 k1 k2 k3 _
      refine Bd.ite (fun ht => atom s5 n5 w.length r2 ht k2 g2 (by omega) (by omega)) fun ht => ?_
      refine Bd.call (bd_get k2 (k3 rfl)) (by omega) ?_
      rintro c s6 n6 ⟨l1, ⟨r6, l2, l3⟩, -⟩
      refine Bd.call (bd_left l3) (by omega) ?_
      rintro f s7 n7 ⟨-, rfl, rfl⟩
      have m15b := mul15 W r2
      refine Bd.call (bd_commentLoop _ _ [] s7 r6 n7 l3) (by omega) ?_
      rintro x s8 n8 ⟨m0, d, r8, m1, m2, m3⟩
      have m15c := mul15 W (w.length + 1 + d)
      exact Bd.pure ⟨by omega, w.length + 1 + d, r8, m1, by omega, fun _ => .inl (by omega), fun h => (by cases h), by omega⟩
    intro s5 n5 k0 k1 k2 _ k4
    refine Bd.test (ct_is 60) k2 (by omega) ?_ ?_
    · intro s6 n6 l0 l1 l2 l3 _
      refine Bd.ite (fun ht => atom s6 n6 w.length r2 ht l2 g2 (by omega) (by omega)) fun ht => ?_
      exact one _ s6 n6 w.length r2 (by decide) l2 (l3 rfl) g2 (by omega) (by omega)
    intro s6 n6 l0 l1 l2 _ l4
    refine Bd.test (ct_is 62) l2 (by omega) ?_ ?_
    · intro s7 n7 m0 m1 m2 m3 _
      refine Bd.ite (fun ht => atom s7 n7 w.length r2 ht m2 g2 (by omega) (by omega)) fun ht => ?_
      exact one _ s7 n7 w.length r2 (by decide) m2 (m3 rfl) g2 (by omega) (by omega)
    intro s7 n7 m0 m1 m2 _ m4
    refine Bd.test ((ct_is 44).or (ct_is 59)) m2 (by omega) ?_ ?_
    · intro s8 n8 p0 p1 p2 p3 _
      refine Bd.ite (fun ht => atom s8 n8 w.length r2 ht p2 g2 (by omega) (by omega)) fun ht => ?_
      exact one _ s8 n8 w.length r2 (by decide) p2 (p3 rfl) g2 (by omega) (by omega)
    intro s8 n8 p0 p1 p2 _ p4
    have hr8 : Ready s8 := p4.2 (m4.2 (l4.2 (k4.2 (j4.2 hready))))
    refine Bd.call (bd_get p2 hr8) (by omega) ?_
    rintro c s9 n9 ⟨q1, ⟨r9, q2, q3⟩, -⟩
    have hm9 : (W + 15) * r2 = (W + 15) * r9 + (W + 15) := by rw [q2, Nat.mul_add, Nat.mul_one]
    refine (ih _ s9 r9 n9 q3).mono ?_ (by omega)
    rintro p s10 n10 ⟨u0, d, r10, u1, u2, u3, u4, u5⟩
    have hm10 : (W + 15) * (w.length + 1 + d) = (W + 15) * w.length + (W + 15) + (W + 15) * d := by
      rw [Nat.mul_add, Nat.mul_add, Nat.mul_one]
    refine ⟨by omega, w.length + 1 + d, r10, u1, by omega, fun _ => .inl (by omega), fun h => ?_, by omega⟩
    have := (u4 h).1
    simp at this

theorem bd_liftErr {x : Except SErr α × Nat} {K : Nat} {ok : α → SS → Nat → Prop} (h : ∀ a, x.1 = .ok a → ok a s (n + x.2)) (hK : n + x.2 ≤ K) :
    Bd s n (liftErr x) ok K := by
  obtain ⟨x, k⟩ := x
  cases x with
  | ok a => exact h a rfl
  | error e => exact hK

theorem addrSwitch_type (rc : Bytes → Except SErr (List Bytes) × Nat) (st : AddrSt) (tok : Bytes) (st2 : AddrSt)
    (h : (addrSwitch rc st tok).1 = .ok st2) :
    st2.type = st.type ∧ (st.type = .quoted → st2.tokens = st.tokens ++ [tok]) := by
  unfold addrSwitch at h
  cases hty : st.type <;> simp only [hty] at h
  case quoted => injection h with h; subst h; exact ⟨rfl, fun _ => rfl⟩
  case atom => injection h with h; subst h; exact ⟨rfl, fun h => by cases h⟩
  case comment => injection h with h; subst h; exact ⟨hty, fun h => by cases h⟩
  case tagOpen => injection h with h; subst h; exact ⟨rfl, fun h => by cases h⟩
  all_goals
    refine ⟨?_, fun h => by cases h⟩
    split at h
    · cases h
    · split at h
      · injection h with h; subst h; first | exact hty | rfl
      · split at h
        · injection h with h; subst h; first | exact hty | rfl
        · split at h
          · split at h
            · cases h
            · injection h with h; subst h; first | exact hty | rfl
          · injection h with h; subst h; first | exact hty | rfl

theorem addrSwitch_cost (rc : Bytes → Except SErr (List Bytes) × Nat) (st : AddrSt) (tok : Bytes) (c : Nat)
    (h : st.last = .quoted → ∀ t, st.tokens = [t] → (rc t).2 ≤ c) :
    (addrSwitch rc st tok).2 ≤ c ∧ (st.type = .quoted → (addrSwitch rc st tok).2 = 0) := by
  unfold addrSwitch
  cases hty : st.type <;> simp only
  case quoted => exact ⟨Nat.zero_le _, fun _ => trivial⟩
  case atom => exact ⟨Nat.zero_le _, fun _ => trivial⟩
  case comment => exact ⟨Nat.zero_le _, fun _ => trivial⟩
  case tagOpen => exact ⟨Nat.zero_le _, fun _ => trivial⟩
  all_goals
    refine ⟨?_, fun h => by cases h⟩
    split
    · exact Nat.zero_le _
    · split
      · exact Nat.zero_le _
      · rename_i t ts htk
        split
        · exact Nat.zero_le _
        · split
          · rename_i hq
            have hc := h hq.1 t (by rw [htk, hq.2])
            split
            · rename_i he; rw [he] at hc; exact hc
            · rename_i he; rw [he] at hc; exact hc
          · exact Nat.zero_le _

/-- The bound for `ParseAddressList` on a text of `k` bytes. -/
def addrBound (k : Nat) : Nat := 60 * ((k + 1) * (k + 1))

theorem addr_quoted {N l d : Nat} (h1 : l + 2 ≤ d) (h2 : d ≤ N) : 4 * N + 14 + 15 + 5 * d + addrBound l ≤ 60 * (N + 1) * d := by
  unfold addrBound
  obtain ⟨e, rfl⟩ := Nat.exists_eq_add_of_le h1
  have h3 : (l + 1) * (l + 1) ≤ N * (l + 1) := Nat.mul_le_mul_right _ (by omega)
  have e1 : (N + 1) * (l + 2 + e) = N * (l + 1) + N + N * e + (l + 2 + e) := by
    rw [Nat.add_mul, Nat.one_mul, show l + 2 + e = (l + 1) + 1 + e from by omega, Nat.mul_add, Nat.mul_add, Nat.mul_one]
  rw [Nat.mul_assoc, e1]
  have := Nat.zero_le (N * e)
  omega

theorem addr_other {N d : Nat} (h1 : 1 ≤ d) : (4 * N + 14 + 15) * d + (4 * N + 14 + 15) ≤ 60 * (N + 1) * d := by
  have h2 : (4 * N + 14 + 15) * 1 ≤ (4 * N + 14 + 15) * d := Nat.mul_le_mul_left _ h1
  have h3 : 2 * (4 * N + 14 + 15) * d ≤ 60 * (N + 1) * d := Nat.mul_le_mul_right _ (by omega)
  rw [Nat.mul_assoc] at h3
  omega

theorem bd_addrLoop (lr : Bool) {rc : Bytes → Except SErr (List Bytes) × Nat} (hrc : ∀ t, (rc t).2 ≤ addrBound t.length) (fuel : Nat) :
    ∀ (st : AddrSt) (c : Nat) (s : SS) (r n : Nat), At (fun _ => True) N s r →
      (st.type = .quoted → ∀ t, st.tokens.getLast? = some t → addrBound t.length ≤ c) →
      Bd s n (addrLoop lr true rc fuel st) (fun _ _ n' => n' ≤ n + 60 * (N + 1) * r + c + (if st.type = .eof then 0 else 4 * N + 14 + 15))
        (n + 60 * (N + 1) * r + c + (if st.type = .eof then 0 else 4 * N + 14 + 15)) := by
  induction fuel with
  | zero => intro st c s r n ha _; exact Bd.throw (by omega)
  | succ fuel ih =>
    intro st c s r n ha hc
    unfold addrLoop
    refine Bd.ite (fun _ => Bd.pure (by omega)) fun hty => ?_
    rw [if_neg hty]
    have hV : (4 * N + 14 + 15) * r ≤ 60 * (N + 1) * r := Nat.mul_le_mul_right _ (by omega)
    refine Bd.call (bd_left ha) (by omega) ?_
    rintro f s0 n0 ⟨-, rfl, rfl⟩
    refine Bd.call (bd_nextTok (fw_any lr N) _ [] s0 r n0 ha) (by omega) ?_
    rintro ⟨ty, tok⟩ s1 n1 ⟨h0, d, r1, h1, h2, h3, h4, h5⟩
    have h3 : ty ≠ .eof → 1 ≤ d := fun h => (h3 h).resolve_right (by simp)
    have h4 : ty = .quoted → ([] : Bytes) = [] ∧ tok.length + 2 ≤ d ∧ n1 ≤ n0 + (4 * N + 14) + 15 + 5 * d := h4
    have hm : 60 * (N + 1) * r = 60 * (N + 1) * d + 60 * (N + 1) * r1 := by rw [h2, Nat.mul_add]
    have hVd : (4 * N + 14 + 15) * d ≤ 60 * (N + 1) * d := Nat.mul_le_mul_right _ (by omega)
    have hpos := ha.pos
    refine Bd.ite (fun _ => bd_throwPlain (by omega)) fun _ => ?_
    obtain ⟨hk, hk0⟩ := addrSwitch_cost rc { st with last := st.type, type := ty } tok c (by
      intro hl t ht
      exact Nat.le_trans (hrc t) (hc hl t (by
        have ht : st.tokens = [t] := ht
        rw [ht]; rfl)))
    refine Bd.call (ok' := fun a s' n' => s' = s1 ∧ n' = n1 + (addrSwitch rc { st with last := st.type, type := ty } tok).2 ∧ a.type = ty ∧
        (ty = .quoted → a.tokens = st.tokens ++ [tok])) (bd_liftErr ?_ (Nat.le_refl _)) (by omega) ?_
    · intro a ha
      obtain ⟨g1, g2⟩ := addrSwitch_type _ _ _ _ ha
      exact ⟨rfl, rfl, g1, g2⟩
    rintro st2 s2 n2 ⟨rfl, h6, h7, h8⟩
    by_cases hq : ty = .quoted
    · obtain ⟨-, h9, h10⟩ := h4 hq
      have h11 := addr_quoted h9 (by omega : d ≤ N)
      have hk0 := hk0 hq
      refine (ih st2 (addrBound tok.length) s2 r1 n2 h1 ?_).mono ?_ ?_
      · intro _ t ht
        rw [h8 hq] at ht
        simp at ht
        rw [ht]
        exact Nat.le_refl _
      · intro _ _ n' h
        rw [h7, hq, if_neg (by decide)] at h
        omega
      · rw [h7, hq, if_neg (by decide)]
        omega
    · refine (ih st2 0 s2 r1 n2 h1 (fun h => absurd (h7 ▸ h) hq)).mono ?_ ?_
      · intro _ _ n' h
        rw [h7] at h
        by_cases he : ty = .eof
        · rw [if_pos he] at h; omega
        · rw [if_neg he] at h
          have := addr_other (N := N) (h3 he)
          omega
      · rw [h7]
        by_cases he : ty = .eof
        · rw [if_pos he]; omega
        · rw [if_neg he]
          have := addr_other (N := N) (h3 he)
          omega

theorem parseAddrDepth_cost (lr : Bool) (depth : Nat) : ∀ input, (parseAddrDepth lr true depth input).2 ≤ addrBound input.length := by
  induction depth with
  | zero => intro input; exact Nat.zero_le _
  | succ depth ih =>
    intro input
    refine run_bd ?_
    have e : 0 + 60 * (input.length + 1) * input.length + 0 + (4 * input.length + 14 + 15) ≤ addrBound input.length := by
      unfold addrBound
      rw [Nat.mul_succ (input.length + 1), Nat.mul_assoc]
      omega
    have h := bd_addrLoop (N := input.length) lr ih (input.length + 2) {} 0 { data := input } input.length 0 (At.start trivial) (by intro h; cases h)
    rw [if_neg (by decide)] at h
    exact h.mono (fun _ _ _ h => Nat.le_trans h e) e

end Dkim.Steps

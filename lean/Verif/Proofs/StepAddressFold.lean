import Verif.Proofs.StepAddress
/-!
# Bounds on the number of steps: `ParseAddressList` on folded text
-/

namespace Dkim.Steps
open SS (toChar code)

variable {α β : Type} {N W : Nat} {s : SS} {r n : Nat}

/-- `tok` is `raw` without the backslashes that escape; `raw` has no quotation mark of its own. -/
inductive Unesc : Bytes → Bytes → Prop
  | nil : Unesc [] []
  | lit (c raw tok) : c ≠ 34 → c ≠ 92 → Unesc raw tok → Unesc (c :: raw) (c :: tok)
  | esc (c raw tok) : Unesc raw tok → Unesc (92 :: c :: raw) (c :: tok)

/-- `tok` stands in `input` before a quotation mark, escaped. -/
def InQuotes (input tok : Bytes) : Prop := ∃ a raw b, input = a ++ raw ++ 34 :: b ∧ Unesc raw tok

theorem InQuotes.of_drop {input raw tok : Bytes} {k k' : Nat} (h : input.drop k = raw ++ 34 :: input.drop k') (h2 : Unesc raw tok) :
    InQuotes input tok := by
  refine ⟨input.take k, raw, input.drop k', ?_, h2⟩
  rw [List.append_assoc, ← h, List.take_append_drop]

theorem bd_get_ready {input : Bytes} (ha : At (fun d => d = input) N s r) (hr : Ready s) :
    Bd s n get (fun o s' n' => n' = n + 1 ∧ ∃ c r', o = some c ∧ r = r' + 1 ∧ At (fun d => d = input) N s' r' ∧
      input.drop (N - r) = c :: input.drop (N - r')) n := by
  refine (bd_get ha hr).mono ?_ (Nat.le_refl _)
  rintro o s' n' ⟨h1, ⟨r', h2, h3⟩, -, h5⟩
  rw [List.getElem?_eq_getElem hr.2] at h5
  refine ⟨h1, _, r', h5, h2, h3, ?_⟩
  have hd : s.data = input := ha.d
  have hp := ha.pos
  have e1 : N - r = s.pos := by omega
  have e2 : N - r' = s.pos + 1 := by omega
  rw [e1, e2, ← hd]
  exact List.drop_eq_getElem_cons hr.2

theorem bd_get_byte {input : Bytes} (ha : At (fun d => d = input) N s r) :
    Bd s n get (fun o s' n' => n' = n + 1 ∧ ((o = none ∧ ∃ r', At (fun d => d = input) N s' r' ∧ r' ≤ r) ∨
      ∃ c r', o = some c ∧ r = r' + 1 ∧ At (fun d => d = input) N s' r' ∧ input.drop (N - r) = c :: input.drop (N - r'))) n := by
  by_cases hr : Ready s
  · refine (bd_get_ready ha hr).mono ?_ (Nat.le_refl _)
    rintro o s' n' ⟨h1, h2⟩
    exact ⟨h1, .inr h2⟩
  · by_cases hg : s.good = true
    · have hp : ¬ s.pos < s.data.length := fun h => hr ⟨hg, h⟩
      have e : SS.get s = .ok none { s with eof := true, fail := true } := by
        unfold SS.get; rw [if_pos hg, List.getElem?_eq_none (Nat.le_of_not_lt hp)]
      exact bd_tick e ⟨rfl, .inl ⟨rfl, r, ⟨ha.d, ha.len, ha.pos⟩, Nat.le_refl _⟩⟩
    · have e : SS.get s = .ok none { s with fail := true } := by
        unfold SS.get; rw [if_neg hg]
      exact bd_tick e ⟨rfl, .inl ⟨rfl, r, ⟨ha.d, ha.len, ha.pos⟩, Nat.le_refl _⟩⟩

theorem bd_quotedFold {input : Bytes} (fuel : Nat) : ∀ (t : Bytes) (s : SS) (r n : Nat),
    At (fun d => d = input) N s r →
    Bd s n (quotedLoop true fuel t) (fun x s' n' => n ≤ n' ∧ ∃ d r', At (fun d => d = input) N s' r' ∧ r = d + r' ∧
        x.length + 1 ≤ t.length + d ∧ n' ≤ n + 2 * d ∧
        ∃ y z, x = t ++ y ∧ input.drop (N - r) = z ++ 34 :: input.drop (N - r') ∧ Unesc z y)
      (n + 2 * r + 2) := by
  induction fuel with
  | zero => intro t s r n ha; exact Bd.throw (by omega)
  | succ fuel ih =>
    intro t s r n ha
    unfold quotedLoop
    refine Bd.call (bd_get_byte ha) (by omega) ?_
    rintro o s1 n1 ⟨h1, ⟨rfl, r1, h2, h3⟩ | ⟨c, r1, rfl, h3, h2, h4⟩⟩
    · refine Bd.ite (fun _ => bd_throwPlain (by omega)) fun ho => absurd (by decide) ho
    have hc : toChar (some c) = c := rfl
    rw [hc]
    refine Bd.ite (fun _ => bd_throwPlain (by omega)) fun _ => ?_
    refine Bd.ite (fun h => ?_) fun h9 => Bd.ite (fun h => ?_) fun h => ?_
    · have h : c = 92 := eq_of_beq h
      subst h
      refine Bd.test ct_eof h2 (by omega) (fun _ _ _ _ _ _ _ => bd_throwPlain (by omega)) ?_
      intro s2 n2 i0 i1 i2 i3 _
      refine Bd.call (bd_get_ready i2 (i3 rfl)) (by omega) ?_
      rintro o s3 n3 ⟨k1, c, r3, rfl, k3, k2, k4⟩
      refine (ih _ s3 r3 n3 k2).mono ?_ (by omega)
      rintro x s4 n4 ⟨j0, d, r4, j1, j2, j3, j4, y, z, j5, j6, j7⟩
      rw [List.length_append, List.length_singleton] at j3
      exact ⟨by omega, d + 2, r4, j1, by omega, by omega, by omega, c :: y, 92 :: c :: z, by rw [j5]; simp [toChar],
        by rw [h4, k4, j6]; rfl, .esc c z y j7⟩
    · have h : c = 34 := eq_of_beq h
      subst h
      exact Bd.pure ⟨by omega, 1, r1, h2, by omega, by omega, by omega, [], [], by simp, h4, .nil⟩
    · refine (ih _ s1 r1 n1 h2).mono ?_ (by omega)
      rintro x s4 n4 ⟨j0, d, r4, j1, j2, j3, j4, y, z, j5, j6, j7⟩
      rw [List.length_append, List.length_singleton] at j3
      refine ⟨by omega, d + 1, r4, j1, by omega, by omega, by omega, c :: y, c :: z, by rw [j5]; simp, by rw [h4, j6]; rfl, ?_⟩
      exact .lit c z y (fun e => h (by rw [e]; rfl)) (fun e => h9 (by rw [e]; rfl)) j7

theorem bd_nextTokFold {lr : Bool} {input : Bytes} (hF : FW lr (fun d => d = input) N W) (fuel : Nat) : ∀ (t : Bytes) (s : SS) (r n : Nat), At (fun d => d = input) N s r →
    Bd s n (nextTok lr true fuel t) (fun p s' n' => n ≤ n' ∧ ∃ d r', At (fun d => d = input) N s' r' ∧ r = d + r' ∧
        (p.1 ≠ .eof → 1 ≤ d ∨ t ≠ []) ∧ (p.1 = .quoted → t = [] ∧ p.2.length + 2 ≤ d ∧ n' ≤ n + W + 15 + 5 * d ∧ InQuotes input p.2) ∧
        n' ≤ n + (W + 15) * d + (W + 15)) (n + (W + 15) * r + (W + 15)) := by
  induction fuel with
  | zero => intro t s r n ha; exact Bd.throw (by omega)
  | succ fuel ih =>
    intro t s r n ha
    have m15 := mul15 W r
    have done : ∀ (s1 : SS) (n1 d1 r1 : Nat), At (fun d => d = input) N s1 r1 → r = d1 + r1 → n ≤ n1 → n1 ≤ n + (W + 15) * d1 + (W + 15) →
        Bd s1 n1 (if t.isEmpty = true then pure (AddrTok.eof, t) else pure (AddrTok.atom, t))
          (fun p s' n' => n ≤ n' ∧ ∃ d r', At (fun d => d = input) N s' r' ∧ r = d + r' ∧
            (p.1 ≠ .eof → 1 ≤ d ∨ t ≠ []) ∧ (p.1 = .quoted → t = [] ∧ p.2.length + 2 ≤ d ∧ n' ≤ n + W + 15 + 5 * d ∧ InQuotes input p.2) ∧
            n' ≤ n + (W + 15) * d + (W + 15)) (n + (W + 15) * r + (W + 15)) := by
      intro s1 n1 d1 r1 h1 h2 h3 h4
      refine Bd.ite (fun _ => Bd.pure ⟨h3, d1, r1, h1, h2, fun h => absurd rfl h, fun h => (by cases h), h4⟩) fun ht => ?_
      exact Bd.pure ⟨h3, d1, r1, h1, h2, fun _ => .inr (by intro h; rw [h] at ht; simp at ht), fun h => (by cases h), h4⟩
    have atom : ∀ (s1 : SS) (n1 d1 r1 : Nat), (!t.isEmpty) = true → At (fun d => d = input) N s1 r1 → r = d1 + r1 → n ≤ n1 → n1 ≤ n + (W + 15) * d1 + (W + 15) →
        Bd s1 n1 (pure (AddrTok.atom, t))
          (fun p s' n' => n ≤ n' ∧ ∃ d r', At (fun d => d = input) N s' r' ∧ r = d + r' ∧
            (p.1 ≠ .eof → 1 ≤ d ∨ t ≠ []) ∧ (p.1 = .quoted → t = [] ∧ p.2.length + 2 ≤ d ∧ n' ≤ n + W + 15 + 5 * d ∧ InQuotes input p.2) ∧
            n' ≤ n + (W + 15) * d + (W + 15)) (n + (W + 15) * r + (W + 15)) := by
      intro s1 n1 d1 r1 ht h1 h2 h3 h4
      exact Bd.pure ⟨h3, d1, r1, h1, h2, fun _ => .inr (by intro h; rw [h] at ht; simp at ht), fun h => (by cases h), h4⟩
    have one : ∀ (ty : AddrTok) (s1 : SS) (n1 d1 r1 : Nat), ty ≠ .quoted → At (fun d => d = input) N s1 r1 → Ready s1 → r = d1 + r1 → n ≤ n1 →
        n1 + 1 ≤ n + (W + 15) * d1 + (W + 15) →
        Bd s1 n1 (do let _ ← get; return (ty, t))
          (fun p s' n' => n ≤ n' ∧ ∃ d r', At (fun d => d = input) N s' r' ∧ r = d + r' ∧
            (p.1 ≠ .eof → 1 ≤ d ∨ t ≠ []) ∧ (p.1 = .quoted → t = [] ∧ p.2.length + 2 ≤ d ∧ n' ≤ n + W + 15 + 5 * d ∧ InQuotes input p.2) ∧
            n' ≤ n + (W + 15) * d + (W + 15)) (n + (W + 15) * r + (W + 15)) := by
      intro ty s1 n1 d1 r1 hty h1 hr h2 h3 h4
      have hm : (W + 15) * r = (W + 15) * d1 + (W + 15) * r1 := by rw [h2, Nat.mul_add]
      refine Bd.call (bd_get h1 hr) (by omega) ?_
      rintro c s2 n2 ⟨i1, ⟨r2, i2, i3⟩, -⟩
      have hm2 : (W + 15) * (d1 + 1) = (W + 15) * d1 + (W + 15) := by rw [Nat.mul_add, Nat.mul_one]
      exact Bd.pure ⟨by omega, d1 + 1, r2, i3, by omega, fun _ => .inl (by omega), fun h => absurd h hty, by omega⟩
    unfold nextTok
    refine Bd.test ct_eof ha (by omega) ?_ ?_
    · intro s1 n1 h0 h1 h2 _ _
      exact done s1 n1 0 r h2 (by omega) (by omega) (by omega)
    intro s1 n1 h0 h1 h2 h3 _
    have hpos := (h3 rfl).pos h2
    refine Bd.call (hF s1 r n1 h2) (by omega) ?_
    rintro w s2 n2 ⟨g0, ⟨r2, g1, g2⟩, g3⟩
    have m15w := mul15 W w.length
    have hm : (W + 15) * r = (W + 15) * w.length + (W + 15) * r2 := by rw [g2, Nat.mul_add]
    refine Bd.ite (fun _ => done s2 n2 w.length r2 g1 g2 (by omega) (by omega)) fun _ => ?_
    refine Bd.test ct_eof g1 (by omega) ?_ ?_
    · intro s3 n3 i0 i1 i2 _ _
      exact done s3 n3 w.length r2 i2 g2 (by omega) (by omega)
    intro s3 n3 i0 i1 i2 i3 _
    have hready := i3 rfl
    have hpos2 := hready.pos i2
    refine Bd.test (ct_is 34) i2 (by omega) ?_ ?_
    · intro s4 n4 j0 j1 j2 j3 _
      refine Bd.ite (fun ht => atom s4 n4 w.length r2 ht j2 g2 (by omega) (by omega)) fun ht => ?_
      have ht : t = [] := by simpa using ht
      refine Bd.call (bd_get j2 (j3 rfl)) (by omega) ?_
      rintro c s5 n5 ⟨k1, ⟨r5, k2, k3⟩, -⟩
      refine Bd.call (bd_left k3) (by omega) ?_
      rintro f s6 n6 ⟨-, rfl, rfl⟩
      have m15b := mul15 W r2
      refine Bd.call (bd_quotedFold _ [] s6 r5 n6 k3) (by omega) ?_
      rintro x s7 n7 ⟨l0, d, r7, l1, l2, l3, l4, y, z, l5, l6, l7⟩
      simp only [List.length_nil, Nat.zero_add] at l3
      rw [List.nil_append] at l5
      have m15c := mul15 W (w.length + 1 + d)
      exact Bd.pure ⟨by omega, w.length + 1 + d, r7, l1, by omega, fun _ => .inl (by omega),
        fun _ => ⟨ht, by show x.length + 2 ≤ _; omega, by omega, InQuotes.of_drop l6 (by rw [l5]; exact l7)⟩, by omega⟩
    intro s4 n4 j0 j1 j2 _ j4
    refine Bd.test (ct_is 40) j2 (by omega) ?_ ?_
    · intro s5 n5 k0 k1 k2 k3 _
      refine Bd.ite (fun ht => atom s5 n5 w.length r2 ht k2 g2 (by omega) (by omega)) fun ht => ?_
      refine Bd.call (bd_get k2 (k3 rfl)) (by omega) ?_
      rintro c s6 n6 ⟨l1, ⟨r6, l2, l3⟩, -⟩
      refine Bd.call (bd_left l3) (by omega) ?_
      rintro f s7 n7 ⟨-, rfl, rfl⟩
      have m15b := mul15 W r2
      refine Bd.call (bd_commentLoop _ _ [] s7 r6 n7 l3) (by omega) ?_
      rintro x s8 n8 ⟨m0, d, r8, m1, m2, m3⟩
      have m15c := mul15 W (w.length + 1 + d)
      exact Bd.pure ⟨by omega, w.length + 1 + d, r8, m1, by omega, fun _ => .inl (by omega), fun h => (by cases h), by omega⟩
    intro s5 n5 k0 k1 k2 _ k4
    refine Bd.test (ct_is 60) k2 (by omega) ?_ ?_
    · intro s6 n6 l0 l1 l2 l3 _
      refine Bd.ite (fun ht => atom s6 n6 w.length r2 ht l2 g2 (by omega) (by omega)) fun ht => ?_
      exact one _ s6 n6 w.length r2 (by decide) l2 (l3 rfl) g2 (by omega) (by omega)
    intro s6 n6 l0 l1 l2 _ l4
    refine Bd.test (ct_is 62) l2 (by omega) ?_ ?_
    · intro s7 n7 m0 m1 m2 m3 _
      refine Bd.ite (fun ht => atom s7 n7 w.length r2 ht m2 g2 (by omega) (by omega)) fun ht => ?_
      exact one _ s7 n7 w.length r2 (by decide) m2 (m3 rfl) g2 (by omega) (by omega)
    intro s7 n7 m0 m1 m2 _ m4
    refine Bd.test ((ct_is 44).or (ct_is 59)) m2 (by omega) ?_ ?_
    · intro s8 n8 p0 p1 p2 p3 _
      refine Bd.ite (fun ht => atom s8 n8 w.length r2 ht p2 g2 (by omega) (by omega)) fun ht => ?_
      exact one _ s8 n8 w.length r2 (by decide) p2 (p3 rfl) g2 (by omega) (by omega)
    intro s8 n8 p0 p1 p2 _ p4
    have hr8 : Ready s8 := p4.2 (m4.2 (l4.2 (k4.2 (j4.2 hready))))
    refine Bd.call (bd_get p2 hr8) (by omega) ?_
    rintro c s9 n9 ⟨q1, ⟨r9, q2, q3⟩, -⟩
    have hm9 : (W + 15) * r2 = (W + 15) * r9 + (W + 15) := by rw [q2, Nat.mul_add, Nat.mul_one]
    refine (ih _ s9 r9 n9 q3).mono ?_ (by omega)
    rintro p s10 n10 ⟨u0, d, r10, u1, u2, u3, u4, u5⟩
    have hm10 : (W + 15) * (w.length + 1 + d) = (W + 15) * w.length + (W + 15) + (W + 15) * d := by
      rw [Nat.mul_add, Nat.mul_add, Nat.mul_one]
    refine ⟨by omega, w.length + 1 + d, r10, u1, by omega, fun _ => .inl (by omega), fun h => ?_, by omega⟩
    have := (u4 h).1
    simp at this

/-- One list, its quoted strings costing at most `A` steps a byte. -/
theorem bd_addrLoopFold {lr : Bool} {input : Bytes} (hf : Spec.FoldsOnly input) (A : Nat) (hA : 53 ≤ A)
    {rc : Bytes → Except SErr (List Bytes) × Nat} (hrc : ∀ t, InQuotes input t → (rc t).2 ≤ A * t.length + 29) (fuel : Nat) :
    ∀ (st : AddrSt) (c : Nat) (s : SS) (r n : Nat), At (fun d => d = input) input.length s r →
      (st.type = .quoted → ∀ t, st.tokens.getLast? = some t → (rc t).2 ≤ c) →
      Bd s n (addrLoop lr true rc fuel st) (fun _ _ n' => n' ≤ n + (A + 5) * r + c + (if st.type = .eof then 0 else 29))
        (n + (A + 5) * r + c + (if st.type = .eof then 0 else 29)) := by
  induction fuel with
  | zero => intro st c s r n ha _; exact Bd.throw (by omega)
  | succ fuel ih =>
    intro st c s r n ha hc
    unfold addrLoop
    refine Bd.ite (fun _ => Bd.pure (by omega)) fun hty => ?_
    rw [if_neg hty]
    have hV : ∀ k, 58 * k ≤ (A + 5) * k := fun k => Nat.mul_le_mul_right _ (by omega)
    refine Bd.call (bd_left ha) (by omega) ?_
    rintro f s0 n0 ⟨-, rfl, rfl⟩
    have hVr := hV r
    refine Bd.call (bd_nextTokFold (fw_folded lr hf) _ [] s0 r n0 ha) (by omega) ?_
    rintro ⟨ty, tok⟩ s1 n1 ⟨h0, d, r1, h1, h2, h3, h4, h5⟩
    have h3 : ty ≠ .eof → 1 ≤ d := fun h => (h3 h).resolve_right (by simp)
    have h4 : ty = .quoted → ([] : Bytes) = [] ∧ tok.length + 2 ≤ d ∧ n1 ≤ n0 + 14 + 15 + 5 * d ∧ InQuotes input tok := h4
    have hm : (A + 5) * r = (A + 5) * d + (A + 5) * r1 := by rw [h2, Nat.mul_add]
    have hVd := hV d
    refine Bd.ite (fun _ => bd_throwPlain (by omega)) fun _ => ?_
    obtain ⟨hk, hk0⟩ := addrSwitch_cost rc { st with last := st.type, type := ty } tok c (by
      intro hl t ht
      exact hc hl t (by
        have ht : st.tokens = [t] := ht
        rw [ht]; rfl))
    refine Bd.call (ok' := fun a s' n' => s' = s1 ∧ n' = n1 + (addrSwitch rc { st with last := st.type, type := ty } tok).2 ∧ a.type = ty ∧
        (ty = .quoted → a.tokens = st.tokens ++ [tok])) (bd_liftErr ?_ (Nat.le_refl _)) (by omega) ?_
    · intro a ha
      obtain ⟨g1, g2⟩ := addrSwitch_type _ _ _ _ ha
      exact ⟨rfl, rfl, g1, g2⟩
    rintro st2 s2 n2 ⟨rfl, h6, h7, h8⟩
    by_cases hq : ty = .quoted
    · obtain ⟨-, h9, h10, h11⟩ := h4 hq
      have hk0 := hk0 hq
      have h12 : A * tok.length + 29 + 29 + 5 * d ≤ (A + 5) * d := by
        have e1 : A * (tok.length + 2) ≤ A * d := Nat.mul_le_mul_left _ h9
        rw [Nat.mul_add] at e1
        rw [Nat.add_mul]
        omega
      refine (ih st2 (A * tok.length + 29) s2 r1 n2 h1 ?_).mono ?_ ?_
      · intro _ t ht
        rw [h8 hq] at ht
        simp at ht
        rw [← ht]
        exact hrc tok h11
      · intro _ _ n' h
        rw [h7, hq, if_neg (by decide)] at h
        omega
      · rw [h7, hq, if_neg (by decide)]
        omega
    · refine (ih st2 0 s2 r1 n2 h1 (fun h => absurd (h7 ▸ h) hq)).mono ?_ ?_
      · intro _ _ n' h
        rw [h7] at h
        by_cases he : ty = .eof
        · rw [if_pos he] at h; omega
        · rw [if_neg he] at h
          have := h3 he
          omega
      · rw [h7]
        by_cases he : ty = .eof
        · rw [if_pos he]; omega
        · rw [if_neg he]
          have := h3 he
          omega

/-- Text without quotation marks. -/
theorem parseAddrDepth_plain (lr : Bool) (depth : Nat) (input : Bytes) (hq : (34 : Byte) ∉ input)
    (hf : Spec.FoldsOnly input) : (parseAddrDepth lr true depth input).2 ≤ 58 * input.length + 29 := by
  cases depth with
  | zero => exact Nat.zero_le _
  | succ depth =>
    refine run_bd ?_
    have h := bd_addrLoopFold (lr := lr) hf 53 (Nat.le_refl _) (rc := parseAddrDepth lr true depth) (by
      rintro t ⟨a, z, b, e, _⟩
      exact absurd (by rw [e]; simp) hq) (input.length + 2) {} 0 { data := input } input.length 0 (At.start rfl) (by intro h; cases h)
    rw [if_neg (by decide)] at h
    exact h.mono (fun _ _ _ h => by omega) (by omega)

theorem Unesc.plain {z y : Bytes} (h : Unesc z y) (hb : (92 : Byte) ∉ z) : z = y ∧ (34 : Byte) ∉ z := by
  induction h with
  | nil => simp
  | lit c z y h1 h2 _ ih =>
    obtain ⟨e, h3⟩ := ih (fun h => hb (List.mem_cons_of_mem _ h))
    refine ⟨by rw [e], fun h => ?_⟩
    rcases List.mem_cons.1 h with h | h
    · exact h1 h.symm
    · exact h3 h
  | esc c z y _ _ => exact absurd List.mem_cons_self hb

/-- A quoted string of folded text without backslashes is folded. -/
theorem InQuotes.folds {input t : Bytes} (h : InQuotes input t) (hb : (92 : Byte) ∉ input) (hf : Spec.FoldsOnly input) :
    Spec.FoldsOnly t ∧ (34 : Byte) ∉ t := by
  obtain ⟨a, z, b, e, hu⟩ := h
  obtain ⟨ez, hq⟩ := hu.plain (fun h => hb (by rw [e]; simp [h]))
  subst ez
  refine ⟨?_, hq⟩
  intro x y exy
  obtain ⟨c, r, h1, h2⟩ := hf (a ++ x) (y ++ 34 :: b) (by rw [e, exy]; simp)
  cases y with
  | nil =>
    simp only [List.nil_append, List.cons.injEq] at h1
    rw [← h1.1] at h2
    exact absurd h2 (by decide)
  | cons c' y =>
    simp only [List.cons_append, List.cons.injEq] at h1
    exact ⟨c', y, rfl, by rw [h1.1]; exact h2⟩

theorem parseAddrDepth_fold (lr : Bool) (depth : Nat) (input : Bytes) (hb : (92 : Byte) ∉ input)
    (hf : Spec.FoldsOnly input) : (parseAddrDepth lr true depth input).2 ≤ 63 * input.length + 29 := by
  cases depth with
  | zero => exact Nat.zero_le _
  | succ depth =>
    refine run_bd ?_
    have h := bd_addrLoopFold (lr := lr) hf 58 (by omega) (rc := parseAddrDepth lr true depth) (by
      intro t ht
      have := ht.folds hb hf
      exact parseAddrDepth_plain lr depth t this.2 this.1) (input.length + 2) {} 0 { data := input } input.length 0 (At.start rfl) (by intro h; cases h)
    rw [if_neg (by decide)] at h
    exact h.mono (fun _ _ _ h => by omega) (by omega)

/-! ## With backslashes -/

/-- Quotation marks and backslashes. -/
def marks (t : Bytes) : Nat := t.countP (fun b => b == 34 || b == 92)

/-- Escaping doubles them. -/
theorem Unesc.marks {z y : Bytes} (h : Unesc z y) : 2 * Steps.marks y ≤ Steps.marks z := by
  induction h with
  | nil => simp [Steps.marks]
  | lit c z y h1 h2 _ ih =>
    have e : ((c == 34 || c == 92) : Bool) = false := by simp [h1, h2]
    simp only [Steps.marks, List.countP_cons, e] at ih ⊢
    simpa using ih
  | esc c z y _ ih =>
    simp only [Steps.marks, List.countP_cons] at ih ⊢
    have : ((92 : Byte) == 34 || (92 : Byte) == 92) = true := by decide
    rw [this]
    split <;> simp <;> omega

theorem InQuotes.marks {input t : Bytes} (h : InQuotes input t) : 2 * Steps.marks t < Steps.marks input := by
  obtain ⟨a, z, b, e, hu⟩ := h
  have := hu.marks
  rw [e]
  simp only [Steps.marks, List.countP_append, List.countP_cons] at this ⊢
  have : ((34 : Byte) == 34 || (34 : Byte) == 92) = true := by decide
  rw [this]
  simp
  omega

/-- Text after a CR of the content stands after that CR in the text, up to escapes. -/
theorem Unesc.split {z y : Bytes} (h : Unesc z y) (c : Byte) (y1 y2 : Bytes) (e : y = y1 ++ c :: y2) :
    ∃ z1 z2, z = z1 ++ c :: z2 ∧ Unesc z2 y2 := by
  induction h generalizing y1 with
  | nil => exact absurd e (by simp)
  | lit c' z y h1 h2 hu ih =>
    cases y1 with
    | nil =>
      simp only [List.nil_append, List.cons.injEq] at e
      exact ⟨[], z, by rw [e.1]; rfl, by rw [← e.2]; exact hu⟩
    | cons d y1 =>
      simp only [List.cons_append, List.cons.injEq] at e
      obtain ⟨z1, z2, e2, h3⟩ := ih y1 e.2
      exact ⟨c' :: z1, z2, by rw [e2]; rfl, h3⟩
  | esc c' z y hu ih =>
    cases y1 with
    | nil =>
      simp only [List.nil_append, List.cons.injEq] at e
      exact ⟨[92], z, by rw [e.1]; rfl, by rw [← e.2]; exact hu⟩
    | cons d y1 =>
      simp only [List.cons_append, List.cons.injEq] at e
      obtain ⟨z1, z2, e2, h3⟩ := ih y1 e.2
      exact ⟨92 :: c' :: z1, z2, by rw [e2]; rfl, h3⟩

theorem InQuotes.lines {input t : Bytes} (h : InQuotes input t) (hf : Spec.CRFolds input) : Spec.CRFolds t := by
  obtain ⟨a, z, b, e, hu⟩ := h
  intro y1 y2 ey
  obtain ⟨z1, z2, ez, hu2⟩ := hu.split CR y1 y2 ey
  obtain ⟨c, r, h1, h2⟩ := hf (a ++ z1) (z2 ++ 34 :: b) (by rw [e, ez]; simp)
  cases hu2 with
  | nil => exact absurd (List.cons.inj h1).1 (by decide)
  | esc => exact absurd (List.cons.inj h1).1 (by decide)
  | lit c1 z3 y3 _ _ hu3 =>
    have h1 := List.cons.inj h1
    rw [h1.1]
    cases hu3 with
    | nil => rw [← (List.cons.inj h1.2).1] at h2; exact absurd h2 (by decide)
    | esc => rw [← (List.cons.inj h1.2).1] at h2; exact absurd h2 (by decide)
    | lit c2 z4 y4 _ _ _ =>
      exact ⟨c2, y4, rfl, by rw [(List.cons.inj h1.2).1]; exact h2⟩

theorem Spec_CRFolds_folds {t : Bytes} (h : Spec.CRFolds t) : Spec.FoldsOnly t := by
  intro a b e
  obtain ⟨c, r, h1, h2⟩ := h a (LF :: b) (by rw [e]; simp [CRLF])
  exact ⟨c, r, (List.cons.inj h1).2, h2⟩

theorem parseAddrDepth_log (lr : Bool) (k : Nat) : ∀ (depth : Nat) (input : Bytes), Spec.CRFolds input → marks input < 2 ^ k →
    (parseAddrDepth lr true depth input).2 ≤ (58 + 5 * k) * input.length + 29 := by
  induction k with
  | zero =>
    intro depth input hf hm
    refine parseAddrDepth_plain lr depth input ?_ (Spec_CRFolds_folds hf)
    intro h
    have : 0 < marks input := List.countP_pos_iff.2 ⟨34, h, by decide⟩
    omega
  | succ k ih =>
    intro depth input hf hm
    cases depth with
    | zero => exact Nat.zero_le _
    | succ depth =>
      refine run_bd ?_
      have h := bd_addrLoopFold (lr := lr) (Spec_CRFolds_folds hf) (58 + 5 * k) (by omega) (rc := parseAddrDepth lr true depth) (by
        intro t ht
        have h1 := ht.marks
        rw [Nat.pow_succ] at hm
        exact ih depth t (ht.lines hf) (by omega)) (input.length + 2) {} 0 { data := input } input.length 0 (At.start rfl) (by intro h; cases h)
      rw [if_neg (by decide)] at h
      have e : (58 + 5 * k + 5) * input.length = (58 + 5 * (k + 1)) * input.length := by congr 1
      rw [e] at h
      exact h.mono (fun _ _ _ h => by omega) (by omega)

end Dkim.Steps

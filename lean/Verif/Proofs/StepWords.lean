import Verif.Proofs.StepLists
/-!
# Bounds on the number of steps: `QuotedPrintable::Decode`, `EncodedWord::Decode`, `TagList::Parse`
-/

namespace Dkim.Steps
open SS (toChar code)

variable {α β : Type} {D : Bytes → Prop} {N W : Nat} {s : SS} {r n : Nat}

theorem ct_hex : CT peekHex 4 true false := (ct_between _ _).or (ct_between _ _)

theorem bd_qpLoop (lr sp : Bool) (fuel : Nat) : ∀ (o : Bytes) (s : SS) (r n : Nat), At (fun _ => True) N s r →
    Bd s n (qpLoop lr sp fuel o) (fun _ _ n' => n' ≤ n + 25 * r + 26) (n + 25 * r + 26) := by
  induction fuel with
  | zero => intro o s r n ha; exact Bd.throw (by omega)
  | succ fuel ih =>
    intro o s r n ha
    have next : ∀ (o : Bytes) (s1 : SS) (r1 n1 : Nat), At (fun _ => True) N s1 r1 → n1 + 25 * r1 ≤ n + 25 * r →
        Bd s1 n1 (qpLoop lr sp fuel o) (fun _ _ n' => n' ≤ n + 25 * r + 26) (n + 25 * r + 26) := by
      intro o s1 r1 n1 h1 h2
      refine (ih o s1 r1 n1 h1).mono ?_ (by omega)
      intro _ _ _ h
      omega
    unfold qpLoop
    refine Bd.test ct_eof ha (by omega) ?_ ?_
    · intro s1 n1 h0 h1 h2 _ _
      exact Bd.pure (by omega)
    intro s1 n1 h0 h1 h2 h3 _
    have hpos := (h3 rfl).pos h2
    refine Bd.test ((ct_pure sp).and (ct_is 95)) h2 (by omega) ?_ ?_
    · intro s2 n2 g0 g1 g2 g3 _
      refine Bd.call (bd_get g2 (g3 rfl)) (by omega) ?_
      rintro c s3 n3 ⟨i1, ⟨r3, i2, i3⟩, -⟩
      exact next _ s3 r3 n3 i3 (by omega)
    intro s2 n2 g0 g1 g2 _ _
    refine Bd.test (ct_is EQ) g2 (by omega) ?_ ?_
    · intro s3 n3 i0 i1 i2 i3 _
      refine Bd.call (bd_get i2 (i3 rfl)) (by omega) ?_
      rintro c s4 n4 ⟨j1, ⟨r4, j2, j3⟩, -⟩
      refine Bd.test ct_hex j3 (by omega) ?_ ?_
      · intro s5 n5 k0 k1 k2 k3 _
        refine Bd.call (bd_get k2 (k3 rfl)) (by omega) ?_
        rintro c s6 n6 ⟨l1, ⟨r6, l2, l3⟩, -⟩
        refine Bd.test ct_hex l3 (by omega) ?_ ?_
        · intro s7 n7 m0 m1 m2 m3 _
          refine Bd.call (bd_get m2 (m3 rfl)) (by omega) ?_
          rintro c s8 n8 ⟨p1, ⟨r8, p2, p3⟩, -⟩
          exact next _ s8 r8 n8 p3 (by omega)
        · intro s7 n7 m0 m1 m2 _ _
          exact bd_throwAt m2 (by omega)
      · intro s5 n5 k0 k1 k2 k3 _
        exact bd_throwAt k2 (by omega)
    intro s3 n3 i0 i1 i2 _ _
    refine Bd.test ((ct_between _ _).or ((ct_is _).or (ct_between _ _))) i2 (by omega) ?_ ?_
    · intro s4 n4 j0 j1 j2 j3 _
      refine Bd.call (bd_get j2 (j3 rfl)) (by omega) ?_
      rintro c s5 n5 ⟨k1, ⟨r5, k2, k3⟩, -⟩
      exact next _ s5 r5 n5 k3 (by omega)
    · intro s4 n4 j0 j1 j2 _ _
      refine Bd.call (bd_readFWS lr j2) (by omega) ?_
      rintro w s5 n5 ⟨k0, ⟨r5, k1, k2⟩, k3, k4⟩
      refine Bd.ite (fun _ => bd_throwAt k1 (by omega)) fun hw => ?_
      have hl := isEmpty_len hw
      have := k3 (by intro h; rw [h] at hl; simp at hl)
      exact next _ s5 r5 n5 k1 (by omega)

theorem qpDecode_cost (lr sp : Bool) (input : Bytes) : (qpDecode lr input sp).2 ≤ 25 * input.length + 26 := by
  refine run_bd ?_
  refine (bd_qpLoop lr sp _ [] _ input.length 0 (At.start trivial)).mono ?_ (by omega)
  intro _ _ _ h
  omega

theorem bd_ewSpace (lr : Bool) (fuel : Nat) : ∀ (w : Bytes) (s : SS) (r n : Nat), At (fun _ => True) N s r →
    Bd s n (ewSpace lr fuel w) (fun _ s' n' => n ≤ n' ∧ ∃ d r', At (fun _ => True) N s' r' ∧ r = d + r' ∧ n' ≤ n + 7 * d + 8) (n + 7 * r + 8) := by
  induction fuel with
  | zero => intro w s r n ha; exact Bd.throw (by omega)
  | succ fuel ih =>
    intro w s r n ha
    unfold ewSpace
    refine Bd.call (bd_readWSP ha) (by omega) ?_
    rintro x s1 n1 ⟨h1, h0, h2, r1, h3, h4⟩
    refine Bd.ite (fun hx => ?_) fun hx => ?_
    · have hl : x.length ≠ 0 := isEmpty_len (by simpa using hx)
      refine (ih _ s1 r1 n1 h3).mono ?_ (by omega)
      rintro _ s2 n2 ⟨g0, d, r2, g1, g2, g3⟩
      exact ⟨by omega, d + x.length, r2, g1, by omega, by omega⟩
    · have hx : x = [] := by simpa using hx
      subst hx
      simp only [List.length_nil, Nat.zero_add] at h4
      subst h4
      refine Bd.call (bd_readCRLF lr h3) (by omega) ?_
      rintro x s2 n2 ⟨g1, g0, ⟨r2, g2, g3⟩, -⟩
      refine Bd.ite (fun hx => ?_) fun hx => ?_
      · have hl : x.length ≠ 0 := isEmpty_len (by simpa using hx)
        refine (ih _ s2 r2 n2 g2).mono ?_ (by omega)
        rintro _ s3 n3 ⟨i0, d, r3, i1, i2, i3⟩
        exact ⟨by omega, d + x.length, r3, i1, by omega, by omega⟩
      · have hx : x = [] := by simpa using hx
        subst hx
        exact Bd.pure ⟨by omega, 0, r2, g2, by simpa using g3, by omega⟩

theorem bd_untilQ (fuel : Nat) : ∀ (x : Bytes) (s : SS) (r n : Nat), At D N s r →
    Bd s n (untilQ fuel x) (fun p s' n' => n ≤ n' ∧ ∃ d r', At D N s' r' ∧ r = d + r' ∧ p.2.length = x.length + d ∧ n' ≤ n + 3 * d + 2) (n + 3 * r + 2) := by
  induction fuel with
  | zero => intro x s r n ha; exact Bd.throw (by omega)
  | succ fuel ih =>
    intro x s r n ha
    unfold untilQ
    refine Bd.test ct_eof ha (by omega) ?_ ?_
    · intro s1 n1 h0 h1 h2 _ _
      exact Bd.pure ⟨by omega, 0, r, h2, by omega, by simp, by omega⟩
    intro s1 n1 h0 h1 h2 h3 _
    refine Bd.test (ct_is 63) h2 (by omega) ?_ ?_
    · intro s2 n2 g0 g1 g2 _ _
      exact Bd.pure ⟨by omega, 0, r, g2, by omega, by simp, by omega⟩
    · intro s2 n2 g0 g1 g2 _ g4
      refine Bd.call (bd_get g2 (g4.2 (h3 rfl))) (by omega) ?_
      rintro c s3 n3 ⟨i1, ⟨r3, i2, i3⟩, -⟩
      refine (ih _ s3 r3 n3 i3).mono ?_ (by omega)
      rintro p s4 n4 ⟨j0, d, r4, j1, j2, j3, j4⟩
      exact ⟨by omega, d + 1, r4, j1, by omega, by rw [j3, List.length_append]; simp; omega, by omega⟩

theorem bd_ewPart (f : Bool) (b : Bytes) (ha : At D N s r) :
    Bd s n (ewPart f b) (fun p s' n' => n ≤ n' ∧ ∃ d r', At D N s' r' ∧ r = d + r' ∧ p.2.1.length ≤ d ∧ n' ≤ n + 3 * d + 2) (n + 3 * r + 2) := by
  unfold ewPart
  refine Bd.test ((ct_pure (!f)).and (ct_is 63)) ha (by omega) ?_ ?_
  · intro s1 n1 h0 h1 h2 h3 _
    refine Bd.call (bd_get h2 (h3 rfl)) (by omega) ?_
    rintro c s2 n2 ⟨i1, ⟨r2, i2, i3⟩, -⟩
    refine Bd.call (bd_left i3) (by omega) ?_
    rintro k s3 n3 ⟨-, rfl, rfl⟩
    refine Bd.call (bd_untilQ _ [] s3 r2 n3 i3) (by omega) ?_
    rintro ⟨f2, x⟩ s4 n4 ⟨j0, d, r4, j1, j2, j3, j4⟩
    have j3 : x.length = ([] : Bytes).length + d := j3
    simp only [List.length_nil, Nat.zero_add] at j3
    exact Bd.pure ⟨by omega, d + 1, r4, j1, by omega, by show x.length ≤ d + 1; omega, by omega⟩
  · intro s1 n1 h0 h1 h2 _ _
    exact Bd.pure ⟨by omega, 0, r, h2, by omega, Nat.zero_le _, by omega⟩

theorem bd_ewScan (ha : At D N s r) (hr : Ready s) :
    Bd s n ewScan (fun p s' n' => n ≤ n' ∧ ∃ d r', At D N s' r' ∧ r = d + r' ∧ 1 ≤ d ∧ p.2.2.1.length ≤ d ∧ n' ≤ n + 3 * d + 16) (n + 3 * r + 16) := by
  unfold ewScan
  refine Bd.call (bd_get ha hr) (by omega) ?_
  rintro c s1 n1 ⟨h1, ⟨r1, h2, h3⟩, -⟩
  refine Bd.call (bd_ewPart _ _ h3) (by omega) ?_
  rintro ⟨f2, x2, b2⟩ s2 n2 ⟨g0, d2, r2, g1, g2, g3, g4⟩
  refine Bd.call (bd_ewPart _ _ g1) (by omega) ?_
  rintro ⟨f3, x3, b3⟩ s3 n3 ⟨i0, d3, r3, i1, i2, i3, i4⟩
  refine Bd.call (bd_ewPart _ _ i1) (by omega) ?_
  rintro ⟨f4, x4, b4⟩ s4 n4 ⟨j0, d4, r4, j1, j2, j3, j4⟩
  have j3 : x4.length ≤ d4 := j3
  have fin : ∀ (f : Bool) (b : Bytes) (s5 : SS) (r5 n5 : Nat), At D N s5 r5 → r5 ≤ r4 → n1 ≤ n5 → n5 + 5 ≤ n + 3 * (r - r5) + 16 →
      Bd s5 n5 (do
          let bad ← pure (!f) <&&> ((do return !(← peekEOF)) <&&> ((do return !(← peekIs SP)) <&&>
            ((do return !(← peekIs CR)) <&&> ((do return !(← peekIs LF)) <&&> (do return !(← peekIs TAB))))))
          return (f || bad, x3, x4, b))
        (fun p s' n' => n ≤ n' ∧ ∃ d r', At D N s' r' ∧ r = d + r' ∧ 1 ≤ d ∧ p.2.2.1.length ≤ d ∧ n' ≤ n + 3 * d + 16) (n + 3 * r + 16) := by
    intro f b s5 r5 n5 k1 k2 k3 k4
    refine Bd.call (((ct_pure (!f)).and (ct_eof.not.and ((ct_is SP).not.and ((ct_is CR).not.and ((ct_is LF).not.and (ct_is TAB).not))))) _ _ s5 r5 n5 k1) (by omega) ?_
    rintro x s6 n6 ⟨l0, l1, l2, -⟩
    exact Bd.pure ⟨by omega, r - r5, r5, l2, by omega, by omega, by show x4.length ≤ _; omega, by omega⟩
  refine Bd.test ((ct_pure (!f4)).and (ct_is 63)) j1 (by omega) ?_ ?_
  · intro s5 n5 k0 k1 k2 k3 _
    refine Bd.call (bd_get k2 (k3 rfl)) (by omega) ?_
    rintro c s6 n6 ⟨l1, ⟨r6, l2, l3⟩, -⟩
    refine Bd.test (ct_is EQ) l3 (by omega) ?_ ?_
    · intro s7 n7 m0 m1 m2 m3 _
      refine Bd.call (bd_get m2 (m3 rfl)) (by omega) ?_
      rintro c s8 n8 ⟨p1, ⟨r8, p2, p3⟩, -⟩
      exact Bd.bind (Bd.pure (fin false _ s8 r8 n8 p3 (by omega) (by omega) (by omega)))
    · intro s7 n7 m0 m1 m2 _ _
      exact Bd.bind (Bd.pure (fin true _ s7 r6 n7 m2 (by omega) (by omega) (by omega)))
  · intro s5 n5 k0 k1 k2 _ _
    exact Bd.bind (Bd.pure (fin true b4 s5 r4 n5 k2 (by omega) (by omega) (by omega)))

theorem ewData_cost (lr : Bool) (E : Env) (enc dat : Bytes) : (ewData lr E enc dat).2 ≤ 25 * dat.length + 26 := by
  unfold ewData
  have h := qpDecode_cost lr true dat
  split
  · revert h
    generalize qpDecode lr dat true = q
    obtain ⟨x, k⟩ := q
    cases x <;> exact fun h => h
  · split <;> exact Nat.zero_le _

theorem bd_charge {a : α × Nat} {K : Nat} {ok : α → SS → Nat → Prop} (h : ok a.1 s (n + a.2)) : Bd s n (charge a) ok K := h

theorem bd_ewLoop (lr : Bool) (E : Env) (fuel : Nat) : ∀ (w o : Bytes) (s : SS) (r n : Nat), At (fun _ => True) N s r →
    Bd s n (ewLoop lr E fuel w o) (fun _ _ n' => n' ≤ n + 79 * r + 10) (n + 79 * r + 10) := by
  induction fuel with
  | zero => intro w o s r n ha; exact Bd.throw (by omega)
  | succ fuel ih =>
    intro w o s r n ha
    have next : ∀ (w o : Bytes) (s1 : SS) (r1 n1 : Nat), At (fun _ => True) N s1 r1 → n1 + 79 * r1 ≤ n + 79 * r →
        Bd s1 n1 (ewLoop lr E fuel w o) (fun _ _ n' => n' ≤ n + 79 * r + 10) (n + 79 * r + 10) := by
      intro w o s1 r1 n1 h1 h2
      refine (ih w o s1 r1 n1 h1).mono ?_ (by omega)
      intro _ _ _ h
      omega
    unfold ewLoop
    refine Bd.call (bd_left ha) (by omega) ?_
    rintro f s0 n0 ⟨-, rfl, rfl⟩
    refine Bd.call (bd_ewSpace lr _ _ s0 r n0 ha) (by omega) ?_
    rintro ws s1 n1 ⟨h0, d, r1, h1, h2, h3⟩
    refine Bd.test (ct_is EQ) h1 (by omega) ?_ ?_
    · intro s2 n2 g0 g1 g2 g3 _
      have hpos := (g3 rfl).pos g2
      refine Bd.call (bd_ewScan g2 (g3 rfl)) (by omega) ?_
      rintro ⟨f, enc, dat, buf⟩ s3 n3 ⟨i0, d3, r3, i1, i2, i3, i4, i5⟩
      have i4 : dat.length ≤ d3 := i4
      have hc := ewData_cost lr E enc dat
      have hc2 : (if f then (none, 0) else ewData lr E enc dat).2 ≤ 25 * d3 + 26 := by
        split
        · exact Nat.zero_le _
        · omega
      refine Bd.bind (bd_charge ?_)
      cases (if f then (none, 0) else ewData lr E enc dat).1 with
      | none => exact next _ _ s3 r3 _ i1 (by omega)
      | some o => exact next _ _ s3 r3 _ i1 (by omega)
    · intro s2 n2 g0 g1 g2 _ _
      refine Bd.test ct_eof g2 (by omega) ?_ ?_
      · intro s3 n3 i0 i1 i2 _ _
        exact Bd.pure (by omega)
      · intro s3 n3 i0 i1 i2 i3 _
        refine Bd.call (bd_get i2 (i3 rfl)) (by omega) ?_
        rintro c s4 n4 ⟨j1, ⟨r4, j2, j3⟩, -⟩
        exact next _ _ s4 r4 n4 j3 (by omega)

theorem bd_skipFWS_any (lr : Bool) (fuel : Nat) : ∀ (b : Bool) (s : SS) (r n : Nat), At (fun _ => True) N s r →
    Bd s n (skipFWS lr fuel b) (fun _ s' n' => n ≤ n' ∧ ∃ d r', At (fun _ => True) N s' r' ∧ r = d + r' ∧ n' ≤ n + 17 * d + 4 * r' + 14)
      (n + 17 * r + 14) := by
  induction fuel with
  | zero => intro b s r n ha; exact Bd.throw (by omega)
  | succ fuel ih =>
    intro b s r n ha
    unfold skipFWS
    refine Bd.call (bd_readFWS lr ha) (by omega) ?_
    rintro w s1 n1 ⟨h0, ⟨r1, h1, h2⟩, h3, h4⟩
    refine Bd.ite (fun hw => ?_) fun hw => ?_
    · have hw : w = [] := by simpa using hw
      subst hw
      simp only [List.length_nil, Nat.zero_add] at h2
      exact Bd.pure ⟨h0, 0, r1, h1, by omega, by omega⟩
    · have hl := isEmpty_len hw
      have := h3 (by intro h; rw [h] at hl; simp at hl)
      refine (ih true s1 r1 n1 h1).mono ?_ (by omega)
      rintro _ s2 n2 ⟨g0, d, r2, g1, g2, g3⟩
      exact ⟨by omega, w.length + d, r2, g1, by omega, by omega⟩

theorem ewDecode_cost (lr : Bool) (E : Env) (input : Bytes) : (ewDecode lr E input).2 ≤ 83 * input.length + 24 := by
  refine run_bd ?_
  have ha : At (fun _ => True) input.length ({ data := input } : SS) input.length := At.start trivial
  refine Bd.call (bd_left ha) (by omega) ?_
  rintro f s0 n0 ⟨-, rfl, rfl⟩
  refine Bd.call (bd_skipFWS_any lr _ _ _ _ _ ha) (by omega) ?_
  rintro _ s1 n1 ⟨h0, d, r1, h1, h2, h3⟩
  refine Bd.call (bd_left h1) (by omega) ?_
  rintro f s2 n2 ⟨-, rfl, rfl⟩
  refine (bd_ewLoop lr E _ _ _ s2 r1 n2 h1).mono ?_ (by omega)
  intro _ _ _ h
  omega

/-! ## `TagList::Parse` -/

theorem bd_skipLoose (fuel : Nat) : ∀ (s : SS) (r n : Nat), At D N s r →
    Bd s n (skipLoose fuel) (fun _ s' n' => n ≤ n' ∧ ∃ d r', At D N s' r' ∧ r = d + r' ∧ n' ≤ n + 5 * d + 5) (n + 5 * r + 5) := by
  induction fuel with
  | zero => intro s r n ha; exact Bd.throw (by omega)
  | succ fuel ih =>
    intro s r n ha
    unfold skipLoose
    refine Bd.call (bd_readLoose ha) (by omega) ?_
    rintro w s1 n1 ⟨h1, h0, h2, r1, h3, h4⟩
    refine Bd.ite (fun hw => ?_) fun hw => ?_
    · have hw : w = [] := by simpa using hw
      subst hw
      exact Bd.pure ⟨h0, 0, r1, h3, by simpa using h4, by omega⟩
    · have hl := isEmpty_len hw
      refine (ih s1 r1 n1 h3).mono ?_ (by omega)
      rintro _ s2 n2 ⟨g0, d, r2, g1, g2, g3⟩
      exact ⟨by omega, w.length + d, r2, g1, by omega, by omega⟩

theorem bd_nameLoop (fuel : Nat) : ∀ (x : Bytes) (s : SS) (r n : Nat), At D N s r →
    Bd s n (nameLoop fuel x) (fun _ s' n' => n ≤ n' ∧ ∃ d r', At D N s' r' ∧ r = d + r' ∧ n' ≤ n + 8 * d + 7) (n + 8 * r + 7) := by
  induction fuel with
  | zero => intro x s r n ha; exact Bd.throw (by omega)
  | succ fuel ih =>
    intro x s r n ha
    unfold nameLoop
    refine Bd.test (b := 7) (t := true) (f := false) ((ct_between _ _).or ((ct_between _ _).or ((ct_between _ _).or (ct_is _)))) ha (by omega) ?_ ?_
    · intro s1 n1 h0 h1 h2 h3 _
      refine Bd.call (bd_get h2 (h3 rfl)) (by omega) ?_
      rintro c s2 n2 ⟨i1, ⟨r2, i2, i3⟩, -⟩
      refine (ih _ s2 r2 n2 i3).mono ?_ (by omega)
      rintro _ s3 n3 ⟨g0, d, r3, g1, g2, g3⟩
      exact ⟨by omega, d + 1, r3, g1, by omega, by omega⟩
    · intro s1 n1 h0 h1 h2 _ _
      exact Bd.pure ⟨by omega, 0, r, h2, by omega, by omega⟩

theorem bd_readName (ha : At D N s r) :
    Bd s n readName (fun _ s' n' => n ≤ n' ∧ ∃ d r', At D N s' r' ∧ r = d + r' ∧ n' ≤ n + 8 * d + 13) (n + 8 * r + 13) := by
  unfold readName
  refine Bd.test (b := 6) (t := true) (f := false) ((ct_between _ _).or ((ct_between _ _).or (ct_between _ _))) ha (by omega) ?_ ?_
  · intro s1 n1 h0 h1 h2 h3 _
    refine Bd.call (bd_get h2 (h3 rfl)) (by omega) ?_
    rintro c s2 n2 ⟨i1, ⟨r2, i2, i3⟩, -⟩
    refine Bd.bind (Bd.pure ?_)
    refine Bd.call (bd_left i3) (by omega) ?_
    rintro f s3 n3 ⟨-, rfl, rfl⟩
    refine (bd_nameLoop _ _ s3 r2 n3 i3).mono ?_ (by omega)
    rintro _ s4 n4 ⟨g0, d, r4, g1, g2, g3⟩
    exact ⟨by omega, d + 1, r4, g1, by omega, by omega⟩
  · intro s1 n1 h0 h1 h2 _ _
    refine Bd.bind (Bd.pure ?_)
    refine Bd.call (bd_left h2) (by omega) ?_
    rintro f s3 n3 ⟨-, rfl, rfl⟩
    refine (bd_nameLoop _ _ s3 r n3 h2).mono ?_ (by omega)
    rintro _ s4 n4 ⟨g0, d, r4, g1, g2, g3⟩
    exact ⟨by omega, d, r4, g1, by omega, by omega⟩

theorem bd_readValue (lr : Bool) (fuel : Nat) : ∀ (b v : Bytes) (s : SS) (r n : Nat), At D N s r →
    Bd s n (readValue lr fuel b v) (fun _ s' n' => n ≤ n' ∧ ∃ d r', At D N s' r' ∧ r = d + r' ∧ n' ≤ n + 11 * d + 13) (n + 11 * r + 13) := by
  induction fuel with
  | zero => intro b v s r n ha; exact Bd.throw (by omega)
  | succ fuel ih =>
    intro b v s r n ha
    unfold readValue
    refine Bd.test ((ct_is SEMI).not.and ct_eof.not) ha (by omega) ?_ ?_
    · intro s1 n1 h0 h1 h2 h3 _
      refine Bd.test ((ct_between _ _).or (ct_between _ _)) h2 (by omega) ?_ ?_
      · intro s2 n2 g0 g1 g2 g3 _
        refine Bd.call (bd_get g2 (g3 rfl)) (by omega) ?_
        rintro c s3 n3 ⟨i1, ⟨r3, i2, i3⟩, -⟩
        refine (ih _ _ s3 r3 n3 i3).mono ?_ (by omega)
        rintro _ s4 n4 ⟨j0, d, r4, j1, j2, j3⟩
        exact ⟨by omega, d + 1, r4, j1, by omega, by omega⟩
      · intro s2 n2 g0 g1 g2 _ _
        refine Bd.call (bd_readLoose g2) (by omega) ?_
        rintro w s3 n3 ⟨i1, i0, i2, r3, i3, i4⟩
        refine Bd.ite (fun _ => bd_throwAt i3 (by omega)) fun hw => ?_
        have hl := isEmpty_len hw
        refine (ih _ _ s3 r3 n3 i3).mono ?_ (by omega)
        rintro _ s4 n4 ⟨j0, d, r4, j1, j2, j3⟩
        exact ⟨by omega, d + w.length, r4, j1, by omega, by omega⟩
    · intro s1 n1 h0 h1 h2 _ _
      exact Bd.pure ⟨by omega, 0, r, h2, by omega, by omega⟩

/-- As `Bd`, with the tag list next to the stream. -/
def BdT (s : SS) (n : Nat) (t : TagList) (mc : TM α) (ok : α → SS → Nat → TagList → Prop) (K : Nat) : Prop :=
  match mc ((s, n), t) with
  | .ok a r => ok a r.1.1 r.1.2 r.2
  | .error _ r => r.1.2 ≤ K

theorem BdT.bind {s : SS} {n K : Nat} {t : TagList} {m : TM α} {f : α → TM β} {ok : β → SS → Nat → TagList → Prop}
    (h : BdT s n t m (fun a s' n' t' => BdT s' n' t' (f a) ok K) K) : BdT s n t (m >>= f) ok K := by
  unfold BdT at *
  rw [es_bind]
  cases hm : m ((s, n), t) with
  | ok a r => rw [hm] at h; exact h
  | error e r => rw [hm] at h; exact h

theorem BdT.mono {s : SS} {n K K' : Nat} {t : TagList} {m : TM α} {ok ok' : α → SS → Nat → TagList → Prop} (h : BdT s n t m ok K)
    (h2 : ∀ a s' n' t', ok a s' n' t' → ok' a s' n' t') (hK : K ≤ K') : BdT s n t m ok' K' := by
  unfold BdT at *
  cases hm : m ((s, n), t) with
  | ok a r => rw [hm] at h; exact h2 _ _ _ _ h
  | error e r => rw [hm] at h; exact Nat.le_trans h hK

theorem BdT.ite {s : SS} {n K : Nat} {t : TagList} {c : Prop} [Decidable c] {a b : TM α} {ok : α → SS → Nat → TagList → Prop}
    (h : c → BdT s n t a ok K) (h2 : ¬ c → BdT s n t b ok K) : BdT s n t (if c then a else b) ok K := by
  split
  · exact h ‹_›
  · exact h2 ‹_›

/-- A stream program with a known bound, then go on. -/
theorem BdT.call {s : SS} {n K K' : Nat} {t : TagList} {m : CM α} {f : α → TM β} {ok : β → SS → Nat → TagList → Prop} {ok' : α → SS → Nat → Prop}
    (h : Bd s n m ok' K') (hK : K' ≤ K) (h2 : ∀ a s' n', ok' a s' n' → BdT s' n' t (f a) ok K) : BdT s n t (onStream m >>= f) ok K := by
  refine BdT.bind ?_
  unfold Bd at h
  unfold BdT onStream
  dsimp only
  cases hm : m (s, n) with
  | ok a r => rw [hm] at h; exact h2 _ _ _ h
  | error e r => rw [hm] at h; exact Nat.le_trans h hK

theorem BdT.last {s : SS} {n K : Nat} {t : TagList} {m : CM α} {ok : α → SS → Nat → TagList → Prop}
    (h : Bd s n m (fun a s' n' => ok a s' n' t) K) : BdT s n t (onStream m) ok K := by
  unfold Bd at h
  unfold BdT onStream
  dsimp only
  cases hm : m (s, n) with
  | ok a r => rw [hm] at h; exact h
  | error e r => rw [hm] at h; exact h

theorem bdT_get {s : SS} {n K : Nat} {t : TagList} {ok : ((SS × Nat) × TagList) → SS → Nat → TagList → Prop}
    (h : ok ((s, n), t) s n t) : BdT s n t MonadState.get ok K := h

theorem bdT_add {s : SS} {n K : Nat} {t : TagList} {x : Bytes × TagEntry} {ok : Unit → SS → Nat → TagList → Prop}
    (h : ok () s n (t ++ [x])) : BdT s n t (modify (fun (s, tags) => (s, tags ++ [x]))) ok K := h

theorem bd_loose (ha : At D N s r) : Bd s n (do skipLoose ((← left) + 1))
    (fun _ s' n' => n ≤ n' ∧ ∃ d r', At D N s' r' ∧ r = d + r' ∧ n' ≤ n + 5 * d + 5) (n + 5 * r + 5) := by
  refine Bd.call (bd_left ha) (by omega) ?_
  rintro f s1 n1 ⟨-, rfl, rfl⟩
  exact bd_skipLoose _ s1 r n1 ha

theorem bd_tagLoop (lr : Bool) (fuel : Nat) : ∀ (s : SS) (r n : Nat) (t : TagList), At D N s r →
    BdT s n t (tagLoop lr fuel) (fun _ _ n' _ => n' ≤ n + 57 * r + 48) (n + 57 * r + 48) := by
  induction fuel with
  | zero => intro s r n t ha; show n ≤ _; omega
  | succ fuel ih =>
    intro s r n t ha
    unfold tagLoop
    refine BdT.call (bd_loose ha) (by omega) ?_
    rintro _ s1 n1 ⟨h0, d1, r1, h1, h2, h3⟩
    refine BdT.call (ct_eof _ _ s1 r1 n1 h1) (by omega) ?_
    rintro x s2 n2 ⟨g0, g1, g2, g3, -, -, -⟩
    refine BdT.ite (fun _ => ?_) fun _ => ?_
    · show n2 ≤ _; omega
    refine BdT.call (bd_readName g2) (by omega) ?_
    rintro name s3 n3 ⟨i0, d3, r3, i1, i2, i3⟩
    refine BdT.ite (fun _ => BdT.last (bd_throwPos i1 (by omega))) fun _ => ?_
    refine BdT.bind (bdT_get ?_)
    refine BdT.ite (fun _ => ?_) fun _ => ?_
    · show n3 ≤ _; omega
    refine BdT.call (bd_loose i1) (by omega) ?_
    rintro _ s4 n4 ⟨j0, d4, r4, j1, j2, j3⟩
    refine BdT.call (ct_is EQ _ _ s4 r4 n4 j1) (by omega) ?_
    rintro x s5 n5 ⟨k0, k1, k2, k3, -, k5, -⟩
    refine BdT.ite (fun _ => BdT.last (bd_throwAt k2 (by omega))) fun hx => ?_
    have hr : Ready s5 := k3.2 (k5 (by simpa using hx) rfl)
    refine BdT.call (bd_get k2 hr) (by omega) ?_
    rintro c s6 n6 ⟨l1, ⟨r6, l2, l3⟩, -⟩
    refine BdT.call (bd_loose l3) (by omega) ?_
    rintro _ s7 n7 ⟨m0, d7, r7, m1, m2, m3⟩
    refine BdT.call (bd_tellg m1) (by omega) ?_
    rintro off s8 n8 ⟨p1, p2, -⟩
    have hv : Bd s8 n8 (do readValue lr ((← left) + 1) [] []) (fun _ s' n' => n8 ≤ n' ∧ ∃ d r', At D N s' r' ∧ r7 = d + r' ∧ n' ≤ n8 + 11 * d + 13) (n8 + 11 * r7 + 13) := by
      refine Bd.call (bd_left p2) (by omega) ?_
      rintro f s9 n9 ⟨-, rfl, rfl⟩
      exact bd_readValue lr _ _ _ s9 r7 n9 p2
    refine BdT.call hv (by omega) ?_
    rintro v s9 n9 ⟨q0, d9, r9, q1, q2, q3⟩
    refine BdT.bind (bdT_add ?_)
    refine BdT.call (bd_get_any q1) (by omega) ?_
    rintro o s10 n10 ⟨u1, r10, u2, u3, -⟩
    refine BdT.ite (fun _ => ?_) fun _ => ?_
    · show n10 ≤ _; omega
    refine (ih s10 r10 n10 _ u2).mono ?_ (by omega)
    intro _ _ _ _ h
    omega

theorem tagParse_cost (lr : Bool) (input : Bytes) (tags : TagList) : (tagParse lr input tags).1.2 ≤ 57 * input.length + 48 := by
  have h := bd_tagLoop (D := fun _ => True) lr (input.length + 1) { data := input } input.length 0 tags (At.start trivial)
  unfold BdT at h
  unfold tagParse
  cases hm : tagLoop lr (input.length + 1) (({ data := input }, 0), tags) with
  | ok a r => rw [hm] at h; exact Nat.le_trans h (by omega)
  | error e r => rw [hm] at h; exact Nat.le_trans h (by omega)

end Dkim.Steps

import Verif.Proofs.Steps
/-!
# Bounds on the number of steps: the logic, white space
-/

namespace Dkim.Steps
open SS (toChar code)

variable {α β : Type}

/-- Run `mc` on the stream `s` with `n` steps made: `ok` holds of result, stream and steps afterwards; if it
throws, at most `K` steps have been made. -/
def Bd (s : SS) (n : Nat) (mc : CM α) (ok : α → SS → Nat → Prop) (K : Nat) : Prop :=
  match mc (s, n) with
  | .ok a r => ok a r.1 r.2
  | .error _ r => r.2 ≤ K

theorem Bd.bind {s : SS} {n K : Nat} {m : CM α} {f : α → CM β} {ok : β → SS → Nat → Prop}
    (h : Bd s n m (fun a s' n' => Bd s' n' (f a) ok K) K) : Bd s n (m >>= f) ok K := by
  unfold Bd at *
  rw [es_bind]
  cases hm : m (s, n) with
  | ok a r => rw [hm] at h; exact h
  | error e r => rw [hm] at h; exact h

theorem Bd.mono {s : SS} {n K K' : Nat} {m : CM α} {ok ok' : α → SS → Nat → Prop} (h : Bd s n m ok K)
    (h2 : ∀ a s' n', ok a s' n' → ok' a s' n') (hK : K ≤ K') : Bd s n m ok' K' := by
  unfold Bd at *
  cases hm : m (s, n) with
  | ok a r => rw [hm] at h; exact h2 _ _ _ h
  | error e r => rw [hm] at h; exact Nat.le_trans h hK

theorem Bd.pure {s : SS} {n K : Nat} {a : α} {ok : α → SS → Nat → Prop} (h : ok a s n) : Bd s n (pure a) ok K := h
theorem Bd.throw {s : SS} {n K : Nat} {e : SErr} {ok : α → SS → Nat → Prop} (h : n ≤ K) : Bd s n (throw e) ok K := h

theorem Bd.ite {s : SS} {n K : Nat} {c : Prop} [Decidable c] {a b : CM α} {ok : α → SS → Nat → Prop}
    (h : c → Bd s n a ok K) (h2 : ¬ c → Bd s n b ok K) : Bd s n (if c then a else b) ok K := by
  split
  · exact h ‹_›
  · exact h2 ‹_›

/-- Call a program with a known bound, then go on. -/
theorem Bd.call {s : SS} {n K K' : Nat} {m : CM α} {f : α → CM β} {ok : β → SS → Nat → Prop} {ok' : α → SS → Nat → Prop}
    (h : Bd s n m ok' K') (hK : K' ≤ K) (h2 : ∀ a s' n', ok' a s' n' → Bd s' n' (f a) ok K) : Bd s n (m >>= f) ok K :=
  Bd.bind (h.mono h2 hK)

/-- The stream's buffer satisfies `D`, has `N` bytes, and `r` of them are left. -/
structure At (D : Bytes → Prop) (N : Nat) (s : SS) (r : Nat) : Prop where
  d : D s.data
  len : s.data.length = N
  pos : s.pos + r = N

/-- The next byte can be read. -/
def Ready (s : SS) : Prop := s.good = true ∧ s.pos < s.data.length

variable {D : Bytes → Prop} {N : Nat} {s : SS} {r n : Nat}

theorem At.start {input : Bytes} (h : D input) : At D input.length { data := input } input.length := ⟨h, rfl, Nat.zero_add _⟩

theorem Ready.pos (h : Ready s) (ha : At D N s r) : 0 < r := by
  have := h.2; have := ha.len; have := ha.pos; omega

theorem bd_tick {m : SM α} {a : α} {s' : SS} {K : Nat} {ok : α → SS → Nat → Prop} (h : m s = .ok a s') (hk : ok a s' (n + 1)) :
    Bd s n (tick m) ok K := by
  unfold Bd tick
  dsimp only
  rw [h]
  exact hk

theorem not_ready_fail (hg : ¬ s.good = true) : Ready { s with fail := true } ↔ Ready s :=
  ⟨fun h => absurd h.1 (by simp [SS.good]), fun h => absurd h.1 hg⟩

theorem bd_peek (ha : At D N s r) : Bd s n peek (fun o s' n' => n' = n + 1 ∧ At D N s' r ∧ (Ready s' ↔ Ready s) ∧
    (o.isSome ↔ Ready s) ∧ (Ready s → s' = s) ∧ (∀ c, o = some c → s.data[s.pos]? = some c)) n := by
  by_cases hg : s.good = true
  · by_cases hp : s.pos < s.data.length
    · have e : SS.peek s = .ok (some s.data[s.pos]) s := by
        unfold SS.peek; rw [if_pos hg, List.getElem?_eq_getElem hp]
      exact bd_tick e ⟨rfl, ha, Iff.rfl, by simp [Ready, hg, hp], fun _ => rfl, fun c h => by rw [List.getElem?_eq_getElem hp]; exact h⟩
    · have e : SS.peek s = .ok none { s with eof := true } := by
        unfold SS.peek; rw [if_pos hg, List.getElem?_eq_none (Nat.le_of_not_lt hp)]
      refine bd_tick e ⟨rfl, ⟨ha.d, ha.len, ha.pos⟩, ?_, by simp [Ready, hp], ?_, by simp⟩
      · simp [Ready, hp]
      · intro h; exact absurd h.2 hp
  · have e : SS.peek s = .ok none { s with fail := true } := by
      unfold SS.peek; rw [if_neg hg]
    exact bd_tick e ⟨rfl, ⟨ha.d, ha.len, ha.pos⟩, not_ready_fail hg, by simp [Ready, hg], fun h => absurd h.1 hg, by simp⟩

theorem bd_get (ha : At D N s r) (hr : Ready s) : Bd s n get (fun o s' n' => n' = n + 1 ∧ (∃ r', r = r' + 1 ∧ At D N s' r') ∧
    s' = { s with pos := s.pos + 1 } ∧ o = s.data[s.pos]?) n := by
  have e : SS.get s = .ok s.data[s.pos]? { s with pos := s.pos + 1 } := by
    unfold SS.get; rw [if_pos hr.1, List.getElem?_eq_getElem hr.2]
  have := hr.pos ha
  refine bd_tick e ⟨rfl, ⟨r - 1, by omega, ha.d, ha.len, ?_⟩, rfl, rfl⟩
  have := ha.pos
  show s.pos + 1 + (r - 1) = N
  omega

theorem bd_get_any (ha : At D N s r) : Bd s n get (fun o s' n' => n' = n + 1 ∧ ∃ r', At D N s' r' ∧ r' ≤ r ∧ (o ≠ none → r = r' + 1)) n := by
  by_cases hr : Ready s
  · refine (bd_get ha hr).mono ?_ (Nat.le_refl _)
    rintro o s' n' ⟨h1, ⟨r', h2, h3⟩, -, -⟩
    exact ⟨h1, r', h3, by omega, fun _ => h2⟩
  · by_cases hg : s.good = true
    · have hp : ¬ s.pos < s.data.length := fun h => hr ⟨hg, h⟩
      have e : SS.get s = .ok none { s with eof := true, fail := true } := by
        unfold SS.get; rw [if_pos hg, List.getElem?_eq_none (Nat.le_of_not_lt hp)]
      exact bd_tick e ⟨rfl, r, ⟨ha.d, ha.len, ha.pos⟩, Nat.le_refl _, fun h => absurd rfl h⟩
    · have e : SS.get s = .ok none { s with fail := true } := by
        unfold SS.get; rw [if_neg hg]
      exact bd_tick e ⟨rfl, r, ⟨ha.d, ha.len, ha.pos⟩, Nat.le_refl _, fun h => absurd rfl h⟩

theorem bd_left (ha : At D N s r) : Bd s n left (fun k s' n' => k = r ∧ s' = s ∧ n' = n) n := by
  refine ⟨?_, rfl, rfl⟩
  have := ha.len; have := ha.pos; omega

theorem bd_tellg (ha : At D N s r) : Bd s n tellg (fun _ s' n' => n' = n + 1 ∧ At D N s' r ∧ (Ready s' ↔ Ready s)) n := by
  by_cases hg : s.good = true
  · have e : SS.tellg s = .ok (s.pos : Int) s := by unfold SS.tellg; rw [if_pos hg]
    exact bd_tick e ⟨rfl, ha, Iff.rfl⟩
  · have e : SS.tellg s = .ok (-1) { s with fail := true } := by unfold SS.tellg; rw [if_neg hg]
    exact bd_tick e ⟨rfl, ⟨ha.d, ha.len, ha.pos⟩, not_ready_fail hg⟩

/-- A test: at most `b` steps, the stream does not move; if the result is `true` and `t`, or `false` and `f`,
the next byte can be read. -/
def CT (m : CM Bool) (b : Nat) (t f : Bool) : Prop :=
  ∀ (D : Bytes → Prop) (N : Nat) (s : SS) (r n : Nat), At D N s r →
    Bd s n m (fun x s' n' => n ≤ n' ∧ n' ≤ n + b ∧ At D N s' r ∧ (Ready s' ↔ Ready s) ∧ (Ready s → s' = s) ∧
      (x = true → t = true → Ready s) ∧ (x = false → f = true → Ready s)) (n + b)

theorem ct_is (c : Byte) : CT (peekIs c) 1 true false := by
  intro D N s r n ha
  unfold peekIs
  refine Bd.call (bd_peek ha) (by omega) ?_
  rintro o s' n' ⟨h1, h2, h3, h4, h5, -⟩
  refine ⟨by omega, by omega, h2, h3, h5, fun hx _ => h4.1 ?_, by simp⟩
  have hx : o = some c := by simpa using hx
  rw [hx]; rfl

theorem ct_eof : CT peekEOF 1 false true := by
  intro D N s r n ha
  unfold peekEOF
  refine Bd.call (bd_peek ha) (by omega) ?_
  rintro o s' n' ⟨h1, h2, h3, h4, h5, -⟩
  refine ⟨by omega, by omega, h2, h3, h5, by simp, fun hx _ => h4.1 ?_⟩
  cases o with
  | none => simp at hx
  | some _ => rfl

theorem ct_ge (c : Byte) : CT (peekGe c) 1 true false := by
  intro D N s r n ha
  unfold peekGe
  refine Bd.call (bd_peek ha) (by omega) ?_
  rintro o s' n' ⟨h1, h2, h3, h4, h5, -⟩
  cases o with
  | none => exact ⟨by omega, by omega, h2, h3, h5, by simp, by simp⟩
  | some _ => exact ⟨by omega, by omega, h2, h3, h5, fun _ _ => h4.1 rfl, by simp⟩

theorem ct_le (c : Byte) : CT (peekLe c) 1 false true := by
  intro D N s r n ha
  unfold peekLe
  refine Bd.call (bd_peek ha) (by omega) ?_
  rintro o s' n' ⟨h1, h2, h3, h4, h5, -⟩
  cases o with
  | none => exact ⟨by omega, by omega, h2, h3, h5, by simp, by simp⟩
  | some _ => exact ⟨by omega, by omega, h2, h3, h5, by simp, fun _ _ => h4.1 rfl⟩

theorem CT.or {a b : CM Bool} {i j : Nat} {t f t' f' : Bool} (h : CT a i t f) (h' : CT b j t' f') :
    CT (a <||> b) (i + j) (t && t') (f || f') := by
  intro D N s r n ha
  unfold orM
  refine Bd.call (h D N s r n ha) (by omega) ?_
  rintro x s' n' ⟨h0, h1, h2, h3, h4, h5, h6⟩
  cases x with
  | true => exact ⟨h0, by omega, h2, h3, h4, fun _ ht => h5 rfl (by simp at ht; exact ht.1), by simp⟩
  | false =>
    refine (h' D N s' r n' h2).mono ?_ (by omega)
    rintro x s'' n'' ⟨g0, g1, g2, g3, g4, g5, g6⟩
    refine ⟨by omega, by omega, g2, g3.trans h3, fun hs => ?_, fun hx ht => h3.1 (g5 hx (by simp at ht; exact ht.2)), fun hx hf => ?_⟩
    · rw [g4 (h3.2 hs), h4 hs]
    · simp at hf
      rcases hf with hf | hf
      · exact h6 rfl hf
      · exact h3.1 (g6 hx hf)

theorem CT.and {a b : CM Bool} {i j : Nat} {t f t' f' : Bool} (h : CT a i t f) (h' : CT b j t' f') :
    CT (a <&&> b) (i + j) (t || t') (f && f') := by
  intro D N s r n ha
  unfold andM
  refine Bd.call (h D N s r n ha) (by omega) ?_
  rintro x s' n' ⟨h0, h1, h2, h3, h4, h5, h6⟩
  cases x with
  | false => exact ⟨h0, by omega, h2, h3, h4, by simp, fun _ hf => h6 rfl (by simp at hf; exact hf.1)⟩
  | true =>
    refine (h' D N s' r n' h2).mono ?_ (by omega)
    rintro x s'' n'' ⟨g0, g1, g2, g3, g4, g5, g6⟩
    refine ⟨by omega, by omega, g2, g3.trans h3, fun hs => ?_, fun hx ht => ?_, fun hx hf => h3.1 (g6 hx (by simp at hf; exact hf.2))⟩
    · rw [g4 (h3.2 hs), h4 hs]
    · simp at ht
      rcases ht with ht | ht
      · exact h5 rfl ht
      · exact h3.1 (g5 hx ht)

theorem CT.not {a : CM Bool} {i : Nat} {t f : Bool} (h : CT a i t f) : CT (do return !(← a)) i f t := by
  intro D N s r n ha
  refine Bd.call (h D N s r n ha) (by omega) ?_
  rintro x s' n' ⟨h0, h1, h2, h3, h4, h5, h6⟩
  exact ⟨h0, h1, h2, h3, h4, fun hx hf => h6 (by simpa using hx) hf, fun hx ht => h5 (by simpa using hx) ht⟩

theorem ct_pure (x : Bool) : CT (pure x) 0 false false := fun _ _ _ _ _ ha =>
  ⟨Nat.le_refl _, Nat.le_refl _, ha, Iff.rfl, fun _ => rfl, by simp, by simp⟩

theorem ct_between (a b : Byte) : CT (between a b) 2 true false := (ct_ge a).and (ct_le b)

/-- Branch on a test. -/
theorem Bd.test {m : CM Bool} {b : Nat} {t f : Bool} (h : CT m b t f) (ha : At D N s r) {A B : CM α}
    {ok : α → SS → Nat → Prop} {K : Nat} (hK : n + b ≤ K)
    (hA : ∀ s' n', n ≤ n' → n' ≤ n + b → At D N s' r → (t = true → Ready s') → (Ready s' ↔ Ready s) → Bd s' n' A ok K)
    (hB : ∀ s' n', n ≤ n' → n' ≤ n + b → At D N s' r → (f = true → Ready s') → (Ready s' ↔ Ready s) → Bd s' n' B ok K) :
    Bd s n (m >>= fun x => if x = true then A else B) ok K := by
  refine Bd.call (h D N s r n ha) hK ?_
  rintro x s' n' ⟨h0, h1, h2, h3, h4, h5, h6⟩
  cases x with
  | true => exact hA s' n' h0 h1 h2 (fun ht => h3.2 (h5 rfl ht)) h3
  | false => exact hB s' n' h0 h1 h2 (fun hf => h3.2 (h6 rfl hf)) h3

theorem bd_peekTell (lr : Bool) (ha : At D N s r) : Bd s n (peekTell lr) (fun _ _ n' => n' = n + 2) (n + 2) := by
  unfold peekTell
  cases lr
  · refine Bd.call (bd_tellg ha) (by omega) ?_
    rintro _ s' n' ⟨h1, h2, -⟩
    refine Bd.call (bd_peek h2) (by omega) ?_
    rintro _ s' n' ⟨h3, -⟩
    exact Bd.pure (by omega)
  · refine Bd.call (bd_peek ha) (by omega) ?_
    rintro _ s' n' ⟨h1, h2, -⟩
    refine Bd.call (bd_tellg h2) (by omega) ?_
    rintro _ s' n' ⟨h3, -⟩
    exact Bd.pure (by omega)

theorem bd_throwAt {lr : Bool} {x : Reason} {K : Nat} {ok : α → SS → Nat → Prop} (ha : At D N s r) (hK : n + 2 ≤ K) :
    Bd s n (throwAt lr x) ok K := by
  unfold throwAt
  refine Bd.call (bd_peekTell lr ha) hK ?_
  rintro ⟨b, p⟩ s' n' h
  exact Bd.throw (by omega)

theorem bd_throwPos {x : Reason} {K : Nat} {ok : α → SS → Nat → Prop} (ha : At D N s r) (hK : n + 1 ≤ K) :
    Bd s n (throwPos x) ok K := by
  unfold throwPos
  refine Bd.call (bd_tellg ha) (by omega) ?_
  rintro p s' n' ⟨h, -⟩
  exact Bd.throw (by omega)

theorem bd_throwPlain {x : Reason} {K : Nat} {ok : α → SS → Nat → Prop} (hK : n ≤ K) : Bd s n (throwPlain x) ok K := hK

/-! ## White space -/

theorem bd_readWSP (ha : At D N s r) : Bd s n readWSP (fun w s' n' => n' ≤ n + 3 ∧ n ≤ n' ∧ w.length ≤ 1 ∧
    ∃ r', At D N s' r' ∧ r = w.length + r') (n + 3) := by
  unfold readWSP
  refine Bd.test ((ct_is SP).or (ct_is TAB)) ha (by omega) ?_ ?_
  · intro s1 n1 h0 h1 h2 h3 h4
    refine Bd.call (bd_get h2 (h3 rfl)) (by omega) ?_
    rintro c s2 n2 ⟨g1, ⟨r', g2, g3⟩, -⟩
    exact Bd.pure ⟨by omega, by omega, Nat.le_refl 1, r', g3, by simp; omega⟩
  · intro s1 n1 h0 h1 h2 h3 h4
    exact Bd.pure ⟨by omega, by omega, Nat.zero_le _, r, h2, by simp⟩

theorem bd_readLoose (ha : At D N s r) : Bd s n readLoose (fun w s' n' => n' ≤ n + 5 ∧ n ≤ n' ∧ w.length ≤ 1 ∧
    ∃ r', At D N s' r' ∧ r = w.length + r') (n + 5) := by
  unfold readLoose
  refine Bd.test ((ct_is SP).or ((ct_is TAB).or ((ct_is CR).or (ct_is LF)))) ha (by omega) ?_ ?_
  · intro s1 n1 h0 h1 h2 h3 h4
    refine Bd.call (bd_get h2 (h3 rfl)) (by omega) ?_
    rintro c s2 n2 ⟨g1, ⟨r', g2, g3⟩, -⟩
    exact Bd.pure ⟨by omega, by omega, Nat.le_refl 1, r', g3, by simp; omega⟩
  · intro s1 n1 h0 h1 h2 h3 h4
    exact Bd.pure ⟨by omega, by omega, Nat.zero_le _, r, h2, by simp⟩

theorem bd_readWSP_at (ha : At D N s r) (hr : Ready s) (hc : s.data[s.pos]? = some SP ∨ s.data[s.pos]? = some TAB) :
    Bd s n readWSP (fun w s' n' => n' ≤ n + 3 ∧ n ≤ n' ∧ w.length = 1 ∧ ∃ r', At D N s' r' ∧ r = w.length + r') (n + 3) := by
  have key : ∀ n1, n ≤ n1 → n1 ≤ n + 2 → Bd s n1 (do let c ← get; return [toChar c]) (fun w s' n' => n' ≤ n + 3 ∧ n ≤ n' ∧ w.length = 1 ∧ ∃ r', At D N s' r' ∧ r = w.length + r') (n + 3) := by
    intro n1 h1 h2
    refine Bd.call (bd_get ha hr) (by omega) ?_
    rintro c s2 n2 ⟨g1, ⟨r', g2, g3⟩, -⟩
    exact Bd.pure ⟨by omega, by omega, rfl, r', g3, by simp; omega⟩
  have hp : SS.peek s = .ok s.data[s.pos]? s := by
    unfold SS.peek; rw [if_pos hr.1, List.getElem?_eq_getElem hr.2]
  have hi : ∀ (c : Byte) (n1 : Nat), Bd s n1 (peekIs c) (fun x s' n' => x = (s.data[s.pos]? == some c) ∧ s' = s ∧ n' = n1 + 1) n1 := by
    intro c n1
    exact Bd.bind (bd_tick hp ⟨rfl, rfl, rfl⟩)
  unfold readWSP orM
  refine Bd.bind (Bd.call (hi SP n) (by omega) ?_)
  rintro x s1 n1 ⟨h1, rfl, rfl⟩
  rcases hc with hc | hc
  · rw [hc] at h1
    subst h1
    exact key (n + 1) (by omega) (by omega)
  · rw [hc] at h1
    subst h1
    refine (hi TAB (n + 1)).mono ?_ (by omega)
    rintro x s1 n1 ⟨h1, rfl, rfl⟩
    rw [hc] at h1
    subst h1
    exact key (n + 2) (by omega) (by omega)

theorem bd_readCRLF (lr : Bool) (ha : At D N s r) : Bd s n (readCRLF lr) (fun w s' n' => n' ≤ n + 4 ∧ n ≤ n' ∧
    (∃ r', At D N s' r' ∧ r = w.length + r') ∧
    (w = [] ∨ w.length = 2 ∧ s'.good = true ∧ s.data[s.pos]? = some CR ∧ s.data[s.pos + 1]? = some LF ∧ s'.data = s.data ∧ s'.pos = s.pos + 2)) (n + 5) := by
  unfold readCRLF peekIs
  refine Bd.bind (Bd.call (bd_peek ha) (by omega) ?_)
  rintro o s1 n1 ⟨h1, h2, h3, h4, h5, h6⟩
  refine Bd.pure ?_
  refine Bd.ite (fun hc => ?_) fun _ => Bd.pure ⟨by omega, by omega, ⟨r, h2, by simp⟩, .inl rfl⟩
  have ho : o = some CR := by simpa using hc
  have hr : Ready s := h4.1 (by rw [ho]; rfl)
  have hs := h5 hr
  subst hs
  refine Bd.call (bd_get ha hr) (by omega) ?_
  rintro c s2 n2 ⟨g1, ⟨r2, g2, g3⟩, g4, g5⟩
  refine Bd.call (bd_peek g3) (by omega) ?_
  rintro p s3 n3 ⟨i1, i2, i3, i4, i5, i6⟩
  refine Bd.ite (fun hp => ?_) fun hp => ?_
  · refine Bd.ite (fun _ => bd_throwAt i2 (by omega)) fun _ => bd_throwPlain (by omega)
  · have hp : p = some LF := by simpa using hp
    have hr2 : Ready s2 := i4.1 (by rw [hp]; rfl)
    have hs := i5 hr2
    subst hs
    refine Bd.call (bd_get g3 hr2) (by omega) ?_
    rintro d s4 n4 ⟨j1, ⟨r4, j2, j3⟩, j4, j5⟩
    refine Bd.pure ⟨by omega, by omega, ⟨r4, j3, by simp; omega⟩, .inr ⟨rfl, ?_, h6 _ ho, ?_, ?_, ?_⟩⟩
    · rw [j4]; exact hr2.1
    · have := i6 _ hp
      rw [g4] at this
      exact this
    · rw [j4, g4]
    · rw [j4, g4]

theorem bd_loopWSP (fuel : Nat) : ∀ (acc : Bytes) (s : SS) (r n : Nat), At D N s r →
    Bd s n (loopWSP fuel acc) (fun w s' n' => n ≤ n' ∧ ∃ d r', At D N s' r' ∧ r = d + r' ∧ w.length = acc.length + d ∧ n' ≤ n + 3 * d + 3)
      (n + 3 * r + 3) := by
  induction fuel with
  | zero => intro acc s r n ha; exact Bd.throw (by omega)
  | succ fuel ih =>
    intro acc s r n ha
    unfold loopWSP
    refine Bd.call (bd_readWSP ha) (by omega) ?_
    rintro w s1 n1 ⟨h1, h0, h2, r1, h3, h4⟩
    refine Bd.ite (fun hw => ?_) fun hw => ?_
    · have hw : w = [] := by simpa using hw
      subst hw
      exact Bd.pure ⟨h0, 0, r1, h3, by simpa using h4, by simp, by omega⟩
    · have hw : w.length = 1 := by
        cases w with
        | nil => simp at hw
        | cons a b => simp at h2 ⊢; exact h2
      refine (ih (acc ++ w) s1 r1 n1 h3).mono ?_ (by omega)
      rintro x s2 n2 ⟨g0, d, r2, g1, g2, g3, g4⟩
      exact ⟨by omega, d + 1, r2, g1, by omega, by rw [g3, List.length_append]; omega, by omega⟩

theorem bd_putbackAll (N : Nat) (w : Bytes) : ∀ (s : SS) (r n : Nat), At (fun _ => True) N s r → s.good = true → r + w.length ≤ N →
    Bd s n (putbackAll w) (fun _ s' n' => n' = n + w.length ∧ At (fun _ => True) N s' (r + w.length)) (n + w.length) := by
  induction w with
  | nil => intro s r n ha _ _; exact Bd.pure ⟨rfl, ha⟩
  | cons c w ih =>
    intro s r n ha hg hl
    unfold putbackAll
    have hpos := ha.pos
    simp only [List.length_cons] at hl
    have hp0 : ¬ s.pos = 0 := by omega
    have hg' : ({ s with eof := false } : SS).good = true := by
      simp only [SS.good, Bool.and_eq_true, Bool.not_eq_true'] at hg ⊢
      exact ⟨⟨trivial, hg.1.2⟩, hg.2⟩
    have e : SS.putback c s = .ok () { s with eof := false, pos := s.pos - 1, data := s.data.set (s.pos - 1) c } := by
      unfold SS.putback
      dsimp only
      rw [if_pos hg', if_neg hp0]
    refine Bd.bind (bd_tick e ?_)
    have hA : At (fun _ => True) N ({ s with eof := false, pos := s.pos - 1, data := s.data.set (s.pos - 1) c } : SS) (r + 1) := by
      refine ⟨trivial, ?_, ?_⟩
      · show (s.data.set (s.pos - 1) c).length = N
        rw [List.length_set]; exact ha.len
      · show s.pos - 1 + (r + 1) = N
        omega
    have := ih _ (r + 1) (n + 1) hA (by exact hg') (by omega)
    refine this.mono ?_ ?_
    · rintro _ s' n' ⟨h1, h2⟩
      refine ⟨by rw [h1, List.length_cons]; omega, ?_⟩
      rw [List.length_cons, show r + (w.length + 1) = r + 1 + w.length from by omega]
      exact h2
    · rw [List.length_cons]; omega

/-- What `ReadWhiteSpace(READ_FWS)` costs on any text: `3` steps for each byte read, or, if the text is put back,
`4` steps for each byte of the text left. -/
theorem bd_readFWS (lr : Bool) (ha : At (fun _ => True) N s r) : Bd s n (readFWS lr) (fun w s' n' => n ≤ n' ∧
    (∃ r', At (fun _ => True) N s' r' ∧ r = w.length + r') ∧ (w ≠ [] → n' ≤ n + 3 * w.length + 14) ∧ n' ≤ n + 4 * r + 14) (n + 4 * r + 14) := by
  unfold readFWS
  refine Bd.call (bd_left ha) (by omega) ?_
  rintro f s0 n0 ⟨-, rfl, rfl⟩
  refine Bd.call (bd_loopWSP _ [] s0 r n0 ha) (by omega) ?_
  rintro w s1 n1 ⟨h0, d, r1, h1, h2, h3, h4⟩
  simp only [List.length_nil, Nat.zero_add] at h3
  refine Bd.call (bd_readCRLF lr h1) (by omega) ?_
  rintro t s2 n2 ⟨g1, g0, ⟨r2, g2, g3⟩, g4⟩
  refine Bd.ite (fun ht => ?_) fun ht => ?_
  · have ht : t = [] := by simpa using ht
    subst ht
    exact Bd.pure ⟨by omega, ⟨r2, g2, by simp at g3; omega⟩, fun _ => by omega, by omega⟩
  · rcases g4 with g4 | ⟨g4, g5, -, -, g8, g9⟩
    · subst g4; simp at ht
    refine Bd.call (bd_readWSP g2) (by omega) ?_
    rintro t2 s3 n3 ⟨i1, i0, i2, r3, i3, i4⟩
    refine Bd.ite (fun ht2 => ?_) fun ht2 => ?_
    · have ht2 : t2 = [] := by simpa using ht2
      subst ht2
      have e : SS.clear s3 = .ok () { s3 with eof := false, fail := false, bad := false } := rfl
      refine Bd.bind (bd_tick e ?_)
      have hA : At (fun _ => True) N ({ s3 with eof := false, fail := false, bad := false } : SS) r3 := ⟨trivial, i3.len, i3.pos⟩
      have hlen : (w ++ t).reverse.length = d + 2 := by rw [List.length_reverse, List.length_append, h3, g4]
      simp only [List.length_nil, Nat.zero_add] at i4
      have hpos := ha.pos
      refine Bd.call (bd_putbackAll N (w ++ t).reverse _ r3 (n3 + 1) hA rfl (by rw [hlen]; omega)) (by rw [hlen]; omega) ?_
      rintro _ s4 n4 ⟨j1, j2⟩
      rw [hlen] at j1 j2
      exact Bd.pure ⟨by omega, ⟨r3 + (d + 2), j2, by simp; omega⟩, fun h => absurd rfl h, by omega⟩
    · have hw : t2.length = 1 := by
        cases t2 with
        | nil => simp at ht2
        | cons a b => simp at i2 ⊢; exact i2
      refine Bd.call (bd_left i3) (by omega) ?_
      rintro f s4 n4 ⟨-, rfl, rfl⟩
      refine (bd_loopWSP _ _ s4 r3 n4 i3).mono ?_ (by omega)
      rintro x s5 n5 ⟨j0, d2, r5, j1, j2, j3, j4⟩
      rw [List.length_append, List.length_append] at j3
      exact ⟨by omega, ⟨r5, j1, by omega⟩, fun _ => by omega, by omega⟩

end Dkim.Steps

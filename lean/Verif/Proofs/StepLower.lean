import Verif.Proofs.StepAddress
/-!
# Texts on which the parsers take quadratic time
-/

namespace Dkim.Steps
open SS (toChar code)

variable {α β : Type}

/-- The number of steps at the end. -/
def cnt (x : EStateM.Result SErr (SS × Nat) α) : Nat :=
  match x with
  | .ok _ r => r.2
  | .error _ r => r.2

theorem Sim.mono {mc : CM α} {m : SM α} (h : Sim mc m) (s : SS) (n : Nat) : n ≤ cnt (mc (s, n)) := by
  obtain ⟨k, hk⟩ := h s n
  rw [hk]
  cases m s <;> exact Nat.le_add_right _ _

theorem cnt_bind {mc : CM α} {f : α → CM β} (hf : ∀ a s n, n ≤ cnt (f a (s, n))) (s : SS) (n : Nat) :
    cnt (mc (s, n)) ≤ cnt ((mc >>= f) (s, n)) := by
  rw [es_bind]
  cases mc (s, n) with
  | ok a r => exact hf a r.1 r.2
  | error e r => exact Nat.le_refl _

theorem run_cnt (m : CM α) (input : Bytes) : (run m input).2 = cnt (m ({ data := input }, 0)) := by
  unfold run
  cases m ({ data := input }, 0) <;> rfl

section
variable (input : Bytes)

/-- A fresh stream, moved on. -/
def at' (i : Nat) : SS := { data := input, pos := i }

variable {input} {i n : Nat} {c : Byte}

theorem ex_tick {m : SM α} {a : α} {s s' : SS} (h : m s = .ok a s') : tick m (s, n) = .ok a (s', n + 1) := by
  unfold tick
  dsimp only
  rw [h]

theorem ex_peek (h : input[i]? = some c) : peek (at' input i, n) = .ok (some c) (at' input i, n + 1) := by
  have : SS.peek (at' input i) = .ok (some c) (at' input i) := by
    unfold SS.peek at'; rw [if_pos (by rfl)]; simp only [h]
  exact ex_tick this

theorem ex_get (h : input[i]? = some c) : get (at' input i, n) = .ok (some c) (at' input (i + 1), n + 1) := by
  have : SS.get (at' input i) = .ok (some c) (at' input (i + 1)) := by
    unfold SS.get at'; rw [if_pos (by rfl)]; simp only [h]
  exact ex_tick this

theorem ex_putback (h : input[i]? = some c) : putback c (at' input (i + 1), n) = .ok () (at' input i, n + 1) := by
  have : SS.putback c (at' input (i + 1)) = .ok () (at' input i) := by
    unfold SS.putback at'
    dsimp only
    rw [if_pos (by rfl), if_neg (by simp)]
    have : input.set i c = input := by
      refine List.ext_getElem? fun j => ?_
      rw [List.getElem?_set]
      split
      · subst_vars
        split
        · exact h.symm
        · rename_i hl; rw [List.getElem?_eq_none (by omega)] at h; simp at h
      · rfl
    simp only [Nat.add_sub_cancel, this]
  exact ex_tick this

theorem ex_clear : clear (at' input i, n) = .ok () (at' input i, n + 1) := rfl

theorem ex_is (h : input[i]? = some c) (d : Byte) : peekIs d (at' input i, n) = .ok (c == d) (at' input i, n + 1) := by
  unfold peekIs
  rw [es_bind, ex_peek h]
  rfl

theorem ex_eof (h : input[i]? = some c) : peekEOF (at' input i, n) = .ok false (at' input i, n + 1) := by
  unfold peekEOF
  rw [es_bind, ex_peek h]
  rfl

theorem ex_or {a b : CM Bool} {x y : Bool} {s : SS} {n1 n2 : Nat} (ha : a (s, n) = .ok x (s, n1)) (hb : b (s, n1) = .ok y (s, n2)) :
    (a <||> b) (s, n) = if x then .ok true (s, n1) else .ok y (s, n2) := by
  unfold orM
  rw [es_bind, ha]
  cases x
  · exact hb
  · rfl

theorem ex_wsp_yes (h : input[i]? = some SP) : readWSP (at' input i, n) = .ok [SP] (at' input (i + 1), n + 2) := by
  unfold readWSP
  rw [es_bind, ex_or (ex_is h SP) (ex_is h TAB)]
  show ((do let c ← get; return [toChar c] : CM Bytes)) (at' input i, n + 1) = _
  rw [es_bind, ex_get h]
  rfl

theorem ex_wsp_no (h : input[i]? = some c) (h1 : c ≠ SP) (h2 : c ≠ TAB) : readWSP (at' input i, n) = .ok [] (at' input i, n + 2) := by
  unfold readWSP
  rw [es_bind, ex_or (ex_is h SP) (ex_is h TAB)]
  have e1 : (c == SP) = false := by simpa using h1
  have e2 : (c == TAB) = false := by simpa using h2
  rw [e1, e2]
  rfl

/-- `k` spaces, then a byte that is not white space. -/
def Run_ (input : Bytes) (i k : Nat) (c : Byte) : Prop := (∀ j, j < k → input[i + j]? = some SP) ∧ input[i + k]? = some c

theorem Run_.tail {k : Nat} (h : Run_ input i (k + 1) c) : Run_ input (i + 1) k c :=
  ⟨fun j hj => by have := h.1 (j + 1) (by omega); rwa [show i + (j + 1) = i + 1 + j from by omega] at this,
   by have := h.2; rwa [show i + (k + 1) = i + 1 + k from by omega] at this⟩

theorem ex_loop (hc1 : c ≠ SP) (hc2 : c ≠ TAB) (k : Nat) : ∀ (fuel i n : Nat) (acc : Bytes), k < fuel → Run_ input i k c →
    loopWSP fuel acc (at' input i, n) = .ok (acc ++ List.replicate k SP) (at' input (i + k), n + 2 * k + 2) := by
  induction k with
  | zero =>
    intro fuel i n acc hf h
    obtain ⟨fuel, rfl⟩ := Nat.exists_eq_succ_of_ne_zero (by omega : fuel ≠ 0)
    unfold loopWSP
    rw [es_bind, ex_wsp_no (show input[i]? = some c from h.2) hc1 hc2]
    simp [es_pure, esBind_ok]
  | succ k ih =>
    intro fuel i n acc hf h
    obtain ⟨fuel, rfl⟩ := Nat.exists_eq_succ_of_ne_zero (by omega : fuel ≠ 0)
    unfold loopWSP
    rw [es_bind, ex_wsp_yes (by simpa using h.1 0 (by omega)), esBind_ok, if_neg (by simp)]
    rw [ih fuel (i + 1) (n + 2) _ (by omega) h.tail]
    rw [List.append_assoc, List.replicate_succ, show i + 1 + k = i + (k + 1) from by omega,
      show n + 2 + 2 * k + 2 = n + 2 * (k + 1) + 2 from by omega]
    rfl

theorem ex_crlf_yes (lr : Bool) (h1 : input[i]? = some CR) (h2 : input[i + 1]? = some LF) :
    readCRLF lr (at' input i, n) = .ok [CR, LF] (at' input (i + 2), n + 4) := by
  unfold readCRLF
  rw [es_bind, ex_is h1, esBind_ok, if_pos (by decide), es_bind, ex_get h1, esBind_ok, es_bind, ex_peek h2, esBind_ok, if_neg (by decide),
    es_bind, ex_get h2]
  rfl

theorem ex_crlf_no (lr : Bool) (h : input[i]? = some c) (h1 : c ≠ CR) : readCRLF lr (at' input i, n) = .ok [] (at' input i, n + 1) := by
  unfold readCRLF
  rw [es_bind, ex_is h, esBind_ok, if_neg (by simpa using h1)]
  rfl

theorem ex_putbackAll (w : Bytes) : ∀ (i n : Nat), (∀ j, j < w.length → input[i + j]? = w[j]?) →
    putbackAll w.reverse (at' input (i + w.length), n) = .ok () (at' input i, n + w.length) := by
  have : ∀ (v : Bytes) (i n : Nat), (∀ j, j < v.length → input[i + j]? = v.reverse[j]?) →
      putbackAll v (at' input (i + v.length), n) = .ok () (at' input i, n + v.length) := by
    intro v
    induction v with
    | nil => intro i n _; rfl
    | cons a v ih =>
      intro i n h
      unfold putbackAll
      have hl : input[i + v.length]? = some a := by
        rw [h v.length (by simp), List.reverse_cons, List.getElem?_append_right (by simp)]
        simp
      rw [List.length_cons, ← Nat.add_assoc, es_bind, ex_putback hl, esBind_ok, ih i (n + 1) ?_]
      · rw [show n + 1 + v.length = n + (v.length + 1) from by omega]
      · intro j hj
        rw [h j (by simp; omega), List.reverse_cons, List.getElem?_append_left (by simpa using hj)]
  intro i n h
  have := this w.reverse i n (by intro j hj; rw [List.reverse_reverse]; exact h j (by simpa using hj))
  rw [List.length_reverse] at this
  exact this

/-- White space that is put back. -/
theorem ex_fws {k : Nat} (lr : Bool) (hr : Run_ input i k CR) (hl : input[i + k + 1]? = some LF) (hb : input[i + k + 2]? = some c)
    (h1 : c ≠ SP) (h2 : c ≠ TAB) : readFWS lr (at' input i, n) = .ok [] (at' input i, n + 3 * k + 11) := by
  have hlen : i + k + 2 < input.length := by
    rcases Nat.lt_or_ge (i + k + 2) input.length with h | h
    · exact h
    · rw [List.getElem?_eq_none h] at hb; simp at hb
  unfold readFWS
  rw [es_bind]
  show esBind (.ok (input.length - i) (at' input i, n)) _ = _
  rw [esBind_ok, es_bind, ex_loop (by decide) (by decide) k _ i n [] (by omega) hr, esBind_ok, es_bind, ex_crlf_yes lr hr.2 hl, esBind_ok,
    if_neg (by decide)]
  rw [es_bind, ex_wsp_no hb h1 h2, esBind_ok, if_pos (by rfl), es_bind, ex_clear, esBind_ok, es_bind]
  have hp := ex_putbackAll (input := input) (List.replicate k SP ++ [CR, LF]) i (n + 2 * k + 2 + 4 + 2 + 1) (by
    intro j hj
    simp only [List.length_append, List.length_replicate, List.length_cons, List.length_nil] at hj
    rcases Nat.lt_or_ge j k with h | h
    · rw [hr.1 j h, List.getElem?_append_left (by simpa using h), List.getElem?_replicate, if_pos h]
    · rw [List.getElem?_append_right (by simpa using h), List.length_replicate]
      have : j = k ∨ j = k + 1 := by omega
      rcases this with rfl | rfl
      · rw [hr.2, Nat.sub_self]; rfl
      · rw [← Nat.add_assoc, hl, Nat.add_sub_cancel_left]; rfl)
  simp only [List.length_append, List.length_replicate, List.length_cons, List.length_nil, Nat.zero_add, Nat.reduceAdd] at hp
  rw [← Nat.add_assoc] at hp
  rw [List.nil_append, hp, esBind_ok, es_pure, show n + 2 * k + 2 + 4 + 2 + 1 + (k + 2) = n + 3 * k + 11 from by omega]

/-- Nothing to read. -/
theorem ex_fws_no (lr : Bool) (hb : input[i]? = some c) (h1 : c ≠ SP) (h2 : c ≠ TAB) (h3 : c ≠ CR) :
    readFWS lr (at' input i, n) = .ok [] (at' input i, n + 3) := by
  unfold readFWS
  rw [es_bind]
  show esBind (.ok (input.length - i) (at' input i, n)) _ = _
  rw [esBind_ok, es_bind, ex_loop (k := 0) h1 h2 _ i n [] (by omega) ⟨by omega, hb⟩, esBind_ok, es_bind]
  simp only [Nat.add_zero, Nat.mul_zero]
  rw [ex_crlf_no lr hb h3]
  rfl

theorem square_step {k n m : Nat} (h : n + 3 * (k + 1) + 11 + k * k ≤ m) : n + (k + 1) * (k + 1) ≤ m := by
  have : (k + 1) * (k + 1) = k * k + 2 * k + 1 := by rw [Nat.mul_add, Nat.add_mul]; omega
  omega

theorem lower_valueLoop (lr : Bool) (h1 : c ≠ SP) (h2 : c ≠ TAB) (k : Nat) : ∀ (fuel i n : Nat) (b v : Bytes), k ≤ fuel →
    Run_ input i k CR → input[i + k + 1]? = some LF → input[i + k + 2]? = some c →
    n + k * k ≤ cnt (valueLoop lr fuel b v (at' input i, n)) := by
  induction k with
  | zero => intro fuel i n b v _ _ _ _; exact (sim_valueLoop lr fuel b v).mono _ _
  | succ k ih =>
    intro fuel i n b v hf hr hl hb
    obtain ⟨fuel, rfl⟩ := Nat.exists_eq_succ_of_ne_zero (by omega : fuel ≠ 0)
    have hs : input[i]? = some SP := by simpa using hr.1 0 (by omega)
    unfold valueLoop
    rw [es_bind, ex_fws lr hr hl hb h1 h2, esBind_ok, if_pos (by rfl), es_bind, ex_or (ex_is hs COLON) (ex_eof hs)]
    rw [if_neg (by decide), esBind_ok, if_neg (by decide), es_bind, ex_get hs, esBind_ok]
    have := ih fuel (i + 1) (n + 3 * (k + 1) + 11 + 1 + 1 + 1) ([] ++ []) ((if b.isEmpty = true then v else v ++ b) ++ [toChar (some SP)]) (by omega) hr.tail
      (by rw [← hl]; congr 1; omega) (by rw [← hb]; congr 1; omega)
    exact square_step (Nat.le_trans (by omega) this)

theorem lower_collapse (lr : Bool) (h1 : c ≠ SP) (h2 : c ≠ TAB) (k : Nat) : ∀ (fuel i n : Nat) (x : Bytes), k ≤ fuel →
    Run_ input i k CR → input[i + k + 1]? = some LF → input[i + k + 2]? = some c →
    n + k * k ≤ cnt (collapse lr fuel x (at' input i, n)) := by
  induction k with
  | zero => intro fuel i n x _ _ _ _; exact (sim_collapse lr fuel x).mono _ _
  | succ k ih =>
    intro fuel i n x hf hr hl hb
    obtain ⟨fuel, rfl⟩ := Nat.exists_eq_succ_of_ne_zero (by omega : fuel ≠ 0)
    have hs : input[i]? = some SP := by simpa using hr.1 0 (by omega)
    unfold collapse
    rw [es_bind]
    show n + _ ≤ cnt (esBind (.ok (input.length - i) (at' input i, n)) _)
    rw [esBind_ok, es_bind]
    unfold skipFWS
    rw [es_bind, ex_fws lr hr hl hb h1 h2, esBind_ok, if_pos (by rfl), es_pure, esBind_ok, es_bind, ex_eof hs, esBind_ok, if_neg (by decide),
      if_neg (by decide), es_bind, ex_get hs, esBind_ok]
    have := ih fuel (i + 1) (n + 3 * (k + 1) + 11 + 1 + 1) (x ++ [toChar (some SP)]) (by omega) hr.tail
      (by rw [← hl]; congr 1; omega) (by rw [← hb]; congr 1; omega)
    exact square_step (Nat.le_trans (by omega) this)

theorem lower_nextTok (lr sc : Bool) (h1 : c ≠ SP) (h2 : c ≠ TAB) (k : Nat) : ∀ (fuel i n : Nat) (t : Bytes), k ≤ fuel →
    Run_ input i k CR → input[i + k + 1]? = some LF → input[i + k + 2]? = some c →
    n + k * k ≤ cnt (nextTok lr sc fuel t (at' input i, n)) := by
  induction k with
  | zero => intro fuel i n t _ _ _ _; exact (sim_nextTok lr sc fuel t).mono _ _
  | succ k ih =>
    intro fuel i n t hf hr hl hb
    obtain ⟨fuel, rfl⟩ := Nat.exists_eq_succ_of_ne_zero (by omega : fuel ≠ 0)
    have hs : input[i]? = some SP := by simpa using hr.1 0 (by omega)
    unfold nextTok
    rw [es_bind, ex_eof hs, esBind_ok, if_neg (by decide), es_bind, ex_fws lr hr hl hb h1 h2, esBind_ok, if_neg (by simp), es_bind, ex_eof hs,
      esBind_ok, if_neg (by decide), es_bind, ex_is hs, esBind_ok, if_neg (by decide), es_bind, ex_is hs, esBind_ok, if_neg (by decide),
      es_bind, ex_is hs, esBind_ok, if_neg (by decide), es_bind, ex_is hs, esBind_ok, if_neg (by decide), es_bind, ex_or (ex_is hs _) (ex_is hs _),
      if_neg (by decide), esBind_ok, if_neg (by decide), es_bind, ex_get hs, esBind_ok]
    refine square_step (Nat.le_trans ?_ (ih fuel (i + 1) _ _ (by omega) hr.tail
      (by rw [← hl]; congr 1; omega) (by rw [← hb]; congr 1; omega)))
    omega

end

end Dkim.Steps

import Verif.Proofs.StepLower
import Verif.Proofs.StepAddressFold
/-!
# Steps of `ParseAddressList` on nested quoted strings
-/

namespace Dkim
namespace Spec

/-- The content of a quoted string: quotation marks and backslashes are preceded by a backslash. -/
def escaped : Bytes → Bytes
  | [] => []
  | c :: r => if c = 34 ∨ c = 92 then 92 :: c :: escaped r else c :: escaped r

/-- A text as a quoted string. -/
def quoteText (x : Bytes) : Bytes := 34 :: escaped x ++ [34]

/-- `m` letters, quoted `d` times. -/
def nestedQuotes : Nat → Nat → Bytes
  | 0, m => List.replicate m 97
  | d + 1, m => quoteText (nestedQuotes d m)

end Spec

namespace Steps
open SS (toChar code)
open Spec (escaped quoteText nestedQuotes)

variable {input : Bytes} {i n : Nat}

theorem escaped_cons (c : Byte) (r : Bytes) :
    escaped (c :: r) = if c = 34 ∨ c = 92 then 92 :: c :: escaped r else c :: escaped r := rfl

theorem depth_succ (lr sc : Bool) (n : Nat) (t : Bytes) :
    parseAddrDepth lr sc (n + 1) t = run (addrLoop lr sc (parseAddrDepth lr sc n) (t.length + 2) {}) t := rfl

theorem addrLoop_succ (lr sc : Bool) (rc : Bytes → Except SErr (List Bytes) × Nat) (n : Nat) (st : AddrSt) :
    addrLoop lr sc rc (n + 1) st = (do
      if st.type = .eof then return st.list
      else
        let (ty, token) ← nextTok lr sc ((← left) + 1) []
        if token.contains 0 then throwPlain .nulInAddress
        else
          let st ← liftErr (addrSwitch rc { st with last := st.type, type := ty } token)
          addrLoop lr sc rc n st) := rfl

theorem get_of_drop {c : Byte} {r : Bytes} (h : input.drop i = c :: r) : input[i]? = some c ∧ input.drop (i + 1) = r := by
  constructor
  · have := congrArg List.head? h
    rwa [List.head?_drop] at this
  · have := congrArg List.tail h
    rwa [List.tail_drop] at this

theorem Unesc.escaped (x : Bytes) : Unesc (escaped x) x := by
  induction x with
  | nil => exact .nil
  | cons c x ih =>
    rw [escaped_cons]
    split
    · exact .esc c _ _ ih
    · rename_i h
      exact .lit c _ _ (fun e => h (.inl e)) (fun e => h (.inr e)) ih

theorem ex_quoted (sc : Bool) {z x : Bytes} (hu : Unesc z x) : (255 : Byte) ∉ x → ∀ (fuel i n : Nat) (t rest : Bytes), x.length < fuel →
    input.drop i = z ++ 34 :: rest →
    ∃ k j, x.length ≤ k ∧ quotedLoop sc fuel t (at' input i, n) = .ok (t ++ x) (at' input j, n + k) ∧ input.drop j = rest := by
  have sc0 : ∀ d : Byte, d ≠ 255 → (sc && (toChar (some d) == 255)) = false := by
    intro d hd
    have : (toChar (some d) == 255) = false := by simpa [toChar] using hd
    rw [this, Bool.and_false]
  induction hu with
  | nil =>
    intro _ fuel i n t rest hf h
    cases fuel with
    | zero => omega
    | succ fuel =>
      obtain ⟨h1, h2⟩ := get_of_drop (show input.drop i = 34 :: rest from h)
      refine ⟨1, i + 1, Nat.zero_le _, ?_, h2⟩
      unfold quotedLoop
      rw [es_bind, ex_get h1, esBind_ok]
      have : (sc && (toChar (some 34) == 255)) = false := by cases sc <;> decide
      rw [this, List.append_nil]
      rfl
  | esc c z x _ ih =>
    intro hx fuel i n t rest hf h
    have hx' : (255 : Byte) ∉ x := fun hh => hx (List.mem_cons_of_mem _ hh)
    cases fuel with
    | zero => omega
    | succ fuel =>
      have hf' : x.length < fuel := by simp only [List.length_cons] at hf; omega
      obtain ⟨h1, h2⟩ := get_of_drop (show input.drop i = 92 :: c :: (z ++ 34 :: rest) from h)
      obtain ⟨h3, h4⟩ := get_of_drop h2
      obtain ⟨k, j, k1, k2, k3⟩ := ih hx' fuel (i + 1 + 1) (n + 1 + 1 + 1) (t ++ [c]) rest hf' h4
      refine ⟨k + 3, j, by simp only [List.length_cons]; omega, ?_, k3⟩
      unfold quotedLoop
      rw [es_bind, ex_get h1, esBind_ok, sc0 92 (by decide)]
      show (do
        if ← peekEOF then throwPlain .incompleteEscape
        else
          let d ← get
          quotedLoop sc fuel (t ++ [toChar d]) : CM Bytes) (at' input (i + 1), n + 1) = _
      rw [es_bind, ex_eof h3, esBind_ok, if_neg (by decide), es_bind, ex_get h3, esBind_ok]
      show quotedLoop sc fuel (t ++ [c]) _ = _
      rw [k2]
      rw [show t ++ [c] ++ x = t ++ c :: x from by simp, show n + 1 + 1 + 1 + k = n + (k + 3) from by omega]
  | lit c z x h34 h92 _ ih =>
    intro hx fuel i n t rest hf h
    have hx' : (255 : Byte) ∉ x := fun hh => hx (List.mem_cons_of_mem _ hh)
    have hc : c ≠ 255 := fun hh => hx (by rw [hh]; exact List.mem_cons_self)
    cases fuel with
    | zero => omega
    | succ fuel =>
      have hf' : x.length < fuel := by simp only [List.length_cons] at hf; omega
      obtain ⟨h1, h2⟩ := get_of_drop (show input.drop i = c :: (z ++ 34 :: rest) from h)
      obtain ⟨k, j, k1, k2, k3⟩ := ih hx' fuel (i + 1) (n + 1) (t ++ [c]) rest hf' h2
      refine ⟨k + 1, j, by simp only [List.length_cons]; omega, ?_, k3⟩
      unfold quotedLoop
      rw [es_bind, ex_get h1, esBind_ok, sc0 c hc]
      have e1 : (toChar (some c) == 92) = false := by simpa [toChar] using h92
      have e2 : (toChar (some c) == 34) = false := by simpa [toChar] using h34
      rw [e1, e2]
      show quotedLoop sc fuel (t ++ [c]) _ = _
      rw [k2]
      rw [show t ++ [c] ++ x = t ++ c :: x from by simp, show n + 1 + k = n + (k + 1) from by omega]

theorem Unesc.length {z x : Bytes} (h : Unesc z x) : x.length ≤ z.length := by
  induction h with
  | nil => exact Nat.le_refl _
  | lit c z x _ _ _ ih => simp only [List.length_cons]; omega
  | esc c z x _ ih => simp only [List.length_cons]; omega

/-- A text between quotation marks. -/
def inQuotes (z : Bytes) : Bytes := 34 :: z ++ [34]

/-- The first token of a quoted text. -/
theorem ex_tok (lr sc : Bool) {z x : Bytes} (hu : Unesc z x) (hx : (255 : Byte) ∉ x) (fuel : Nat) (n : Nat) :
    ∃ k j, x.length ≤ k ∧ nextTok lr sc (fuel + 1) [] (at' (inQuotes z) 0, n) = .ok (.quoted, x) (at' (inQuotes z) j, n + k) ∧
      (inQuotes z).drop j = [] := by
  have h : (inQuotes z).drop 0 = 34 :: (z ++ 34 :: []) := rfl
  obtain ⟨h1, h2⟩ := get_of_drop h
  have hl : left (at' (inQuotes z) 1, n + 1 + 3 + 1 + 1 + 1) =
      .ok ((inQuotes z).length - 1) (at' (inQuotes z) 1, n + 1 + 3 + 1 + 1 + 1) := rfl
  have hlen : x.length < (inQuotes z).length - 1 + 1 := by
    have := hu.length
    unfold inQuotes
    simp only [List.cons_append, List.length_cons, List.length_append]
    omega
  obtain ⟨k, j, k1, k2, k3⟩ := ex_quoted sc hu hx ((inQuotes z).length - 1 + 1) 1 (n + 1 + 3 + 1 + 1 + 1) [] [] hlen h2
  refine ⟨k + 7, j, by omega, ?_, k3⟩
  unfold nextTok
  simp only
  rw [es_bind, ex_eof h1, esBind_ok, if_neg (by decide), es_bind, ex_fws_no lr h1 (by decide) (by decide) (by decide), esBind_ok,
    if_neg (by decide), es_bind, ex_eof h1, esBind_ok, if_neg (by decide), es_bind, ex_is h1, esBind_ok, if_pos (by decide),
    if_neg (by decide), es_bind, ex_get h1, esBind_ok, es_bind, hl, esBind_ok, es_bind, k2, esBind_ok]
  rw [List.nil_append, show n + 1 + 3 + 1 + 1 + 1 + k = n + (k + 7) from by omega]
  rfl

theorem ex_tok_end (lr sc : Bool) (j n fuel : Nat) (h : input.drop j = []) :
    nextTok lr sc (fuel + 1) [] (at' input j, n) = .ok (.eof, []) ({ at' input j with eof := true }, n + 1) := by
  have hp : input[j]? = none := by
    rw [List.getElem?_eq_none_iff]
    exact List.drop_eq_nil_iff.1 h
  have e : SS.peek (at' input j) = .ok none { at' input j with eof := true } := by
    unfold SS.peek at'
    rw [if_pos (by rfl)]
    simp only [hp]
  unfold nextTok
  simp only
  have : peekEOF (at' input j, n) = .ok true ({ at' input j with eof := true }, n + 1) := by
    unfold peekEOF
    rw [es_bind, show peek (at' input j, n) = _ from ex_tick e, esBind_ok]
    rfl
  rw [es_bind, this, esBind_ok]
  rfl

/-- Reading a quoted text costs its content once, and then the content is read again as a list. -/
theorem nested_unesc (lr sc : Bool) (depth : Nat) {z x : Bytes} (hu : Unesc z x) (hx : (255 : Byte) ∉ x) (hz : (0 : Byte) ∉ x) :
    x.length + (parseAddrDepth lr sc depth x).2 ≤ (parseAddrDepth lr sc (depth + 1) (inQuotes z)).2 := by
  rw [depth_succ, run_cnt]
  show _ ≤ cnt (addrLoop lr sc (parseAddrDepth lr sc depth) ((inQuotes z).length + 2) {} (at' (inQuotes z) 0, 0))
  have hne : (inQuotes z).length + 2 = ((inQuotes z).length - 1 + 1 + 1) + 1 := by
    unfold inQuotes; simp
  rw [hne]
  generalize (inQuotes z).length - 1 = f
  rw [addrLoop_succ, if_neg (by decide), es_bind]
  have hl : ∀ j m, left (at' (inQuotes z) j, m) = .ok ((inQuotes z).length - j) (at' (inQuotes z) j, m) := fun _ _ => rfl
  rw [hl, esBind_ok]
  obtain ⟨k, j, k1, k2, k3⟩ := ex_tok lr sc hu hx ((inQuotes z).length - 0) 0
  rw [es_bind, k2, esBind_ok]
  simp only
  rw [if_neg (by simpa using hz), es_bind]
  show _ ≤ cnt (esBind (.ok { ({} : AddrSt) with last := ({} : AddrSt).type, type := .quoted, tokens := [] ++ [x] }
    (at' (inQuotes z) j, 0 + k + 0)) _)
  rw [esBind_ok]
  rw [addrLoop_succ, if_neg (by intro h; cases h), es_bind, hl, esBind_ok, es_bind, ex_tok_end lr sc j _ _ k3, esBind_ok]
  simp only
  rw [if_neg (by decide), es_bind]
  have hsw : (addrSwitch (parseAddrDepth lr sc depth)
      { ({} : AddrSt) with last := .quoted, type := .eof, tokens := [] ++ [x] } []).2 = (parseAddrDepth lr sc depth x).2 := by
    unfold addrSwitch
    simp only [List.nil_append]
    rw [if_neg (by decide), if_neg (by rintro ⟨h, _⟩; cases h), if_pos ⟨trivial, trivial⟩]
    split <;> rename_i hh <;> rw [hh]
  generalize hq : addrSwitch (parseAddrDepth lr sc depth)
      { ({} : AddrSt) with last := .quoted, type := .eof, tokens := [] ++ [x] } [] = q at hsw
  have hty := fun st2 (h : q.1 = .ok st2) => (addrSwitch_type _ _ _ st2 (by rw [hq]; exact h)).1
  obtain ⟨q1, q2⟩ := q
  simp only at hsw
  subst hsw
  cases q1 with
  | error e =>
    show x.length + _ ≤ 0 + k + 0 + 1 + _
    omega
  | ok st2 =>
    have h2 : st2.type = .eof := hty st2 rfl
    show _ ≤ cnt (addrLoop lr sc _ _ st2 _)
    rw [addrLoop_succ, if_pos h2]
    show x.length + _ ≤ 0 + k + 0 + 1 + _
    omega

theorem nested_step (lr sc : Bool) (depth : Nat) (x : Bytes) (hx : (255 : Byte) ∉ x) (hz : (0 : Byte) ∉ x) :
    x.length + (parseAddrDepth lr sc depth x).2 ≤ (parseAddrDepth lr sc (depth + 1) (quoteText x)).2 :=
  nested_unesc lr sc depth (.escaped x) hx hz

/-- Bytes that have to be escaped. -/
def specials (x : Bytes) : Nat := x.countP fun c => c = 34 ∨ c = 92

theorem escaped_len (x : Bytes) : (escaped x).length = x.length + specials x ∧ specials (escaped x) = 2 * specials x := by
  unfold specials
  induction x with
  | nil => exact ⟨rfl, rfl⟩
  | cons c x ih =>
    unfold escaped
    by_cases h : c = 34 ∨ c = 92
    · rw [if_pos h]
      simp only [List.length_cons, List.countP_cons, h, decide_true, if_true]
      rw [if_pos (by decide)]
      omega
    · rw [if_neg h]
      simp only [List.length_cons, List.countP_cons, h, decide_false, Bool.false_eq_true, if_false]
      omega

theorem nested_len (d m : Nat) : (nestedQuotes d m).length + 2 = m + 2 ^ (d + 1) ∧ specials (nestedQuotes d m) + 2 = 2 ^ (d + 1) := by
  induction d with
  | zero =>
    refine ⟨by simp [nestedQuotes], ?_⟩
    have : specials (List.replicate m 97) = 0 := by
      unfold specials
      rw [List.countP_eq_zero]
      intro c hc
      rw [(List.mem_replicate.1 hc).2]
      decide
    simp [nestedQuotes, this]
  | succ d ih =>
    obtain ⟨e1, e2⟩ := escaped_len (nestedQuotes d m)
    have e3 : (nestedQuotes (d + 1) m).length = (escaped (nestedQuotes d m)).length + 2 := by
      simp [nestedQuotes, quoteText]
    have e4 : specials (nestedQuotes (d + 1) m) = specials (escaped (nestedQuotes d m)) + 2 := by
      show specials (34 :: escaped (nestedQuotes d m) ++ [34]) = _
      unfold specials
      rw [List.countP_append, List.countP_cons, List.countP_singleton, if_pos (by decide)]
    have e5 : 2 ^ (d + 1 + 1) = 2 * 2 ^ (d + 1) := by rw [Nat.pow_succ, Nat.mul_comm]
    omega

theorem nested_bytes (d m : Nat) : ∀ c ∈ nestedQuotes d m, c = 97 ∨ c = 34 ∨ c = 92 := by
  have hesc : ∀ x : Bytes, (∀ c ∈ x, c = 97 ∨ c = 34 ∨ c = 92) → ∀ c ∈ escaped x, c = 97 ∨ c = 34 ∨ c = 92 := by
    intro x
    induction x with
    | nil => intro _ c hc; cases hc
    | cons a x ih =>
      intro h c hc
      have h1 := h a List.mem_cons_self
      have h2 := ih (fun c hc => h c (List.mem_cons_of_mem _ hc))
      unfold escaped at hc
      split at hc
      · rcases List.mem_cons.1 hc with rfl | hc
        · exact .inr (.inr rfl)
        · rcases List.mem_cons.1 hc with rfl | hc
          · exact h1
          · exact h2 c hc
      · rcases List.mem_cons.1 hc with rfl | hc
        · exact h1
        · exact h2 c hc
  induction d with
  | zero =>
    intro c hc
    exact .inl (List.mem_replicate.1 hc).2
  | succ d ih =>
    intro c hc
    unfold nestedQuotes quoteText at hc
    simp only [List.cons_append, List.mem_cons, List.mem_append, List.not_mem_nil, or_false] at hc
    rcases hc with rfl | hc | rfl
    · exact .inr (.inl rfl)
    · exact hesc _ ih c hc
    · exact .inr (.inl rfl)

theorem nested_cost (lr sc : Bool) (d m : Nat) : ∀ depth, d ≤ depth → d * m ≤ (parseAddrDepth lr sc depth (nestedQuotes d m)).2 := by
  induction d with
  | zero => intro depth _; rw [Nat.zero_mul]; exact Nat.zero_le _
  | succ d ih =>
    intro depth hd
    cases depth with
    | zero => omega
    | succ depth =>
      have hno : ∀ b : Byte, b ≠ 97 → b ≠ 34 → b ≠ 92 → b ∉ nestedQuotes d m := by
        intro b h1 h2 h3 hb
        rcases nested_bytes d m b hb with h | h | h
        · exact h1 h
        · exact h2 h
        · exact h3 h
      have h1 := nested_step lr sc depth (nestedQuotes d m) (hno 255 (by decide) (by decide) (by decide))
        (hno 0 (by decide) (by decide) (by decide))
      have h2 := ih depth (by omega)
      have h3 := (nested_len d m).1
      have h4 : 2 ≤ 2 ^ (d + 1) := by
        have : 1 ≤ 2 ^ d := Nat.one_le_two_pow
        rw [Nat.pow_succ]; omega
      have h5 : (d + 1) * m = d * m + m := by rw [Nat.add_mul, Nat.one_mul]
      show _ ≤ (parseAddrDepth lr sc (depth + 1) (quoteText (nestedQuotes d m))).2
      omega

end Steps
end Dkim

import Verif.Props.Steps
import Verif.Proofs.StepAddressFold
import Verif.Proofs.StepNested
import Verif.Proofs.StepUnclosed
/-!
# C86: `ParseAddressList` on folded text
-/

namespace Dkim
open Spec Steps

/-- C86, the part that holds for `ParseAddressList` (compilers whose `char` is signed; otherwise it may not
end at all, C09): it is linear on text in which every CRLF is followed by a space or tab and which contains
no backslash. -/
theorem C86_address_partial (lr : Bool) (input : Bytes) (hf : FoldsOnly input) (hb : (92 : Byte) ∉ input) :
    (Steps.parseAddressList lr true input).2 ≤ 63 * (input.length + 1) := by
  have := parseAddrDepth_fold lr (input.length + 1) input hb hf
  unfold Steps.parseAddressList
  omega

/-- C86, what holds with backslashes: on text whose CRs all stand in folds, `ParseAddressList` makes at most
`58 + 5 * k` steps a byte if there are fewer than `2 ^ k` quotation marks and backslashes: each level of
quoting doubles them, so there are at most `k` levels. -/
theorem C86_address_levels_partial (lr : Bool) (input : Bytes) (hf : CRFolds input) (k : Nat)
    (hk : input.count 34 + input.count 92 < 2 ^ k) :
    (Steps.parseAddressList lr true input).2 ≤ (58 + 5 * k) * (input.length + 1) := by
  have hm : marks input ≤ input.count 34 + input.count 92 := by
    unfold marks
    induction input with
    | nil => simp
    | cons c r ih =>
      have := ih (by
        intro a b e
        exact hf (c :: a) b (by rw [e]; rfl)) (by
        simp only [List.count_cons] at hk; omega)
      simp only [List.countP_cons, List.count_cons]
      by_cases h1 : c = 34 <;> by_cases h2 : c = 92 <;> simp [h1, h2] <;> omega
  have := parseAddrDepth_log lr k (input.length + 1) input hf (Nat.lt_of_le_of_lt hm hk)
  unfold Steps.parseAddressList
  rw [Nat.mul_add, Nat.mul_one]
  omega

/-- C86: never more than `n log n` steps on such text, which is as good as it gets by
`C86_nested_quotes_witness`. -/
theorem C86_address_log_partial (lr : Bool) (input : Bytes) (hf : CRFolds input) :
    (Steps.parseAddressList lr true input).2 ≤ (63 + 5 * input.length.log2) * (input.length + 1) := by
  have hc : input.count 34 + input.count 92 ≤ input.length := by
    clear hf
    induction input with
    | nil => simp
    | cons c r ih =>
      simp only [List.count_cons, List.length_cons]
      by_cases h1 : c = 34
      · subst h1; simp; omega
      · by_cases h2 : c = 92
        · subst h2; simp; omega
        · simp [h1, h2]; omega
  have := C86_address_levels_partial lr input hf (input.length.log2 + 1) (Nat.lt_of_le_of_lt hc Nat.lt_log2_self)
  refine Nat.le_trans this (Nat.le_of_eq ?_)
  congr 1
  omega

/-- C86, negation: with backslashes it is not linear, even on text without any white space or line break
(letters, quotation marks and backslashes only): a quoted string whose content is a quoted string, and so
on, is read once for each level. -/
theorem C86_nested_quotes_witness (lr sc : Bool) (c : Nat) :
    ∃ t, (∀ b ∈ t, b = 97 ∨ b = 34 ∨ b = 92) ∧ c * (t.length + 1) < (Steps.parseAddressList lr sc t).2 := by
  have hl := (nested_len (3 * c + 1) (2 ^ (3 * c + 2))).1
  have hm : 1 ≤ 2 ^ (3 * c + 2) := Nat.one_le_two_pow
  generalize hM : 2 ^ (3 * c + 2) = M at hl hm
  have hd : 3 * c + 1 < M := by
    rw [← hM]
    exact Nat.lt_trans (by omega) (Nat.lt_two_pow_self (n := 3 * c + 2))
  refine ⟨nestedQuotes (3 * c + 1) M, nested_bytes _ _, ?_⟩
  refine Nat.lt_of_lt_of_le ?_ (nested_cost lr sc (3 * c + 1) M ((nestedQuotes (3 * c + 1) M).length + 1) (by omega))
  have e1 : c * ((nestedQuotes (3 * c + 1) M).length + 1) ≤ c * (M + M) := Nat.mul_le_mul_left _ (by omega)
  have e2 : (3 * c + 1) * M = c * (M + M) + c * M + M := by
    rw [Nat.add_mul, Nat.one_mul, Nat.mul_assoc, Nat.mul_add]
    omega
  have := Nat.zero_le (c * M)
  omega

/-- Such texts are folded (they contain no CRLF), so the condition on backslashes is needed. -/
theorem C86_nested_folds (t : Bytes) (h : ∀ b ∈ t, b = 97 ∨ b = 34 ∨ b = 92) : FoldsOnly t := by
  intro a b e
  have := h CR (by rw [e]; simp [CRLF])
  exact absurd this (by decide)

/-- In a quoted string: `n` spaces, CR, an escaped LF, a letter. -/
def escapedGap (n : Nat) : Bytes := b!"\"" ++ spaces n ++ [CR, 92, LF, 98, 34]

/-- C86: the condition of the bound above cannot be weakened to `FoldsOnly`: a text without any CRLF that
takes `n * n` steps, because a line break in which LF is escaped becomes a CRLF of the string's content. -/
theorem C86_escaped_break_witness (lr sc : Bool) (n : Nat) :
    FoldsOnly (escapedGap n) ∧ (escapedGap n).length = n + 6 ∧ n * n ≤ (Steps.parseAddressList lr sc (escapedGap n)).2 := by
  have hu : ∀ n, Unesc (spaces n ++ [CR, 92, LF, 98]) (spaces n ++ CRLF ++ [98]) := by
    intro n
    induction n with
    | zero => exact .lit CR _ _ (by decide) (by decide) (.esc LF _ _ (.lit 98 _ _ (by decide) (by decide) .nil))
    | succ n ih => exact .lit SP _ _ (by decide) (by decide) ih
  have hq : escapedGap n = inQuotes (spaces n ++ [CR, 92, LF, 98]) := by
    unfold escapedGap inQuotes; simp
  have hmem : ∀ b ∈ spaces n ++ CRLF ++ [98], b = 32 ∨ b = 13 ∨ b = 10 ∨ b = 98 := by
    intro b hb
    simp only [List.mem_append, spaces, List.mem_replicate, CRLF, List.mem_cons, List.not_mem_nil, or_false] at hb
    rcases hb with (hb | hb | hb) | hb
    · exact .inl hb.2
    · exact .inr (.inl hb)
    · exact .inr (.inr (.inl hb))
    · exact .inr (.inr (.inr hb))
  have hno : ∀ b : Byte, b ≠ 32 → b ≠ 13 → b ≠ 10 → b ≠ 98 → b ∉ spaces n ++ CRLF ++ [98] := by
    intro b h1 h2 h3 h4 hb
    rcases hmem b hb with h | h | h | h
    · exact h1 h
    · exact h2 h
    · exact h3 h
    · exact h4 h
  refine ⟨?_, by simp [escapedGap, spaces], ?_⟩
  · intro a b e
    exfalso
    -- the byte before LF is a backslash
    have hrev := congrArg List.reverse e
    have e3 : (escapedGap n).reverse = 34 :: 98 :: LF :: 92 :: CR :: (spaces n).reverse ++ [34] := by
      unfold escapedGap; simp
    rw [e3] at hrev
    simp only [CRLF, List.reverse_append, List.reverse_cons, List.reverse_nil, List.nil_append, List.cons_append,
      List.append_assoc] at hrev
    generalize b.reverse = x at hrev
    generalize ha : a.reverse = y at hrev
    match x, hrev with
    | [], h => simp [LF] at h
    | [_], h => simp [LF] at h
    | [_, _], h => simp [CR] at h
    | [_, _, _], h => simp [LF] at h
    | [_, _, _, _], h => simp [LF, CR] at h
    | _ :: _ :: _ :: _ :: _ :: x, h =>
      simp only [List.cons.injEq, List.cons_append] at h
      have hm : LF ∈ (spaces n).reverse ++ [34] := by rw [h.2.2.2.2.2]; simp
      simp [spaces, LF, SP] at hm
  · unfold Steps.parseAddressList
    rw [hq]
    have h1 := nested_unesc lr sc (inQuotes (spaces n ++ [CR, 92, LF, 98])).length (hu n)
      (hno 255 (by decide) (by decide) (by decide) (by decide)) (hno 0 (by decide) (by decide) (by decide) (by decide))
    refine Nat.le_trans ?_ (Nat.le_trans (Nat.le_add_left _ _) h1)
    have hlen : (inQuotes (spaces n ++ [CR, 92, LF, 98])).length = (spaces n).length + 5 + 1 := by simp [inQuotes]
    rw [hlen]
    exact address_lower_depth lr sc _ n 98 (by decide) (by decide) []

/-- C86: the exact number of steps on a text that is rejected, a quotation mark and `m` letters: work done
before an exception counts, and rejecting a text takes time too. -/
theorem C86_rejected_steps (lr : Bool) (m : Nat) :
    Steps.parseAddressList lr true (34 :: List.replicate m 97) = (.error (.perm .unclosedString none none), m + 8) :=
  address_unclosed lr m

/-- Every CR is followed by LF and a blank, computed. -/
def crFoldsB : Bytes → Bool
  | [] => true
  | c :: r => (c != CR || (match r with
      | l :: w :: _ => l == LF && isWSP w
      | _ => false)) && crFoldsB r

theorem crFolds_of : ∀ {t : Bytes}, crFoldsB t = true → CRFolds t
  | [], _ => fun a b e => absurd e (by simp)
  | c :: r, h => by
    simp only [crFoldsB, Bool.and_eq_true] at h
    intro a b e
    cases a with
    | nil =>
      obtain ⟨e1, e2⟩ := List.cons.inj e
      subst e1 e2
      have h1 := h.1
      match r, h1 with
      | [], h1 => exact absurd h1 (by decide)
      | [_], h1 => exact absurd h1 (by simp)
      | l :: w :: r, h1 =>
        simp only [bne_self_eq_false, Bool.false_or, Bool.and_eq_true] at h1
        exact ⟨w, r, by rw [eq_of_beq h1.1], h1.2⟩
    | cons d a =>
      obtain ⟨e1, e2⟩ := List.cons.inj e
      exact crFolds_of h.2 a b e2

/-! Concrete runs: a list with a quoted string, and a string quoted three times. -/
example : FoldsOnly b!"a@b, \"c@d\"" ∧ (92 : Byte) ∉ (b!"a@b, \"c@d\"" : Bytes) := by
  refine ⟨?_, by decide⟩
  intro a b e
  have : CR ∈ (b!"a@b, \"c@d\"" : Bytes) := by rw [e]; simp [CRLF]
  exact absurd this (by decide)
example : (Steps.parseAddressList true true b!"a@b, \"c@d\"").1 = .ok [b!"a@b", b!"c@d"] ∧
    (Steps.parseAddressList true true b!"a@b, \"c@d\"").2 = 109 := by decide +kernel
example : CRFolds b!"\"a@b\r\n \\\"c\\\"\"" ∧ (b!"\"a@b\r\n \\\"c\\\"\"" : Bytes).count 34 = 4 ∧
    (Steps.parseAddressList true true b!"\"a@b\r\n \\\"c\\\"\"").1 = .ok [b!"a@bc"] :=
  ⟨crFolds_of (by decide), by decide, by decide +kernel⟩
example : nestedQuotes 3 2 = b!"\"\\\"\\\\\\\"aa\\\\\\\"\\\"\"" ∧
    (Steps.parseAddressList true true (nestedQuotes 3 2)).1 = .ok [b!"aa"] := by decide +kernel

end Dkim

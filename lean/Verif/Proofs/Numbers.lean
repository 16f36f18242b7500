import Verif.Proofs.Ascii
import Verif.Model.CLib
import Verif.Spec.Signing
/-!
# Proofs: printing and reading numbers
-/

namespace Dkim
open Spec

theorem digit_facts : ∀ k : Fin 10, isDigit (UInt8.ofNat (48 + k)) = true ∧ (UInt8.ofNat (48 + k)).toNat - 48 = k ∧
    isSpace (UInt8.ofNat (48 + k)) = false ∧ UInt8.ofNat (48 + k) ≠ 45 ∧ UInt8.ofNat (48 + k) ≠ 43 := by decide

theorem digit_facts' {k : Nat} (h : k < 10) : isDigit (UInt8.ofNat (48 + k)) = true ∧
    (UInt8.ofNat (48 + k)).toNat - 48 = k ∧
    isSpace (UInt8.ofNat (48 + k)) = false ∧ UInt8.ofNat (48 + k) ≠ 45 ∧ UInt8.ofNat (48 + k) ≠ 43 := digit_facts ⟨k, h⟩

theorem decVal_append (a : Bytes) (d : Byte) : decVal (a ++ [d]) = decVal a * 10 + (d.toNat - 48) := by
  unfold decVal; rw [List.foldl_append]; rfl

theorem natDec_small {n : Nat} (h : n < 10) : natDec n = [UInt8.ofNat (48 + n)] := by
  rw [natDec, dif_pos h]
theorem natDec_big {n : Nat} (h : ¬ n < 10) : natDec n = natDec (n / 10) ++ [UInt8.ofNat (48 + n % 10)] := by
  rw [natDec, dif_neg h]

theorem natDec_decimal (n : Nat) : Decimal n (natDec n) := by
  induction n using Nat.strongRecOn with
  | ind n ih =>
    by_cases h : n < 10
    · rw [natDec_small h]; exact .digit n h
    · rw [natDec_big h]
      have := Decimal.more (n / 10) (n % 10) _ (by omega) (by omega) (ih (n / 10) (by omega))
      rw [show 10 * (n / 10) + n % 10 = n from by omega] at this
      exact this

theorem Spec.Decimal.facts {n : Nat} {t : Bytes} (h : Decimal n t) :
    t ≠ [] ∧ (∀ c ∈ t, isDigit c = true) ∧ decVal t = n := by
  induction h with
  | digit n h => 
    refine ⟨by simp, ?_, ?_⟩
    · intro c hc
      rw [List.mem_singleton] at hc; subst hc; exact (digit_facts' h).1
    · have := (digit_facts' h).2.1
      unfold decVal
      rw [List.foldl_cons, List.foldl_nil, this]; omega
  | more n d t _ hd _ ih =>
    refine ⟨by simp, ?_, ?_⟩
    · intro c hc
      rcases List.mem_append.1 hc with hc | hc
      · exact ih.2.1 c hc
      · simp only [List.mem_singleton] at hc; subst hc; exact (digit_facts' hd).1
    · rw [decVal_append, ih.2.2, (digit_facts' hd).2.1]; omega

/-- The decimal form is unique. -/
theorem Spec.Decimal.unique {n : Nat} {t : Bytes} (h : Decimal n t) : t = natDec n := by
  induction h with
  | digit n h => rw [natDec_small h]
  | more n d t hn hd _ ih =>
    rw [natDec_big (by omega), show (10 * n + d) / 10 = n from by omega, show (10 * n + d) % 10 = d from by omega, ih]

theorem digit_not_space {c : Byte} (h : isDigit c = true) : isSpace c = false ∧ c ≠ 45 ∧ c ≠ 43 := by
  unfold isDigit at h
  simp only [Bool.and_eq_true, decide_eq_true_eq] at h
  have h1 : 48 ≤ c.toNat := h.1
  have h2 : c.toNat ≤ 57 := h.2
  have := digit_facts' (k := c.toNat - 48) (by omega)
  rw [show 48 + (c.toNat - 48) = c.toNat from by omega, UInt8.ofNat_toNat] at this
  exact this.2.2

theorem takeWhile_all_num {p : Byte → Bool} {s : Bytes} (h : ∀ c ∈ s, p c = true) : s.takeWhile p = s ∧ s.dropWhile p = [] := by
  induction s with
  | nil => exact ⟨rfl, rfl⟩
  | cons c s ih =>
    have := ih (fun d hd => h d (by simp [hd]))
    simp [h c (by simp), this]

theorem scanNum_decimal {n : Nat} {t : Bytes} (h : Decimal n t) : scanNum t = some (false, n, []) := by
  obtain ⟨h1, h2, h3⟩ := h.facts
  cases t with
  | nil => exact absurd rfl h1
  | cons c r =>
    obtain ⟨k1, k2, k3⟩ := digit_not_space (h2 c (by simp))
    obtain ⟨w1, w2⟩ := takeWhile_all_num h2
    unfold scanNum
    rw [List.dropWhile_cons_of_neg (by simp [k1])]
    simp only [List.head?_cons, Option.some.injEq, k2, k3, or_self, if_false, w1, w2]
    simp [h3]

theorem strtoul_decimal {n : Nat} (hn : n < 2 ^ 64) {t : Bytes} (h : Decimal n t) : strtoul t = (n, [], false) := by
  unfold strtoul
  rw [scanNum_decimal h]
  simp only
  rw [if_neg (by omega)]
  simp

theorem strtol_decimal {n : Nat} {t : Bytes} (h : Decimal n t) :
    strtol t = if n < 2 ^ 63 then ((n : Int), false) else (2 ^ 63 - 1, true) := by
  unfold strtol
  rw [scanNum_decimal h]
  simp only
  by_cases hn : n < 2 ^ 63
  · rw [if_neg (by omega), if_pos hn]
  · rw [if_pos (by omega), if_neg hn]

/-- `%lu` of a signed 64-bit value: a negative one is printed as a huge number. -/
theorem fmtLu_decimal (v : Int) : Decimal (v % 2 ^ 64).toNat (fmtLu v) := natDec_decimal _

theorem fmtLu_nat {n : Nat} (h : n < 2 ^ 64) : Decimal n (fmtLu n) := by
  have := fmtLu_decimal n
  have e : ((n : Int) % 2 ^ 64).toNat = n := by omega
  rw [e] at this
  exact this

theorem fmtLu_nonneg {v : Int} (h0 : 0 ≤ v) (h : v < 2 ^ 64) : Decimal v.toNat (fmtLu v) := by
  have := fmtLu_decimal v
  rw [show (v % 2 ^ 64) = v from by omega] at this
  exact this

theorem fmtLu_digits (v : Int) : fmtLu v ≠ [] ∧ ∀ c ∈ fmtLu v, isDigit c = true :=
  ⟨(fmtLu_decimal v).facts.1, (fmtLu_decimal v).facts.2.1⟩

theorem decimal_length {n : Nat} {t : Bytes} (h : Decimal n t) : ∀ k, n < 10 ^ k → 0 < k → t.length ≤ k := by
  induction h with
  | digit n h => intro k _ hk; exact hk
  | more n d t hn hd _ ih =>
    intro k hk hk0
    cases k with
    | zero => omega
    | succ k =>
      have h1 : n < 10 ^ k := by rw [Nat.pow_succ] at hk; omega
      have h2 : 0 < k := by
        rcases Nat.eq_zero_or_pos k with rfl | h
        · simp at h1; omega
        · exact h
      have := ih k h1 h2
      rw [List.length_append]; simp; exact this

theorem fmtLu_length (v : Int) : (fmtLu v).length ≤ 20 :=
  decimal_length (fmtLu_decimal v) 20 (by omega) (by omega)

end Dkim

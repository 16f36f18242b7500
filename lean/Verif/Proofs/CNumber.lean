import Verif.Proofs.Ascii
import Verif.Spec.Number
import Verif.Model.CLib
/-!
# Proofs: the model of `strtoul`/`strtol` meets the specification
-/

namespace Dkim
open Spec

theorem isDigit_iff {c : Byte} : isDigit c = true ↔ IsDigit c := by simp [isDigit, IsDigit]

theorem decVal_foldl (ds : Bytes) : ∀ a : Nat,
    ds.foldl (fun a d => a * 10 + (d.toNat - 48)) a = a * 10 ^ ds.length + digitsVal ds := by
  induction ds with
  | nil => intro a; simp [digitsVal]
  | cons c r ih =>
    intro a
    rw [List.foldl_cons, ih, digitsVal, List.length_cons, Nat.pow_succ]
    generalize 10 ^ r.length = p
    rw [Nat.add_mul, Nat.mul_assoc, Nat.mul_comm 10 p]
    omega

@[simp] theorem Spec.digitsVal_eq (ds : Bytes) : digitsVal ds = decVal ds := by
  unfold decVal
  rw [decVal_foldl]; simp

theorem IsDigits.all {s : Bytes} (h : IsDigits s) : ∀ c ∈ s, isDigit c = true := fun c hc => isDigit_iff.2 (h.2 c hc)

theorem digit_not_space {c : Byte} (h : isDigit c = true) : isSpace c = false ∧ c ≠ 45 ∧ c ≠ 43 := by
  simp only [isDigit, Dkim.isSpace, Bool.and_eq_true, decide_eq_true_eq, Bool.or_eq_false_iff, beq_eq_false_iff_ne, ne_eq,
    Bool.and_eq_false_iff, decide_eq_false_iff_not, UInt8.le_iff_toNat_le, ← UInt8.toNat_inj] at *
  simp at *
  omega

theorem takeWhile_split {α : Type} {p : α → Bool} {a b : List α} (h : ∀ c ∈ a, p c = true)
    (hb : ∀ c ∈ b.head?, p c = false) : (a ++ b).takeWhile p = a ∧ (a ++ b).dropWhile p = b := by
  induction a with
  | nil =>
    cases b with
    | nil => exact ⟨rfl, rfl⟩
    | cons c b => have := hb c (by simp); simp [this]
  | cons c l ih =>
    have := ih (fun d hd => h d (by simp [hd]))
    simp [h c (by simp), this]

theorem mem_takeWhile {α : Type} {p : α → Bool} {l : List α} {x : α} (h : x ∈ l.takeWhile p) : p x = true := by
  induction l with
  | nil => simp at h
  | cons c l ih =>
    rw [List.takeWhile_cons] at h
    split at h
    · rcases List.mem_cons.1 h with rfl | h
      · assumption
      · exact ih h
    · simp at h

theorem head_dropWhile {α : Type} {p : α → Bool} (l : List α) : ∀ c ∈ (l.dropWhile p).head?, p c = false := by
  induction l with
  | nil => simp
  | cons c l ih =>
    rw [List.dropWhile_cons]
    split
    · exact ih
    · intro d hd; simp at hd; subst hd; simpa using ‹¬ p c = true›

theorem head_digits {ds rest : Bytes} (h : IsDigits ds) : ∃ c r, ds ++ rest = c :: r ∧ isSpace c = false ∧ c ≠ 45 ∧ c ≠ 43 := by
  obtain ⟨hne, hd⟩ := h
  match ds, hne with
  | c :: r, _ => exact ⟨c, r ++ rest, rfl, digit_not_space (isDigit_iff.2 (hd c (by simp)))⟩

theorem not_digit_head {rest : Bytes} (h : ∀ c ∈ rest.head?, ¬ IsDigit c) : ∀ c ∈ rest.head?, isDigit c = false := by
  intro c hc
  have := h c hc
  rw [← isDigit_iff] at this
  simpa using this

/-- The scanner finds the number. -/
theorem scanNum_of_number {s : Bytes} {neg : Bool} {m : Nat} {rest : Bytes} (h : Number s neg m rest) :
    scanNum s = some (neg, m, rest) := by
  cases h with
  | plain ws ds rest hw hd hr =>
    obtain ⟨c, r, e, h1, h2, h3⟩ := head_digits (rest := rest) hd
    have hdrop : (ws ++ (ds ++ rest)).dropWhile isSpace = ds ++ rest :=
      (takeWhile_split hw (by rw [e]; intro d hd'; simp at hd'; subst hd'; exact h1)).2
    obtain ⟨t1, t2⟩ := takeWhile_split (b := rest) (IsDigits.all hd) (not_digit_head hr)
    unfold scanNum
    simp only [hdrop]
    have hh : (ds ++ rest).head? = some c := by rw [e]; rfl
    have : ¬ (some c = some (45 : Byte) ∨ some c = some 43) := by simp [h2, h3]
    rw [hh, if_neg this, t1, t2]
    have := hd.1
    simp [this, h2]
  | plus ws ds rest hw hd hr =>
    have hdrop : (ws ++ (43 :: (ds ++ rest))).dropWhile isSpace = 43 :: (ds ++ rest) :=
      (takeWhile_split hw (by intro d hd'; simp at hd'; subst hd'; decide)).2
    obtain ⟨t1, t2⟩ := takeWhile_split (b := rest) (IsDigits.all hd) (not_digit_head hr)
    unfold scanNum
    simp only [hdrop]
    have := hd.1
    simp [t1, t2, this]
  | minus ws ds rest hw hd hr =>
    have hdrop : (ws ++ (45 :: (ds ++ rest))).dropWhile isSpace = 45 :: (ds ++ rest) :=
      (takeWhile_split hw (by intro d hd'; simp at hd'; subst hd'; decide)).2
    obtain ⟨t1, t2⟩ := takeWhile_split (b := rest) (IsDigits.all hd) (not_digit_head hr)
    unfold scanNum
    simp only [hdrop]
    have := hd.1
    simp [t1, t2, this]

theorem number_of_scanNum {s : Bytes} {neg : Bool} {m : Nat} {rest : Bytes} (h : scanNum s = some (neg, m, rest)) :
    Number s neg m rest := by
  have hs : s = s.takeWhile isSpace ++ s.dropWhile isSpace := (List.takeWhile_append_dropWhile ..).symm
  unfold scanNum at h
  simp only at h
  generalize hs1 : s.dropWhile isSpace = s1 at h hs
  have hw : ∀ c ∈ s.takeWhile isSpace, isSpace c = true := fun c hc => mem_takeWhile hc
  generalize s.takeWhile isSpace = ws at hs hw
  generalize hs2 : (if s1.head? = some 45 ∨ s1.head? = some 43 then s1.tail else s1) = s2 at h
  split at h
  · cases h
  · rename_i hne
    simp only [Option.some.injEq, Prod.mk.injEq] at h
    obtain ⟨hneg, hm, hr⟩ := h
    have e2 : s2 = s2.takeWhile isDigit ++ rest := by
      rw [← hr]; exact (List.takeWhile_append_dropWhile ..).symm
    have hd : IsDigits (s2.takeWhile isDigit) := ⟨by simpa using hne, fun c hc => isDigit_iff.1 (mem_takeWhile hc)⟩
    have hrest : ∀ c ∈ rest.head?, ¬ IsDigit c := by
      rw [← hr]; intro c hc; rw [← isDigit_iff]; simpa using head_dropWhile _ c hc
    generalize s2.takeWhile isDigit = ds at e2 hd hm
    rw [← digitsVal_eq] at hm
    subst hm
    rw [hs]
    by_cases h45 : s1.head? = some 45
    · rw [if_pos (Or.inl h45)] at hs2
      have : s1 = 45 :: s2 := by
        cases s1 with
        | nil => simp at h45
        | cons c r => simp at h45 hs2; rw [h45, hs2]
      have hn : neg = true := by rw [← hneg]; simpa using h45
      rw [hn, this, e2]
      exact .minus ws ds rest hw hd hrest
    · have hn : neg = false := by rw [← hneg]; simpa using h45
      by_cases h43 : s1.head? = some 43
      · rw [if_pos (Or.inr h43)] at hs2
        have : s1 = 43 :: s2 := by
          cases s1 with
          | nil => simp at h43
          | cons c r => simp at h43 hs2; rw [h43, hs2]
        rw [hn, this, e2]
        exact .plus ws ds rest hw hd hrest
      · rw [if_neg (fun h => h.elim h45 h43)] at hs2
        rw [hn, hs2, e2]
        exact .plain ws ds rest hw hd hrest

theorem scanNum_iff {s : Bytes} {neg : Bool} {m : Nat} {rest : Bytes} :
    scanNum s = some (neg, m, rest) ↔ Number s neg m rest := ⟨number_of_scanNum, scanNum_of_number⟩

theorem scanNum_none {s : Bytes} : scanNum s = none ↔ ¬ ∃ neg m rest, Number s neg m rest := by
  constructor
  · rintro h ⟨a, b, c, hn⟩
    rw [scanNum_of_number hn] at h; cases h
  · intro h
    cases hs : scanNum s with
    | none => rfl
    | some p => exact absurd ⟨p.1, p.2.1, p.2.2, number_of_scanNum hs⟩ h

/-- `strtoul` reads what the specification says. -/
theorem uLong_iff {s : Bytes} {n : Nat} {rest : Bytes} {o : Bool} : ULong s n rest o ↔ strtoul s = (n, rest, o) := by
  constructor
  · intro h
    unfold strtoul
    cases h with
    | nothing h => rw [scanNum_none.2 h]
    | pos m r h hm => rw [scanNum_iff.2 h]; simp only; rw [if_neg (by omega)]; rfl
    | neg m r h hm => rw [scanNum_iff.2 h]; simp only; rw [if_neg (by omega)]; rfl
    | range ng m r h hm => rw [scanNum_iff.2 h]; simp only; rw [if_pos hm]
  · intro h
    unfold strtoul at h
    split at h
    · rename_i hs
      cases h; exact .nothing (scanNum_none.1 hs)
    · rename_i neg v r hs
      split at h
      · cases h; exact .range _ _ _ (scanNum_iff.1 hs) (by assumption)
      · rename_i hv
        cases neg
        · have := ULong.pos _ _ (scanNum_iff.1 hs) (by omega)
          cases h; exact this
        · have := ULong.neg _ _ (scanNum_iff.1 hs) (by omega)
          cases h; exact this

/-- `strtol` reads what the specification says. -/
theorem sLong_iff {s : Bytes} {n : Int} {o : Bool} : SLong s n o ↔ strtol s = (n, o) := by
  constructor
  · intro h
    unfold strtol
    cases h with
    | nothing h => rw [scanNum_none.2 h]
    | pos m r h hm => rw [scanNum_iff.2 h]; simp only; rw [if_neg (by omega)]
    | neg m r h hm => rw [scanNum_iff.2 h]; simp only; rw [if_neg (by omega)]
    | high m r h hm => rw [scanNum_iff.2 h]; simp only; rw [if_pos hm]
    | low m r h hm => rw [scanNum_iff.2 h]; simp only; rw [if_pos hm]
  · intro h
    unfold strtol at h
    split at h
    · rename_i hs
      cases h; exact .nothing (scanNum_none.1 hs)
    · rename_i v r hs
      split at h
      · cases h; exact .high _ _ (scanNum_iff.1 hs) (by assumption)
      · cases h; exact .pos _ _ (scanNum_iff.1 hs) (by omega)
    · rename_i v r hs
      split at h
      · cases h; exact .low _ _ (scanNum_iff.1 hs) (by assumption)
      · cases h; exact .neg _ _ (scanNum_iff.1 hs) (by omega)

theorem uLong_value {s : Bytes} {n : Nat} : (∃ rest o, ULong s n rest o) ↔ (strtoul s).1 = n := by
  constructor
  · rintro ⟨r, o, h⟩; rw [uLong_iff.1 h]
  · rintro rfl; exact ⟨_, _, uLong_iff.2 rfl⟩

theorem sLong_value {s : Bytes} {now : Int} : (∃ n o, SLong s n o ∧ now ≤ n) ↔ now ≤ (strtol s).1 := by
  constructor
  · rintro ⟨r, o, h, hn⟩; rw [sLong_iff.1 h]; exact hn
  · intro h; exact ⟨_, _, sLong_iff.2 rfl, h⟩

end Dkim

import Verif.Model.Basic
/-!
# Specification: domain names and selectors
-/

namespace Dkim.Spec

/-- ASCII letter or digit. -/
def IsLetDig (c : Byte) : Prop :=
  (65 ≤ c ∧ c ≤ 90) ∨ (97 ≤ c ∧ c ≤ 122) ∨ (48 ≤ c ∧ c ≤ 57)

/-- An LDH label: letters, digits and `-`, beginning and ending with a letter or digit. -/
def IsLabel (l : Bytes) : Prop :=
  (∀ c ∈ l, IsLetDig c ∨ c = 45) ∧ (∃ a, l.head? = some a ∧ IsLetDig a) ∧
  (∃ z, l.getLast? = some z ∧ IsLetDig z)

/-- Labels joined by dots. -/
def joinDots : List Bytes → Bytes
  | [] => []
  | [x] => x
  | x :: y :: r => x ++ 46 :: joinDots (y :: r)

/-- One or more LDH labels joined by dots. -/
def IsDomain (s : Bytes) : Prop := ∃ ls : List Bytes, ls ≠ [] ∧ (∀ l ∈ ls, IsLabel l) ∧ s = joinDots ls

end Dkim.Spec

import Verif.Spec.SigHeader
import Verif.Spec.RoundTrip
/-!
# Specification: numbers that mean the same whatever the size of `long`
-/

namespace Dkim.Spec

/-- The number in l= (and in i= of an ARC field) is not negative (-0 is not). -/
def NoMinus (arc : Bool) (tag : Bytes → Option Bytes) : Prop :=
  (∀ v, tag b!"l" = some v → ∀ m rest, Number v true m rest → m = 0) ∧
  (arc = true → ∀ v, tag b!"i" = some v → ∀ m rest, Number v true m rest → m = 0)

/-- With `w`-bit `long`: the length in l= can be stored; and if the time in x= cannot, the clock is still before the
last time that can. -/
def LongFits (w : Nat) (now : Int) (tag : Bytes → Option Bytes) : Prop :=
  (∀ v, tag b!"l" = some v → ∀ m rest, Number v false m rest → m < 2 ^ (w - 1)) ∧
  (∀ v, tag b!"x" = some v → ∀ m rest, Number v false m rest → 2 ^ (w - 1) ≤ m → now < 2 ^ (w - 1))

/-- The time in x= cannot be stored in a `w`-bit `long`. -/
def ExpiryOut (w : Nat) (tag : Bytes → Option Bytes) : Prop :=
  ∃ v m rest, tag b!"x" = some v ∧ ((Number v false m rest ∧ 2 ^ (w - 1) ≤ m) ∨ (Number v true m rest ∧ 2 ^ (w - 1) < m))

/-- All numbers in l=, x= (and i= of an ARC field) lie between -2^(w-1) and 2^(w-1), those in l= and i= are not negative. -/
def SmallNumbers (w : Nat) (arc : Bool) (tag : Bytes → Option Bytes) : Prop :=
  NoMinus arc tag ∧
  (arc = true → ∀ v, tag b!"i" = some v → ∀ m rest, Number v false m rest → m < 2 ^ (w - 1)) ∧
  (∀ v, tag b!"l" = some v → ∀ m rest, Number v false m rest → m < 2 ^ (w - 1)) ∧
  (∀ v, tag b!"x" = some v → ∀ neg m rest, Number v neg m rest → m < 2 ^ (w - 1))

variable {E : Env}

/-- Every number `CreateSignature` has to write is one of a `w`-bit `unsigned long`. -/
structure SettingsFit (w : Nat) (o : Options E) (clock : Nat → Int) : Prop where
  arc : o.arcInstance < 2 ^ w
  length : o.bodySignLength = true → o.bodyLength < 2 ^ w
  time : o.timestampSign = true → ∀ k, 0 ≤ signTime o (clock k) ∧ signTime o (clock k) < 2 ^ w
  expiry : o.expirationSign = true → ∀ k, 0 ≤ expiryTime o (clock k) ∧ expiryTime o (clock k) < 2 ^ w

end Dkim.Spec

import Verif.Spec.Ascii
/-!
# Specification: numbers in texts

Decimal numbers, and what the C library's `strtoul`/`strtol` (base 10, 64-bit `long`) read from a text.
-/

namespace Dkim.Spec

/-- The byte is one of `0` to `9`. -/
def IsDigit (c : Byte) : Prop := 48 ≤ c ∧ c ≤ 57

/-- One or more decimal digits. -/
def IsDigits (s : Bytes) : Prop := s ≠ [] ∧ ∀ c ∈ s, IsDigit c

/-- The number written by a string of digits: each digit counts ten times the next one. -/
def digitsVal : Bytes → Nat
  | [] => 0
  | c :: r => (c.toNat - 48) * 10 ^ r.length + digitsVal r

/-- `Number s neg m rest`: after optional white space and an optional sign, `s` starts with digits (`m`, all
of them); `rest` follows them. -/
inductive Number : Bytes → Bool → Nat → Bytes → Prop
  | plain (ws ds rest) : (∀ c ∈ ws, isSpace c = true) → IsDigits ds → (∀ c ∈ rest.head?, ¬ IsDigit c) →
      Number (ws ++ (ds ++ rest)) false (digitsVal ds) rest
  | plus (ws ds rest) : (∀ c ∈ ws, isSpace c = true) → IsDigits ds → (∀ c ∈ rest.head?, ¬ IsDigit c) →
      Number (ws ++ (43 :: (ds ++ rest))) false (digitsVal ds) rest
  | minus (ws ds rest) : (∀ c ∈ ws, isSpace c = true) → IsDigits ds → (∀ c ∈ rest.head?, ¬ IsDigit c) →
      Number (ws ++ (45 :: (ds ++ rest))) true (digitsVal ds) rest

/-- The C library's reading of an unsigned number: value, unread rest, whether a range error is reported.
A minus sign negates modulo 2^64. -/
inductive ULong (s : Bytes) : Nat → Bytes → Bool → Prop
  | nothing : (¬ ∃ neg m rest, Number s neg m rest) → ULong s 0 s false
  | pos (m rest) : Number s false m rest → m < 2 ^ 64 → ULong s m rest false
  | neg (m rest) : Number s true m rest → m < 2 ^ 64 → ULong s ((2 ^ 64 - m) % 2 ^ 64) rest false
  | range (neg m rest) : Number s neg m rest → 2 ^ 64 ≤ m → ULong s (2 ^ 64 - 1) rest true

/-- The C library's reading of a signed number, the nearest representable value when out of range. -/
inductive SLong (s : Bytes) : Int → Bool → Prop
  | nothing : (¬ ∃ neg m rest, Number s neg m rest) → SLong s 0 false
  | pos (m rest) : Number s false m rest → m < 2 ^ 63 → SLong s m false
  | neg (m rest) : Number s true m rest → m ≤ 2 ^ 63 → SLong s (-m) false
  | high (m rest) : Number s false m rest → 2 ^ 63 ≤ m → SLong s (2 ^ 63 - 1) true
  | low (m rest) : Number s true m rest → 2 ^ 63 < m → SLong s (-(2 ^ 63)) true

/-- What `l=` values the code really accepts, and as which number: plain digits, digits after `+`,
digits after `-` taken modulo 2^64, and the empty value as 0. -/
inductive LengthText : Bytes → Nat → Prop
  | empty : LengthText [] 0
  | plain (ds) : IsDigits ds → digitsVal ds < 2 ^ 63 → LengthText ds (digitsVal ds)
  | plus (ds) : IsDigits ds → digitsVal ds < 2 ^ 63 → LengthText (43 :: ds) (digitsVal ds)
  | minus (ds) : IsDigits ds → digitsVal ds < 2 ^ 64 → (2 ^ 64 - digitsVal ds) % 2 ^ 64 < 2 ^ 63 →
      LengthText (45 :: ds) ((2 ^ 64 - digitsVal ds) % 2 ^ 64)

end Dkim.Spec

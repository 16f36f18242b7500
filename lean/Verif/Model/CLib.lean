import Verif.Model.Basic
/-!
# C library number conversion (`strtoul`, `strtol`, `%lu`), 64-bit `long`
-/

namespace Dkim

/-- Value of a digit string, most significant digit first. For src/Signature.cpp:210,256,295, tools/src/main.cpp:95. -/
def decVal (ds : Bytes) : Nat := ds.foldl (fun a d => a * 10 + (d.toNat - 48)) 0

/-- Common scanner of `strtoul`/`strtol` in base 10 on a C string: `none` if no digits, else
(negative, magnitude, unparsed rest). For src/Signature.cpp:210,256,295, tools/src/main.cpp:95. -/
def scanNum (s : Bytes) : Option (Bool × Nat × Bytes) :=
  let s1 := s.dropWhile isSpace
  let neg := s1.head? = some 45
  let s2 := if s1.head? = some 45 ∨ s1.head? = some 43 then s1.tail else s1
  let ds := s2.takeWhile isDigit
  if ds.isEmpty then none else some (neg, decVal ds, s2.dropWhile isDigit)

/-- `strtoul(s, &ptr, 10)`: (value, rest from `ptr`, sets errno to ERANGE). On overflow the value
is ULONG_MAX; a minus sign negates modulo 2^64; with no digits `ptr = s`.
src/Signature.cpp:210,256, tools/src/main.cpp:95. -/
def strtoul (s : Bytes) : Nat × Bytes × Bool :=
  match scanNum s with
  | none => (0, s, false)
  | some (neg, v, rest) =>
    if v ≥ 2 ^ 64 then (2 ^ 64 - 1, rest, true)
    else ((if neg then (2 ^ 64 - v) % 2 ^ 64 else v), rest, false)

/-- `strtol(s, nullptr, 10)`: (value, sets errno to ERANGE), saturating. src/Signature.cpp:295. -/
def strtol (s : Bytes) : Int × Bool :=
  match scanNum s with
  | none => (0, false)
  | some (false, v, _) => if v ≥ 2 ^ 63 then (2 ^ 63 - 1, true) else (v, false)
  | some (true, v, _) => if v > 2 ^ 63 then (-(2 ^ 63), true) else (-(v : Int), false)

/-- Decimal digits of a number. src/Signatory.cpp:147,159,164,171. -/
def natDec (n : Nat) : Bytes := if h : n < 10 then [UInt8.ofNat (48 + n)]
  else natDec (n / 10) ++ [UInt8.ofNat (48 + n % 10)]
termination_by n

/-- `StringFormat("%lu", v)` for a signed or unsigned 64-bit argument: the value modulo 2^64.
src/Signatory.cpp:147,159,164,171. -/
def fmtLu (v : Int) : Bytes := natDec (v % 2 ^ 64).toNat

end Dkim

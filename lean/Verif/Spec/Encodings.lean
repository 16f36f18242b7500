import Verif.Spec.Ascii
/-!
# Specification: quoted-printable and base64 texts

Independent of the model: the digits are looked up in the alphabets written out below, base64 by numbers
of three bytes.
-/

namespace Dkim.Spec

/-- The hexadecimal digits. -/
def hexAlphabet : Bytes := b!"0123456789ABCDEF"

/-- `=HH` for a byte. -/
def hexPair (c : Byte) : Bytes :=
  [61, hexAlphabet.getD (c.toNat / 16) 0, hexAlphabet.getD (c.toNat % 16) 0]

/-- May be written as itself in a DKIM quoted-printable text: printable ASCII other than `;` and `=`
(and space). -/
def QpSafe (c : Byte) : Prop := 33 ≤ c ∧ c ≤ 126 ∧ c ≠ 59 ∧ c ≠ 61

instance (c : Byte) : Decidable (QpSafe c) := inferInstanceAs (Decidable (_ ∧ _))

/-- A text in DKIM quoted-printable: the safe bytes as they are, the others as `=HH`. -/
def quotedPrintable (x : Bytes) : Bytes := x.flatMap fun c => if QpSafe c then [c] else hexPair c

/-- The base64 alphabet of RFC 4648. -/
def b64Alphabet : Bytes := b!"ABCDEFGHIJKLMNOPQRSTUVWXYZabcdefghijklmnopqrstuvwxyz0123456789+/"

/-- The digit for six bits. -/
def b64Digit (n : Nat) : Byte := b64Alphabet.getD (n % 64) 0

/-- Base64 (RFC 4648, section 4): three bytes are one number of 24 bits, written as four digits of 6 bits;
one or two remaining bytes are filled up with zero bits, and the digits that carry none of their bits become `=`. -/
def base64 : Bytes → Bytes
  | [] => []
  | [a] => let n := a.toNat * 65536; [b64Digit (n / 262144), b64Digit (n / 4096), 61, 61]
  | [a, b] => let n := a.toNat * 65536 + b.toNat * 256
    [b64Digit (n / 262144), b64Digit (n / 4096), b64Digit (n / 64), 61]
  | a :: b :: c :: r => let n := a.toNat * 65536 + b.toNat * 256 + c.toNat
    [b64Digit (n / 262144), b64Digit (n / 4096), b64Digit (n / 64), b64Digit n] ++ base64 r

end Dkim.Spec

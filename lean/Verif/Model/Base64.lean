import Verif.Model.Basic
/-!
# `src/Base64.cpp`

`Base64_Encode`/`Base64_Decode` only drive OpenSSL's base64 BIO. The encoder is modelled by its
documented result (RFC 4648 base64 without line breaks: `BIO_FLAGS_BASE64_NO_NL`). OpenSSL's decoder is an `Env`
field (see `Env.lean`), because its behaviour on text that is not an encoding differs between OpenSSL
versions; `b64DecodeRef` is a concrete decoder that shows the assumption made about it to be
satisfiable.
-/

namespace Dkim

/-- The RFC 4648 alphabet. For what OpenSSL does at src/Base64.cpp:41,55. -/
def b64Char (i : Nat) : Byte :=
  if i < 26 then UInt8.ofNat (65 + i)
  else if i < 52 then UInt8.ofNat (71 + i)
  else if i < 62 then UInt8.ofNat (i - 4)
  else if i = 62 then 43 else 47

/-- `Base64_Encode`, src/Base64.cpp:48-69 (library contract of the base64 BIO). -/
def b64Encode : Bytes → Bytes
  | [] => []
  | [a] => [b64Char (a.toNat / 4), b64Char (a.toNat % 4 * 16), EQ, EQ]
  | [a, b] => [b64Char (a.toNat / 4), b64Char (a.toNat % 4 * 16 + b.toNat / 16),
               b64Char (b.toNat % 16 * 4), EQ]
  | a :: b :: c :: r =>
    b64Char (a.toNat / 4) :: b64Char (a.toNat % 4 * 16 + b.toNat / 16) ::
    b64Char (b.toNat % 16 * 4 + c.toNat / 64) :: b64Char (c.toNat % 64) :: b64Encode r

/-- Value of a base64 character. For what OpenSSL does at src/Base64.cpp:41,55. -/
def b64Val (c : Byte) : Nat :=
  if 65 ≤ c ∧ c ≤ 90 then c.toNat - 65
  else if 97 ≤ c ∧ c ≤ 122 then c.toNat - 71
  else if 48 ≤ c ∧ c ≤ 57 then c.toNat + 4
  else if c = 43 then 62 else 63

/-- A reference decoder (not the code's decoder): groups of four characters with `=` padding.
For what OpenSSL does at src/Base64.cpp:41,55. -/
def b64DecodeRef : Bytes → Bytes
  | a :: b :: c :: d :: r =>
    if c = EQ then [UInt8.ofNat (b64Val a * 4 + b64Val b / 16)]
    else if d = EQ then
      [UInt8.ofNat (b64Val a * 4 + b64Val b / 16), UInt8.ofNat (b64Val b % 16 * 16 + b64Val c / 4)]
    else
      UInt8.ofNat (b64Val a * 4 + b64Val b / 16) :: UInt8.ofNat (b64Val b % 16 * 16 + b64Val c / 4) ::
      UInt8.ofNat (b64Val c % 4 * 64 + b64Val d) :: b64DecodeRef r
  | _ => []

end Dkim

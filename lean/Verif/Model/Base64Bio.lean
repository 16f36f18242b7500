import Verif.Model.Basic
/-!
# `src/Base64.cpp`: the loops around OpenSSL's BIOs

`Model/Base64.lean` and `Env.b64dec` state the overall result of `Base64_Encode` and `Base64_Decode`; here the two functions themselves are
modelled on top of the BIOs: the conversion of the size to `int`, the read loops with their buffers, and the dropped line feeds.
-/

namespace Dkim

/-- OpenSSL's base64 filter BIO with `BIO_FLAGS_BASE64_NO_NL`, on a memory BIO. src/Base64.cpp:31-34,51-54. -/
structure Bio where
  /-- content of the memory BIO after these bytes were written through the filter and flushed -/
  encode : Bytes → Bytes
  /-- all that can be read through the filter when this is the content of the memory BIO -/
  decode : Bytes → Bytes
  /-- how much the k-th `BIO_read` is willing to deliver; limited by the buffer, and at least one byte if there is one -/
  chunk : Nat → Nat

/-- Conversion of `size_t` to `int` in the call of `BIO_write`, src/Base64.cpp:35,55. -/
def toInt32 (n : Nat) : Int := if n % 2 ^ 32 < 2 ^ 31 then (n % 2 ^ 32 : Nat) else (n % 2 ^ 32 : Nat) - 2 ^ 32

/-- `BIO_write(b, data.c_str(), data.size())`, src/Base64.cpp:35,55: the bytes that are written; a length that is not positive writes nothing. -/
def bioWrite (d : Bytes) : Bytes := d.take (toInt32 d.length).toNat

/-- `while ((r = BIO_read(...)) > 0) result.append(b, r)`, src/Base64.cpp:41-42: `k` counts the calls, `buf` is the size of the buffer, `s` what
is left to be read. -/
def readAll (chunk : Nat → Nat) (buf : Nat) : Nat → Nat → Bytes → Bytes → Except Err Bytes
  | 0, _, _, _ => .error .hang
  | n + 1, k, s, out =>
    let r := min (min buf (max 1 (chunk k))) s.length
    if r = 0 then .ok out else readAll chunk buf n (k + 1) (s.drop r) (out ++ s.take r)

/-- The same loop with `if (buf[r - 1] == '\n') --r;`, src/Base64.cpp:61-65. -/
def readChomp (chunk : Nat → Nat) (buf : Nat) : Nat → Nat → Bytes → Bytes → Except Err Bytes
  | 0, _, _, _ => .error .hang
  | n + 1, k, s, out =>
    let r := min (min buf (max 1 (chunk k))) s.length
    if r = 0 then .ok out
    else
      let b := s.take r
      let b' := if b.getLast? = some LF then b.dropLast else b
      readChomp chunk buf n (k + 1) (s.drop r) (out ++ b')

/-- `Base64_Decode`, src/Base64.cpp:28-46. -/
def base64Decode (bio : Bio) (d : Bytes) : Except Err Bytes :=
  let s := bio.decode (bioWrite d)
  readAll bio.chunk 1024 (s.length + 1) 0 s []

/-- `Base64_Encode`, src/Base64.cpp:48-69. -/
def base64Encode (bio : Bio) (d : Bytes) : Except Err Bytes :=
  let s := bio.encode (bioWrite d)
  readChomp bio.chunk 256 (s.length + 1) 0 s []

end Dkim

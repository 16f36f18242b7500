import Verif.Spec.Ascii
import Verif.Spec.Encodings
/-!
# Specification: RFC 2047 encoded words
-/

namespace Dkim.Spec

/-- The "Q" encoding: SP becomes `_`; `?`, `_`, `=`, `;` and everything that is not printable ASCII
becomes `=HH`. -/
def qEncode (x : Bytes) : Bytes :=
  x.flatMap (fun c => if c = 32 then [95] else
    if QpSafe c ∧ c ≠ 63 ∧ c ≠ 95 then [c] else hexPair c)

/-- An encoded word carrying the bytes `data`; `base64` chooses between B and Q, `small` writes the
encoding letter in lower case. -/
structure Word where
  charset : Bytes
  base64 : Bool
  small : Bool
  data : Bytes

/-- The encoding letter. -/
def Word.letter (w : Word) : Bytes :=
  match w.base64, w.small with
  | true, false => b!"B" | true, true => b!"b" | false, false => b!"Q" | false, true => b!"q"

/-- `=?charset?letter?data?=`. -/
def Word.text (w : Word) : Bytes :=
  b!"=?" ++ w.charset ++ b!"?" ++ w.letter ++ b!"?" ++
    (if w.base64 then Spec.base64 w.data else qEncode w.data) ++ b!"?="

/-- White space between encoded words: SP, TAB and CRLF in any order. -/
inductive LinearWS : Bytes → Prop
  | nil : LinearWS []
  | wsp (w r) : isWSP w = true → LinearWS r → LinearWS (w :: r)
  | crlf (r) : LinearWS r → LinearWS (CR :: LF :: r)

end Dkim.Spec

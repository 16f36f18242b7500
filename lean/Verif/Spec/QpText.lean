import Verif.Spec.Encodings
/-!
# Specification: texts the quoted-printable decoder accepts
-/

namespace Dkim.Spec

/-- `QpText q text bytes`: `text` stands for `bytes`. Printable ASCII other than `;` and `=` stands for itself, `=HH` (upper case) for a byte,
SP, TAB and CRLF before SP or TAB for nothing. In the Q encoding (`q`) the underscore stands for a space. -/
inductive QpText (q : Bool) : Bytes → Bytes → Prop
  | nil : QpText q [] []
  | underscore (r o) : q = true → QpText q r o → QpText q (95 :: r) (32 :: o)
  | safe (c r o) : QpSafe c → (q = true → c ≠ 95) → QpText q r o → QpText q (c :: r) (c :: o)
  | hex (c r o) : QpText q r o → QpText q (hexPair c ++ r) (c :: o)
  | wsp (w r o) : isWSP w = true → QpText q r o → QpText q (w :: r) o
  | fold (w r o) : isWSP w = true → QpText q (w :: r) o → QpText q (13 :: 10 :: w :: r) o

end Dkim.Spec

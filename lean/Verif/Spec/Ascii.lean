import Verif.Model.Basic
/-!
# Specification: classes of ASCII bytes

Deliberately not the functions of the model (`Dkim.isWSP`, `Dkim.lower`, ...): the specifications use these, so
that a wrong table in the code shows up as a difference.
-/

namespace Dkim.Spec

/-- Space or tab. -/
def isWSP (c : Byte) : Bool := c == 32 || c == 9

/-- Space, tab, CR or LF. -/
def isLoose (c : Byte) : Bool := c == 32 || c == 9 || c == 13 || c == 10

/-- The white space of the C locale: space, TAB, LF, VT, FF, CR. -/
def isSpace (c : Byte) : Bool := c == 32 || (9 ≤ c && c ≤ 13)

/-- A letter or digit. -/
def isAlnum (c : Byte) : Bool := (65 ≤ c && c ≤ 90) || (97 ≤ c && c ≤ 122) || (48 ≤ c && c ≤ 57)

/-- An upper-case letter becomes the lower-case letter, everything else stays. -/
def toLower (c : Byte) : Byte := if 65 ≤ c ∧ c ≤ 90 then c + 32 else c

/-- A text in lower case. -/
def lower (s : Bytes) : Bytes := s.map toLower

end Dkim.Spec

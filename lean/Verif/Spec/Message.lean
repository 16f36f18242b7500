import Verif.Spec.Ascii
import Verif.Model.MailParser
/-!
# Specification: the header block of a message
-/

namespace Dkim.Spec

/-- `HeadText pos text ls off`: the text starting at position `pos` of the message begins with the
header lines `ls` (without their line ends, which are LF or CRLF), and the body starts at position
`off`, right after the first empty line; `off = -1` if the text ends before an empty line. -/
inductive HeadText : Nat → Bytes → List Bytes → Int → Prop
  | none (pos) : HeadText pos [] [] (-1)
  | blankLF (pos r) : HeadText pos (LF :: r) [] (pos + 1 : Nat)
  | blankCRLF (pos r) : HeadText pos (CR :: LF :: r) [] (pos + 2 : Nat)
  | blankEnd (pos) : HeadText pos [CR] [] (-1)
  | lastLine (pos l) : l ≠ [] → LF ∉ l → l.getLast? ≠ some CR → HeadText pos l [l] (-1)
  | lastLineCR (pos l) : l ≠ [] → LF ∉ l → HeadText pos (l ++ [CR]) [l] (-1)
  | lineLF (pos l r ls off) : l ≠ [] → LF ∉ l → l.getLast? ≠ some CR →
      HeadText (pos + l.length + 1) r ls off → HeadText pos (l ++ LF :: r) (l :: ls) off
  | lineCRLF (pos l r ls off) : l ≠ [] → LF ∉ l →
      HeadText (pos + l.length + 2) r ls off → HeadText pos (l ++ CR :: LF :: r) (l :: ls) off

/-- The line continues the field above it. -/
def isCont (l : Bytes) : Bool :=
  match l with
  | [] => false
  | c :: _ => isWSP c

/-- Group header lines into fields: a continuation line belongs to the field above it. -/
def groupLines : List Bytes → List (List Bytes)
  | [] => []
  | [l] => [[l]]
  | l :: l2 :: ls =>
    if isCont l2 then
      match groupLines (l2 :: ls) with
      | [] => [[l]]
      | g :: gs => (l :: g) :: gs
    else [l] :: groupLines (l2 :: ls)

/-- Join lines by CRLF. -/
def joinLines : List Bytes → Bytes
  | [] => []
  | [l] => l
  | l :: l2 :: ls => l ++ CRLF ++ joinLines (l2 :: ls)

/-- `s` with white space (SP, TAB) removed at both ends. -/
def trimWSP (s : Bytes) : Bytes := ((s.dropWhile isWSP).reverse.dropWhile isWSP).reverse

/-- The field made of these lines: its text, the name before the first colon, the position after it
(no name and position 0 without a colon). -/
def mkField (ls : List Bytes) : Header :=
  match (joinLines ls).findIdx? (· == COLON) with
  | none => { name := [], header := joinLines ls, valueOffset := 0 }
  | some k => { name := trimWSP ((joinLines ls).take k), header := joinLines ls, valueOffset := k + 1 }

/-- A prefix of a message that ends with an empty line. -/
def EndsHead (p : Bytes) : Prop :=
  ∃ hb, (hb = [] ∨ hb.getLast? = some LF) ∧ (p = hb ++ [LF] ∨ p = hb ++ CRLF)

end Dkim.Spec

import Verif.Model.Basic
import Verif.Spec.Ascii
/-!
# Specification: the canonical body (RFC 6376, 3.4.3 and 3.4.4)

Independent of the streaming implementation.
-/

namespace Dkim.Spec

/-- Split a text at every LF; the result has one more element than there are LFs. -/
def splitLF : Bytes → List Bytes
  | [] => [[]]
  | c :: r =>
    if c = LF then [] :: splitLF r
    else match splitLF r with
      | [] => [[c]]
      | l :: ls => (c :: l) :: ls

/-- Remove the longest suffix of elements satisfying `p`. -/
def rstrip {α : Type} (p : α → Bool) (l : List α) : List α := (l.reverse.dropWhile p).reverse

/-- Replace every maximal run of SP/TAB by one SP. -/
def squeeze : Bytes → Bytes
  | [] => []
  | c :: r =>
    if isWSP c then
      match r with
      | [] => [SP]
      | d :: _ => if isWSP d then squeeze r else SP :: squeeze r
    else c :: squeeze r

/-- Canonical form of one line. -/
def canonLine : CanonMode → Bytes → Bytes
  | .simple, l => l
  | .relaxed, l => rstrip isWSP (squeeze l)

/-- The canonical lines of a body: CRs deleted, split at LF, each line canonicalized, empty lines at
the end removed. -/
def canonLines (mode : CanonMode) (body : Bytes) : List Bytes :=
  rstrip List.isEmpty ((splitLF (body.filter (· ≠ CR))).map (canonLine mode))

/-- The canonical body: every line followed by CRLF; an empty body is CRLF in simple mode. -/
def canonBody (mode : CanonMode) (body : Bytes) : Bytes :=
  match canonLines mode body, mode with
  | [], .simple => CRLF
  | ls, _ => ls.flatMap (· ++ CRLF)

/-- The body in a message, given the offset the message parser reports (-1: there is no body). -/
def bodyPart (data : Bytes) (off : Int) : Bytes := if off = -1 then [] else data.drop off.toNat

/-- Cut at `n` bytes if there is a limit. -/
def cap (limit : Bool) (n : Nat) (l : Bytes) : Bytes := if limit then l.take n else l

/-- Changes to a body that DKIM treats as immaterial: the least equivalence containing
deletion of a CR, an empty line at the end, and in relaxed mode: the amount and kind of white space
in a run, white space before an LF, white space at the very end. -/
inductive BodyEquiv (mode : CanonMode) : Bytes → Bytes → Prop
  | refl (a) : BodyEquiv mode a a
  | symm {a b} : BodyEquiv mode a b → BodyEquiv mode b a
  | trans {a b c} : BodyEquiv mode a b → BodyEquiv mode b c → BodyEquiv mode a c
  | cr (a b) : BodyEquiv mode (a ++ CR :: b) (a ++ b)
  | blankLine (a) : BodyEquiv mode (a ++ [LF]) a
  | wspRun (a b w w') : mode = .relaxed → isWSP w → isWSP w' →
      BodyEquiv mode (a ++ w :: w' :: b) (a ++ w :: b)
  | wspKind (a b w w') : mode = .relaxed → isWSP w → isWSP w' →
      BodyEquiv mode (a ++ w :: b) (a ++ w' :: b)
  | wspEol (a b w) : mode = .relaxed → isWSP w → BodyEquiv mode (a ++ w :: LF :: b) (a ++ LF :: b)
  | wspEnd (a w) : mode = .relaxed → isWSP w → BodyEquiv mode (a ++ [w]) a

end Dkim.Spec

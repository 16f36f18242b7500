import Verif.Spec.Ascii
import Verif.Spec.Body
/-!
# Specification: the relaxed canonical header field (RFC 6376, 3.4.2)
-/

namespace Dkim.Spec

/-- Every LF is part of CRLF followed by SP or TAB: the text is one header field, possibly folded. -/
def WellFolded (s : Bytes) : Prop :=
  ∀ a b, s = a ++ LF :: b → (∃ a', a = a' ++ [CR]) ∧ (∃ w b', b = w :: b' ∧ isWSP w = true)

/-- Some CR is not followed by LF. -/
def HasBareCR (s : Bytes) : Prop := ∃ a b, s = a ++ CR :: b ∧ b.head? ≠ some LF

/-- Delete the line breaks. -/
def unfold (s : Bytes) : Bytes := s.filter (fun c => c ≠ CR && c ≠ LF)

/-- Text before the first colon. -/
def fieldName (s : Bytes) : Bytes := s.takeWhile (· ≠ COLON)
/-- Text after the first colon. -/
def fieldValue (s : Bytes) : Bytes := (s.dropWhile (· ≠ COLON)).tail

/-- The relaxed form: name in lower case without trailing white space, colon, value without leading
and trailing white space; both unfolded, with every run of white space replaced by one SP. -/
def canonHeader (s : Bytes) : Bytes :=
  lower (canonLine .relaxed (unfold (fieldName s))) ++ COLON ::
    (canonLine .relaxed (unfold (fieldValue s))).dropWhile isWSP

/-- Only SP, TAB, CR, LF. -/
def Blank (s : Bytes) : Prop := ∀ c ∈ s, isLoose c = true

/-- No CR, LF or TAB, no two adjacent spaces, no space at the end. -/
def CleanText (t : Bytes) : Prop :=
  (∀ c ∈ t, c ≠ CR ∧ c ≠ LF ∧ c ≠ TAB) ∧ (∀ a b, t ≠ a ++ SP :: SP :: b) ∧ t.getLast? ≠ some SP

end Dkim.Spec

import Verif.Spec.Ascii
/-!
# Vocabulary for the running time of the parsers
-/

namespace Dkim
namespace Spec

/-- FoldsOnly text: every CRLF is followed by a space or a tab. A header field of a parsed message is such a
text. -/
def FoldsOnly (text : Bytes) : Prop :=
  ∀ before after, text = before ++ CRLF ++ after → ∃ c rest, after = c :: rest ∧ isWSP c = true

/-- Every CR stands in a fold: it is followed by LF and a space or tab. -/
def CRFolds (text : Bytes) : Prop :=
  ∀ before after, text = before ++ CR :: after → ∃ c rest, after = LF :: c :: rest ∧ isWSP c = true

/-- `n` spaces. -/
def spaces (n : Nat) : Bytes := List.replicate n SP

end Spec
end Dkim

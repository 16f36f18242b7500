import Verif.Model.Locale
import Verif.Spec.TagText
import Verif.Spec.QpText
import Verif.Spec.Header
import Verif.Spec.Message
/-!
# Specification: locales and ASCII texts
-/

namespace Dkim.Spec

/-- The locale treats the ASCII bytes as the "C" locale does; what it does with bytes from 128 on is left open.
(True of the locales of most languages; not of those of Turkish and Azerbaijani, where `I` is not the upper-case
letter of `i`.) -/
structure AsciiLocale (L : Locale) : Prop where
  lower : ∀ c : Byte, c < 128 → L.lower c = Spec.toLower c
  space : ∀ c : Byte, c < 128 → L.space c = Spec.isSpace c

/-- The locale treats every byte of the text as the "C" locale does. -/
def SameIn (L : Locale) (s : Bytes) : Prop := ∀ c ∈ s, L.lower c = Spec.toLower c ∧ L.space c = Spec.isSpace c

/-- Only ASCII bytes. -/
def Ascii (s : Bytes) : Prop := ∀ c ∈ s, c < 128

/-- The same, for the name of the field (the text before its first colon). -/
def SameName (L : Locale) (f : Bytes) : Prop := COLON ∈ f → SameIn L (fieldName f)

/-- The same, for the names of all fields of the message. -/
def SameNames (L : Locale) (d : Bytes) : Prop :=
  ∀ ls off, HeadText 0 d ls off → ∀ g ∈ groupLines ls, SameName L (joinLines g)

/-- The same, for the identity (i=, decoded) of a signature with this tag list. -/
def SameIdentity (L : Locale) (tags : Bytes) : Prop :=
  ∀ es e mail, TagText 0 tags es → (es.map Prod.fst).Nodup → (b!"i", e) ∈ es → QpText false e.value mail → SameIn L mail

end Dkim.Spec

import Verif.Model.Env
import Verif.Spec.EncodedWord
import Verif.Spec.QpText
import Verif.Spec.Tokens
/-!
# Specification: what decoding encoded words does to any text
-/

namespace Dkim.Spec

/-- `=?charset?encoding?data?=`; none of the parts contains a question mark. -/
structure EncodedWord (b cs enc dat : Bytes) : Prop where
  text : b = 61 :: 63 :: (cs ++ 63 :: (enc ++ 63 :: (dat ++ [63, 61])))
  charset : 63 ∉ cs
  encoding : 63 ∉ enc
  data : 63 ∉ dat

/-- A text with which some encoded word starts. -/
def Starts (b : Bytes) : Prop := ∃ x cs enc dat, EncodedWord (b ++ x) cs enc dat

/-- `b` is the longest beginning of `b ++ r` with which an encoded word starts. -/
def Longest (b r : Bytes) : Prop := Starts b ∧ ∀ c r', r = c :: r' → ¬ Starts (b ++ [c])

/-- Nothing or white space follows. -/
def BlankNext (r : Bytes) : Prop := ∀ c ∈ r.head?, c = 32 ∨ c = 13 ∨ c = 10 ∨ c = 9

/-- The bytes an encoded word stands for (if its encoding is known and its data are legal). -/
def Stands (E : Env) (b r x : Bytes) : Prop := ∃ cs enc dat, EncodedWord b cs enc dat ∧ BlankNext r ∧
  ((enc = b!"q" ∨ enc = b!"Q") ∧ QpText true dat x ∨ (enc = b!"b" ∨ enc = b!"B") ∧ x = E.b64dec dat)

/-- `EwText E s o`: text `s` is decoded to `o`. White space (SP, TAB, CRLF) before an encoded word and at the end is dropped; elsewhere its SP and
TAB are kept and its CRLF dropped; what looks like the beginning of an encoded word but is none is kept. -/
inductive EwText (E : Env) : Bytes → Bytes → Prop
  | done (w) : LinearWS w → EwText E w []
  | char (w c r o) : LinearWS w → c ≠ 61 → isWSP c = false → c ≠ 13 → EwText E r o →
      EwText E (w ++ c :: r) (w.filter isWSP ++ c :: o)
  | word (w b r o x) : LinearWS w → b ≠ [] → Longest b r → Stands E b r x → EwText E r o → EwText E (w ++ (b ++ r)) (x ++ o)
  | other (w b r o) : LinearWS w → b ≠ [] → Longest b r → (∀ x, ¬ Stands E b r x) → EwText E r o →
      EwText E (w ++ (b ++ r)) (w.filter isWSP ++ (b ++ o))

/-- `r` is what remains of `s` after the leading folding white space. -/
inductive AfterFWS : Bytes → Bytes → Prop
  | stop (s) : ReadsFWS s [] s → AfterFWS s s
  | step (s w r r') : ReadsFWS s w r → w ≠ [] → AfterFWS r r' → AfterFWS s r'

end Dkim.Spec

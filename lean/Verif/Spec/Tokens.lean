import Verif.Model.Basic
import Verif.Spec.Ascii
/-!
# Specification: folding white space and colon-separated lists
-/

namespace Dkim.Spec

/-- Every byte is SP or TAB. -/
def AllWSP (s : Bytes) : Prop := ∀ c ∈ s, isWSP c = true

/-- One FWS as the tokenizer understands it: WSP* or WSP* CRLF WSP+. -/
def IsFWS (s : Bytes) : Prop :=
  AllWSP s ∨ ∃ a b, AllWSP a ∧ AllWSP b ∧ b ≠ [] ∧ s = a ++ CRLF ++ b

/-- Any sequence of WSP and folds (CRLF followed by WSP). -/
inductive FwsRun : Bytes → Prop
  | nil : FwsRun []
  | wsp (w r) : isWSP w = true → FwsRun r → FwsRun (w :: r)
  | fold (w r) : isWSP w = true → FwsRun r → FwsRun (CR :: LF :: w :: r)

/-- The text does not start with a byte satisfying `p`. -/
def NotHead (p : Byte → Bool) (s : Bytes) : Prop := ∀ c ∈ s.head?, p c = false

/-- Texts that may follow white space: the end, or a byte that is neither WSP nor CR. -/
def Stop (s : Bytes) : Prop := NotHead (fun c => isWSP c || c == CR) s

/-- A clean list value: starts and ends with a byte other than white space, CR, LF and colon;
inside there may be folding white space. -/
inductive Clean : Bytes → Prop
  | one (c) : isLoose c = false → c ≠ COLON → Clean [c]
  | cons (c r) : isLoose c = false → c ≠ COLON → Clean r → Clean (c :: r)
  | gap (c f r) : isLoose c = false → c ≠ COLON → FwsRun f → Clean r → Clean (c :: (f ++ r))

/-- A list item: white space, value, white space. -/
structure Item where
  pre : Bytes
  val : Bytes
  post : Bytes

/-- The text of an item. -/
def Item.text (i : Item) : Bytes := i.pre ++ i.val ++ i.post

/-- Items joined by colons. -/
def joinColon : List Bytes → Bytes
  | [] => []
  | [x] => x
  | x :: y :: r => x ++ COLON :: joinColon (y :: r)

end Dkim.Spec

namespace Dkim.Spec

/-- What reading one FWS from `s` consumes (`w`) and leaves (`r`): all leading WSP unless a CR
follows; a fold with all WSP around it; nothing at all when CRLF is not followed by WSP. -/
inductive ReadsFWS : Bytes → Bytes → Bytes → Prop
  | plain (w r) : AllWSP w → Stop r → ReadsFWS (w ++ r) w r
  | fold (a b r) : AllWSP a → AllWSP b → b ≠ [] → NotHead isWSP r →
      ReadsFWS (a ++ CRLF ++ b ++ r) (a ++ CRLF ++ b) r
  | unwind (a r) : AllWSP a → NotHead isWSP r → ReadsFWS (a ++ CRLF ++ r) [] (a ++ CRLF ++ r)

/-- After leading WSP there is a CR that is not followed by LF. -/
def BareCR (s : Bytes) : Prop := ∃ a r, s = a ++ CR :: r ∧ AllWSP a ∧ NotHead (· == LF) r

end Dkim.Spec

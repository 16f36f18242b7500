import Verif.Spec.EwText
/-!
# Specification: colon-separated lists, for every text
-/

namespace Dkim.Spec

/-- Every CR is followed by LF. -/
def CrOk (s : Bytes) : Prop := ∀ a r, s = a ++ CR :: r → r.head? = some LF

/-- `v` is `seg` without the longest folding white space at its end. -/
def WithoutTail (seg v : Bytes) : Prop :=
  ∃ post, seg = v ++ post ∧ FwsRun post ∧ ∀ p q, v = p ++ q → q ≠ [] → ¬ FwsRun (q ++ post)

/-- The piece `seg` between two colons stands for the value `v`: no CR without LF; the folding white space around the value is dropped. -/
structure ValueText (seg v : Bytes) : Prop where
  piece : COLON ∉ seg
  cr : CrOk seg
  value : ∃ s, AfterFWS seg s ∧ WithoutTail s v
  nonempty : v ≠ []

/-- `ListText s vs`: `s` is a list of such pieces, separated by colons; nothing but folding white space after the last colon (or at all) counts
as no value. -/
inductive ListText : Bytes → List Bytes → Prop
  | done (w) : FwsRun w → ListText w []
  | last (seg v) : ValueText seg v → ListText seg [v]
  | cons (seg v s vs) : ValueText seg v → ListText s vs → ListText (seg ++ COLON :: s) (v :: vs)

end Dkim.Spec

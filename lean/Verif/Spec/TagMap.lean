import Verif.Model.TagMap
import Verif.Spec.TagText
/-!
# Specification: the order in which the tags of a list are visited
-/

namespace Dkim.Spec

/-- The dictionary order of byte strings: a proper prefix comes first, otherwise the first byte
that differs decides. -/
def NameBefore (a b : Bytes) : Prop :=
  (∃ c t, b = a ++ c :: t) ∨
  ∃ p x y s t, a = p ++ x :: s ∧ b = p ++ y :: t ∧ x.toNat < y.toNat

/-- Each name in the list comes before all later ones. -/
def AscendingNames (m : List (Bytes × TagEntry)) : Prop := (m.map Prod.fst).Pairwise NameBefore

/-- The tags as a reader of the text sees them: names and values, without positions. -/
def tagPairs (m : List (Bytes × TagEntry)) : List (Bytes × Bytes) := m.map fun p => (p.1, p.2.value)

end Dkim.Spec

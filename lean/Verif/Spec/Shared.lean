import Verif.Model.Shared
/-!
# Specification: what a stream still holds
-/

namespace Dkim

/-- The bytes a reader of the stream would still get: those after the current position, none if an end-of-file or
error flag is set. -/
def Spec.pending (s : IStream) : Bytes := if s.eof || s.fail then [] else s.data.drop s.pos

/-- The objects at the beginning: a readable stream over `d`, nothing constructed yet. -/
def Spec.opened (d : Bytes) : Shared := { stream := { data := d } }

/-- The program does not call `CreateSignature` on the `j`th `Signatory`. -/
def Spec.SignsNot (E : Env) (j : Nat) (us : List (Use E)) : Prop := ∀ o clock, Use.createSignature j o clock ∉ us

end Dkim

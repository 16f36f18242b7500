import Verif.Model.DigestFaults
import Verif.Spec.Body
/-!
# Specification: digests computed by functions that may fail
-/

namespace Dkim.Spec

/-- Those pieces whose update succeeds, if the update of the first one is call number `k`. -/
def kept (update : Nat → Bool) : Nat → List Bytes → List Bytes
  | _, [] => []
  | k, d :: ds => if update k then d :: kept update (k + 1) ds else kept update (k + 1) ds

/-- The digest of a message given in pieces, calls number `k`, `k + 1`, ...: create, initialize, one update for each piece,
final. Nothing if the first two or the last one fail. -/
def lossyDigest (E : Env) (L : DigestLib) (k : Nat) (da : DigestAlg) (pieces : List Bytes) : Option Bytes :=
  if L.create k ∧ L.init (k + 1) ∧ L.final (k + 2 + pieces.length) then
    some (E.hash da (kept L.update (k + 2) pieces).flatten)
  else none

/-- No update fails. -/
def NoUpdateFails (L : DigestLib) : Prop := ∀ k, L.update k = true

/-- No call fails. -/
def Faultless (L : DigestLib) : Prop :=
  ∀ k, L.create k = true ∧ L.init k = true ∧ L.update k = true ∧ L.copy k = true ∧ L.final k = true

/-- The outcome without the number of calls. -/
def ending : EStateM.Result Err Nat α → Except Err α
  | .ok a _ => .ok a
  | .error e _ => .error e

end Dkim.Spec

import Verif.Model.Temporaries
/-!
# Specification: what a call does to the temporary objects
-/

namespace Dkim.Spec

/-- Objects are numbered in the order of their creation. -/
def Numbered (h : TmpObjects) : Prop := ∀ p ∈ h.live, p.1 < h.next

/-- The outcome of a call with the temporary objects forgotten. -/
def outcome : EStateM.Result Err (σ × TmpObjects) α → EStateM.Result Err σ α
  | .ok a w => .ok a w.1
  | .error e w => .error e w.1

/-- The temporary objects after a call. -/
def leftover : EStateM.Result Err (σ × TmpObjects) α → TmpObjects
  | .ok _ w => w.2
  | .error _ w => w.2

/-- Everything that was created since has been freed, nothing else has, and no object was used or
freed while it was not alive. -/
def AllFreed (before after : TmpObjects) : Prop :=
  after.live = before.live ∧ after.misused = before.misused

/-- One digest context that was created since has not been freed; otherwise as above. -/
def OneContextLost (before after : TmpObjects) : Prop :=
  ∃ i, before.next ≤ i ∧ i < after.next ∧ after.live = (i, .digestCtx) :: before.live ∧
    after.misused = before.misused

/-- A result with the object afterwards, as the computations above have it. -/
def asOutcome : Except Err α × σ → EStateM.Result Err σ α
  | (.ok a, st) => .ok a st
  | (.error e, st) => .error e st

end Dkim.Spec

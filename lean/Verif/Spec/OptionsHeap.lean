import Verif.Model.OptionsHeap
/-!
# Specification: programs with several options objects
-/

namespace Dkim

/-- The setter calls made on the `i`th object, in order. -/
def Spec.callsTo {E : Env} (i : Nat) (ops : List (HeapOp E)) : List (OptOp E) :=
  ops.filterMap (fun op => match op with
    | .call k c => if k = i then some c else none
    | _ => none)

/-- No object is assigned to another. -/
def Spec.NoAssign {E : Env} (ops : List (HeapOp E)) : Prop := ∀ i j, HeapOp.assign i j ∉ ops

/-- The object whose first signature the calls on object `i` for the first signature reach after the program: its own
until it is assigned to; from then on the one that the source's calls reached at that moment. -/
def Spec.reaches {E : Env} (ops : List (HeapOp E)) : Nat → Nat :=
  ops.foldl (fun P op => match op with
    | .assign a b => fun i => if i = a then P b else P i
    | _ => P) id

end Dkim

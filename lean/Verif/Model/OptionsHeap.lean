import Verif.Model.SignatoryOptions
/-!
# Several `SignatoryOptions` objects and their assignment

The setters and getters of a `SignatoryOptions` object for the first signature go through six pointers
(src/SignatoryOptions.hpp:138-143), which the constructor points at the members of the first element of the object's own
list of signatures (src/SignatoryOptions.cpp:30-37). The copy constructor is declared private and not defined
(src/SignatoryOptions.hpp:136); the assignment operator is not declared, so the compiler provides the one that assigns
member by member: `a = b;` and `a = SignatoryOptions();` compile, and the pointers are copied.
-/

namespace Dkim

/-- An object: its members, and the number of the object whose first list element the six pointers point at (they
always point at members of the same element). src/SignatoryOptions.hpp:138-164. -/
structure OptObj (E : Env) where
  opts : Options E
  ptr : Nat

/-- The objects made so far, `none` once destroyed. src/SignatoryOptions.hpp:138-164. -/
abbrev OptHeap (E : Env) := List (Option (OptObj E))

/-- What a program does with the objects. src/SignatoryOptions.hpp:70-165, src/SignatoryOptions.cpp:28-274. -/
inductive HeapOp (E : Env)
  /-- a new object -/
  | new
  /-- a setter call on the `i`th object (or on a signature it holds) -/
  | call (i : Nat) (op : OptOp E)
  /-- `a = b`, object numbers `i` and `j` -/
  | assign (i j : Nat)
  /-- the end of an object's life -/
  | destroy (i : Nat)

/-- The live object at a number. src/SignatoryOptions.hpp:138-164. -/
def OptHeap.at {E : Env} (w : OptHeap E) (i : Nat) : Option (OptObj E) := (w[i]?).join

/-- A setter call, src/SignatoryOptions.cpp:90-274: those for the first signature write where the pointers point (a
pointer into a destroyed object: undefined behaviour), all others into the object's own members. A reference to a
signature that is no longer in the list (its list was assigned a shorter one) is undefined behaviour too. Result: the
exception thrown, if any, and the objects afterwards. -/
def OptHeap.call {E : Env} (w : OptHeap E) (i : Nat) (op : OptOp E) : Except Err (Option Err × OptHeap E) :=
  match w.at i with
  | none => .error .ub
  | some a =>
    match op with
    | .sig none s =>
      match w.at a.ptr with
      | none => .error .ub
      | some b => .ok ((runFirst s b.opts).1, w.set a.ptr (some { b with opts := (runFirst s b.opts).2 }))
    | .sig (some k) s =>
      if k < a.opts.more.length then
        .ok ((OptOp.run a.opts (.sig (some k) s)).1, w.set i (some { a with opts := (OptOp.run a.opts (.sig (some k) s)).2 }))
      else .error .ub
    | op => .ok ((op.run a.opts).1, w.set i (some { a with opts := (op.run a.opts).2 }))

/-- One step. The implicit assignment operator copies every member (`std::list::operator=` copies the elements
into the list's own nodes; the pointers of the target are overwritten).
src/SignatoryOptions.hpp:70-165, src/SignatoryOptions.cpp:28-274. -/
def OptHeap.step {E : Env} (w : OptHeap E) : HeapOp E → Except Err (Option Err × OptHeap E)
  | .new => .ok (none, w ++ [some { opts := {}, ptr := w.length }])
  | .call i op => w.call i op
  | .assign i j =>
    match w.at i, w.at j with
    | some _, some b => .ok (none, w.set i (some b))
    | _, _ => .error .ub
  | .destroy i =>
    match w.at i with
    | none => .error .ub
    | some _ => .ok (none, w.set i none)

/-- A program, exceptions caught: the objects at its end.
src/SignatoryOptions.hpp:70-165, src/SignatoryOptions.cpp:28-274. -/
def OptHeap.run {E : Env} (w : OptHeap E) : List (HeapOp E) → Except Err (OptHeap E)
  | [] => .ok w
  | op :: ops =>
    match w.step op with
    | .error e => .error e
    | .ok (_, w') => w'.run ops

/-- `GetDomain()`, src/SignatoryOptions.hpp:101-102: read through the pointer. -/
def OptHeap.getDomain {E : Env} (w : OptHeap E) (i : Nat) : Except Err Bytes :=
  match w.at i with
  | none => .error .ub
  | some a =>
    match w.at a.ptr with
    | none => .error .ub
    | some b => .ok b.opts.first.domain

/-- What `CreateSignature` uses of the object: its own list (`GetAdditionalSignatures()`, src/Signatory.cpp:141) and its
other members. Only the algorithm written into a= is read through the pointer (src/Signatory.cpp:147, 150), see `getAlg`. -/
def OptHeap.options {E : Env} (w : OptHeap E) (i : Nat) : Option (Options E) := (w.at i).map (·.opts)

/-- `GetSignatureAlgorithm()`, src/SignatoryOptions.hpp:107-108: read through the pointer. -/
def OptHeap.getAlg {E : Env} (w : OptHeap E) (i : Nat) : Except Err SigAlg :=
  match w.at i with
  | none => .error .ub
  | some a =>
    match w.at a.ptr with
    | none => .error .ub
    | some b => .ok b.opts.first.alg

end Dkim

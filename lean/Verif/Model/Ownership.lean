import Verif.Model.Basic
/-!
# Ownership of RSA objects

`AdditionalSignaturesOptions` (and through it `SignatoryOptions`) and `PublicKey` hold raw `RSA*` pointers. This file
models only who holds and frees which RSA object; the rest of these classes is modelled in `SignatoryOptions.lean`
and `PublicKey.lean`. An object holding a pointer is called a holder. RSA objects loaded by the library are numbered in
the order in which they are made (the temporary `EVP_PKEY` is released at once in all cases, src/SignatoryOptions.cpp:118-119,
src/PublicKey.cpp:137-138, so that exactly one reference remains); those made by the caller have names.
-/

namespace Dkim.Own

/-- An RSA object: made by the library or by the caller. src/SignatoryOptions.hpp:62-63, src/PublicKey.hpp:82. -/
inductive Key
  | lib (n : Nat)
  | caller (n : Nat)
  deriving DecidableEq, Repr

/-- The pointer and the flag of a holder; src/SignatoryOptions.hpp:62-63, initial values src/SignatoryOptions.cpp:276-281. A
`PublicKey` (src/PublicKey.hpp:82) has no flag and always frees: the flag stays true. -/
structure Slot where
  key : Option Key := none
  free : Bool := true
  deriving DecidableEq, Repr

/-- A holder: the object it is part of (a `SignatoryOptions` holds a list of them), whether it is a `PublicKey`, and its contents,
`none` once destroyed. src/SignatoryOptions.hpp:62-63, src/PublicKey.hpp:82. -/
structure Cell where
  owner : Nat
  pub : Bool := false
  slot : Option Slot := some {}
  deriving DecidableEq, Repr

/-- All holders ever made (numbered by position), the number of RSA objects loaded so far, and the arguments of all calls of
`RSA_free` with a non-null pointer. src/SignatoryOptions.hpp:62-63, src/PublicKey.hpp:82. -/
structure World where
  cells : List Cell := []
  next : Nat := 0
  freed : List Key := []
  deriving DecidableEq, Repr

/-- How `SetPrivateKey` (or `PublicKey::Parse`) ends: a key was loaded; DER data were rejected, after the null pointer was stored
(src/SignatoryOptions.cpp:127-129); it failed or returned without touching the pointer. -/
inductive Load | ok | badDer | untouched
  deriving DecidableEq, Repr

/-- Calls. src/SignatoryOptions.cpp:90-167,276-294, src/PublicKey.cpp:36-149. -/
inductive Op
  /-- a `SignatoryOptions` object with its first signature; known by the number of its holder -/
  | create
  /-- a `PublicKey` object -/
  | createPublic
  /-- `AddAdditionalSignature` on object `o` -/
  | add (o : Nat)
  /-- `SetPrivateKey` or `PublicKey::Parse` -/
  | load (i : Nat) (l : Load)
  /-- `SetRSAPrivateKey(k, free)` -/
  | give (i : Nat) (k : Option Nat) (free : Bool)
  /-- `PublicKey::Reset` -/
  | reset (i : Nat)
  /-- the implicit assignment of one holder to another -/
  | copy (dst src : Nat)
  /-- destruction of an object -/
  | destroy (o : Nat)
  deriving DecidableEq, Repr

/-- What a destructor frees: src/SignatoryOptions.cpp:283-287, src/PublicKey.cpp:43. -/
def Slot.drop (s : Slot) : List Key := if s.free then s.key.toList else []

/-- The live holder at a number, if it is of the given kind. src/SignatoryOptions.hpp:62-63, src/PublicKey.hpp:82. -/
def World.get (w : World) (i : Nat) (kind : Bool → Bool) : Option Slot :=
  match w.cells[i]? with
  | some c => if kind c.pub then c.slot else none
  | none => none

/-- Store into a holder. src/SignatoryOptions.hpp:62-63, src/PublicKey.hpp:82. -/
def World.put (w : World) (i : Nat) (s : Slot) : World :=
  { w with cells := w.cells.modify i (fun c => { c with slot := some s }) }

/-- Destruction of the holders of an object: what is freed and what is left.
src/SignatoryOptions.cpp:86-88,283-287, src/PublicKey.hpp:44-45. -/
def destroyCells (o : Nat) : List Cell → List Key × List Cell
  | [] => ([], [])
  | c :: cs =>
    let r := destroyCells o cs
    match c.slot with
    | some s => if c.owner = o then (s.drop ++ r.1, { c with slot := none } :: r.2) else (r.1, c :: r.2)
    | none => (r.1, c :: r.2)

/-- One call; `none` if it addresses an object that does not exist (any more) or does not have that function.
src/SignatoryOptions.cpp:90-167,276-294, src/PublicKey.cpp:36-149. -/
def World.step (w : World) : Op → Option World
  | .create => some { w with cells := w.cells ++ [{ owner := w.cells.length }] }
  | .createPublic => some { w with cells := w.cells ++ [{ owner := w.cells.length, pub := true }] }
  | .add o => match w.get o (! ·) with
    | none => none
    | some _ => some { w with cells := w.cells ++ [{ owner := o }] }
  | .load i l => match w.get i (fun _ => true) with
    | none => none
    | some s => match l with
      | .ok => some { (w.put i { s with key := some (.lib w.next) }) with next := w.next + 1 }
      | .badDer => some (w.put i { s with key := none })
      | .untouched => some w
  | .give i k free => match w.get i (! ·) with
    | none => none
    | some _ => some (w.put i { key := k.map .caller, free := free })
  | .reset i => match w.get i (·) with
    | none => none
    | some s => some { (w.put i { s with key := none }) with freed := w.freed ++ s.key.toList }
  | .copy i j => match w.get i (fun _ => true), w.get j (fun _ => true) with
    | some _, some s => some (w.put i s)
    | _, _ => none
  | .destroy o => match w.get o (fun _ => true) with
    | none => none
    | some _ => some { w with cells := (destroyCells o w.cells).2, freed := w.freed ++ (destroyCells o w.cells).1 }

/-- A history of calls. src/SignatoryOptions.cpp:90-167,276-294, src/PublicKey.cpp:36-149. -/
def World.run : World → List Op → Option World
  | w, [] => some w
  | w, op :: ops =>
    match w.step op with
    | none => none
    | some w' => w'.run ops

end Dkim.Own

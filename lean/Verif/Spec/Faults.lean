import Verif.Model.Faults
/-!
# Specification: streams that report errors by exceptions
-/

namespace Dkim.Spec

/-- A file or string stream (it can be positioned) holding `d` on which `exceptions(std::ios::badbit)` was called; position, state
bits, and what the accesses to come will do are arbitrary. -/
structure BadbitStream (d : Bytes) (s : FStream) : Prop where
  data : s.data = d
  seekable : s.seekable = true
  mask : s.mask = { bad := true, fail := false, eof := false }

/-- Nothing was read yet. -/
structure AtStart (s : FStream) : Prop where
  pos : s.pos = 0
  eof : s.eof = false
  fail : s.fail = false
  bad : s.bad = false

/-- No access fails. -/
def NoFault (s : FStream) : Prop := ∀ k, s.fault k = none

/-- The program between two calls: it may read, position or clear the stream, and the source may get better or worse. -/
structure Disturbance where
  pos : Nat
  eof : Bool
  fail : Bool
  bad : Bool
  ops : Nat
  fault : Nat → Option Nat

/-- The stream afterwards. -/
def disturb (x : Disturbance) (s : FStream) : FStream :=
  { s with pos := x.pos, eof := x.eof, fail := x.fail, bad := x.bad, ops := x.ops, fault := x.fault }

/-- One verification on such a stream: what happened to the stream before, and the arguments of the calls. The resolver throws for a
name if it gives `none`. -/
structure FVerification where
  before : Disturbance
  now : Int
  resolver : Bytes → Option (Bool × Bytes)
  header : Header
  erange : Bool

/-- The resolver without the exceptions. -/
def quiet (resolver : Bytes → Option (Bool × Bytes)) : Bytes → Bool × Bytes := fun q => (resolver q).getD (false, [])

/-- The verification on the object: result, signature object and `errno`, key object. -/
def fVerify (E : Env) (v : FValidatory) (c : FVerification) : (Except FErr Unit × SigSt × PublicKey E) × FValidatory :=
  let r := FValidatory.verifyOne E c.now c.resolver { v with file := disturb c.before v.file } c.header c.erange
  ((r.1, r.2.1, r.2.2.1), r.2.2.2)

/-- A file or string stream that reads without faults, with failbit or eofbit among the exceptions. -/
structure EndThrows (s : FStream) : Prop where
  seekable : s.seekable = true
  mask : s.mask.fail = true ∨ s.mask.eof = true
  calm : NoFault s

end Dkim.Spec

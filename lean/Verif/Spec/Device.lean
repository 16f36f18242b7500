import Verif.Spec.Message
import Verif.Model.Device
/-!
# Specification: how much of a source is seen

A source delivers some bytes and then ends or breaks off with an error; it can be positioned or not.
-/

namespace Dkim.Spec

/-- `head` is the header block of the message text `d`: the part up to and including the first empty
line. -/
def IsHead (head d : Bytes) : Prop :=
  EndsHead head ∧ (∃ body, d = head ++ body) ∧ ∀ k, k < head.length → ¬ EndsHead (d.take k)

/-- The message text has no empty line. -/
def NoBlankLine (d : Bytes) : Prop := ∀ k, k ≤ d.length → ¬ EndsHead (d.take k)

/-- `Sees seekable broken d m`: a source that delivers `d` is treated like the message `m`. -/
inductive Sees : Bool → Bool → Bytes → Bytes → Prop
  /-- positioned and read without error: all of it -/
  | whole (d) : Sees true false d d
  /-- no positioning: the body is not seen -/
  | noSeek {broken head d} (h : IsHead head d) : Sees false broken d head
  /-- no positioning, no empty line: there is no body -/
  | noBody {d} (h : NoBlankLine d) : Sees false false d d
  /-- an error in the body: whole blocks of 8096 bytes are seen, the bytes of the last one are lost -/
  | bodyError {head body} (h : IsHead head (head ++ body)) :
      Sees true true (head ++ body) (head ++ body.take (8096 * (body.length / 8096)))
  /-- an error in the header block: the complete lines are seen -/
  | headError {seekable lines part} (h : NoBlankLine (lines ++ part)) (l : lines = [] ∨ lines.getLast? = some LF) (p : LF ∉ part) :
      Sees seekable true (lines ++ part) lines

/-- One verification: the arguments of the calls made for it. -/
structure Verification where
  now : Int
  resolver : Bytes → Bool × Bytes
  header : Header
  erange : Bool

/-- The results of a sequence of calls on an object. -/
def resultsOf {V C R : Type} (call : V → C → R × V) : V → List C → List R
  | _, [] => []
  | v, c :: cs => (call v c).1 :: resultsOf call (call v c).2 cs

end Dkim.Spec

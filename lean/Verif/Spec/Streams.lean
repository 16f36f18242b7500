import Verif.Model.StringStream
import Verif.Spec.Position
import Verif.Spec.Tokens
/-!
# Specification: reading white space from a stream

Written over the observable state of a `std::stringstream` only: its bytes, its get position and its
state bits.
-/

namespace Dkim.Spec

open Dkim.SS (WSType)

/-- A stream that parsing code can use: nothing has gone wrong, and no end-of-file or fail bit stands
in the way of bytes that are still there. -/
def StreamOk (s : SS) : Prop :=
  s.bad = false ∧ s.pos ≤ s.data.length ∧ (s.pos < s.data.length → s.eof = false ∧ s.fail = false)

/-- What is still to be read. -/
def unread (s : SS) : Bytes := s.data.drop s.pos

/-- `Reads type before w after`: from the text `before` the mode `type` takes `w` and leaves `after`. -/
inductive Reads : WSType → Bytes → Bytes → Bytes → Prop
  | crlf (r) : Reads .crlf (13 :: 10 :: r) [13, 10] r
  | noCrlf (s) : (∀ c ∈ s.head?, c ≠ 13) → Reads .crlf s [] s
  | wsp (c r) : c = 32 ∨ c = 9 → Reads .wsp (c :: r) [c] r
  | noWsp (s) : (∀ c ∈ s.head?, c ≠ 32 ∧ c ≠ 9) → Reads .wsp s [] s
  | loose (c r) : c = 32 ∨ c = 9 ∨ c = 13 ∨ c = 10 → Reads .wspLoose (c :: r) [c] r
  | noLoose (s) : (∀ c ∈ s.head?, c ≠ 32 ∧ c ≠ 9 ∧ c ≠ 13 ∧ c ≠ 10) → Reads .wspLoose s [] s
  | fws (s w r) : ReadsFWS s w r → Reads .fws s w r

/-- The outcome of a call without the numbers in the exception text. -/
def forget {α : Type} : Except SErr α → Except Err α
  | .ok a => .ok a
  | .error .hang => .error .hang
  | .error (.perm r _ _) => .error (.p r)

/-- A header field with its name in lower case, as canonicalization reads it. -/
def loweredName (field : Bytes) : Bytes :=
  (field.takeWhile (· != 58)).map (fun c => if 65 ≤ c ∧ c ≤ 90 then c + 32 else c) ++
    field.dropWhile (· != 58)

end Dkim.Spec

import Verif.Spec.Message
import Verif.Spec.Body
/-!
# Specification: what a further call of `CreateSignature` on the same object reads (C46)
-/

namespace Dkim.Spec

/-- The first line of a text, without its line end, and the number of bytes read with it; `none` if the
text ends with that line. -/
inductive FirstLine : Bytes → Bytes → Option Nat → Prop
  | lf (l r) : LF ∉ l → l.getLast? ≠ some CR → FirstLine (l ++ LF :: r) l (some (l.length + 1))
  | crlf (l r) : LF ∉ l → FirstLine (l ++ CR :: LF :: r) l (some (l.length + 2))
  | last (l) : l ≠ [] → LF ∉ l → l.getLast? ≠ some CR → FirstLine l l none
  | lastCR (l) : LF ∉ l → FirstLine (l ++ [CR]) l none

/-- What is left of a message between two calls: the fields read, the lines of a field that is being
read, the position of the body, and the position of the stream (`none`: the stream is over). -/
structure Reading where
  fields : List (List Bytes)
  unfinished : List Bytes
  body : Option Nat
  next : Option Nat

/-- All fields, the unfinished one included. -/
def Reading.all (r : Reading) : List (List Bytes) :=
  if r.unfinished = [] then r.fields else r.fields ++ [r.unfinished]

/-- The beginning of a further call on the message `d`: it reads one line, wherever the stream is, as if
that were a line of the header. -/
inductive Begins (d : Bytes) (r : Reading) : Reading → Prop
  /-- The stream is over: there is no body any more, and the unfinished field counts (again). -/
  | over : r.next = none → Begins d r ⟨r.all, r.unfinished, none, none⟩
  | atEnd (p) : r.next = some p → d.drop p = [] → Begins d r ⟨r.all, r.unfinished, none, none⟩
  /-- An empty line: the body begins behind it. -/
  | blank (p n) : r.next = some p → FirstLine (d.drop p) [] (some n) →
      Begins d r ⟨r.all, [], some (p + n), some (p + n)⟩
  | blankEnd (p) : r.next = some p → FirstLine (d.drop p) [] none → Begins d r ⟨r.all, [], none, none⟩
  /-- A line that begins with a space or tab continues the unfinished field. -/
  | cont (p l n) : r.next = some p → FirstLine (d.drop p) l n → isCont l = true →
      Begins d r ⟨r.fields, r.unfinished ++ [l], r.body, n.map (p + ·)⟩
  /-- Any other line finishes that field and begins another one. -/
  | field (p l n) : r.next = some p → FirstLine (d.drop p) l n → l ≠ [] → isCont l = false →
      Begins d r ⟨r.all, [l], r.body, n.map (p + ·)⟩

/-- The bytes of the canonical body that are settled by a beginning of it: all but the last CRLF. -/
def settled (mode : CanonMode) (x : Bytes) : Nat := (canonBody mode x).length - 2

/-- With length limit `n` reading of the body stops after `k` blocks of 8096 bytes: the first number of
blocks that settles `n` bytes of the canonical body. -/
def StopsAfter (mode : CanonMode) (n : Nat) (body : Bytes) (k : Nat) : Prop :=
  8096 * k ≤ body.length ∧ n ≤ settled mode (body.take (8096 * k)) ∧
    ∀ j, j < k → settled mode (body.take (8096 * j)) < n

/-- Where the stream is after the body was read. -/
inductive LeavesAt (d : Bytes) (mode : CanonMode) (limit : Option Nat) (r : Reading) : Option Nat → Prop
  | noBody : r.body = none → LeavesAt d mode limit r r.next
  | all (b) : r.body = some b → limit = none → LeavesAt d mode limit r none
  | short (b n) : r.body = some b → limit = some n → (∀ k, ¬ StopsAfter mode n (d.drop b) k) → LeavesAt d mode limit r none
  | stop (b n k) : r.body = some b → limit = some n → StopsAfter mode n (d.drop b) k →
      LeavesAt d mode limit r (some (b + 8096 * k))

/-- A sequence of further calls, each with its body canonicalization and length limit. -/
inductive Further (d : Bytes) : List (CanonMode × Option Nat) → Reading → Reading → Prop
  | nil (r) : Further d [] r r
  | cons (mode limit cs r r1 next r2) : Begins d r r1 → LeavesAt d mode limit r1 next →
      Further d cs { r1 with next := next } r2 → Further d ((mode, limit) :: cs) r r2

end Dkim.Spec

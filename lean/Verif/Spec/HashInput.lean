import Verif.Spec.Ascii
import Verif.Model.MailParser
import Verif.Model.Canonicalization
/-!
# Specification: which header fields a signature covers
-/

namespace Dkim.Spec

/-- The fields with this name (compared without case), in message order. -/
def fieldsNamed (hs : List Header) (n : Bytes) : List Header := hs.filter (fun h => lower h.name = lower n)

/-- The `k`-th field with this name counted from the bottom of the message (`k = 0`: the last). -/
def fromBottom (hs : List Header) (n : Bytes) (k : Nat) : Option Header := (fieldsNamed hs n).reverse[k]?

/-- How often a name occurs in a list of names (compared without case). -/
def mentions (names : List Bytes) (n : Bytes) : Nat := names.countP (fun m => lower m = lower n)

/-- The fields covered by the list `names`: at each position the field of that name, counted from the
bottom, whose number is the number of earlier mentions of the name; nothing if there is none left. -/
def selected (hs : List Header) (names : List Bytes) : List Header :=
  names.zipIdx.filterMap (fun p => fromBottom hs p.1 (mentions (names.take p.2) p.1))

/-- `cs` are the canonical forms of the fields `fs`, one by one. -/
def CanonAll (mode : CanonMode) (fs : List Header) (cs : List Bytes) : Prop :=
  fs.map (fun f => filterHeader mode f.header) = cs.map .ok

/-- Every text followed by CRLF. -/
def lines (cs : List Bytes) : Bytes := cs.flatMap (· ++ CRLF)

end Dkim.Spec

import Verif.Spec.Ascii
import Verif.Spec.HashInput
import Verif.Spec.Message
import Verif.Spec.Tokens
import Verif.Model.SignatoryOptions
/-!
# Specification: what a signer covers and writes
-/

namespace Dkim.Spec

/-- The field is to be signed: it has a name, and the selection is empty or lists the name (compared
without case). -/
def Wanted (sel : List Bytes) (h : Header) : Prop :=
  h.name ≠ [] ∧ (sel = [] ∨ ∃ n ∈ sel, lower n = lower h.name)

instance (sel : List Bytes) (h : Header) : Decidable (Wanted sel h) := by unfold Wanted; infer_instance

/-- The fields signed, from the bottom of the message up. -/
def signedFields (sel : List Bytes) (hs : List Header) : List Header := hs.reverse.filter (Wanted sel)

/-- The names listed in h=: one per signed field, then the oversign names; all in lower case. -/
def signedNames (sel over : List Bytes) (hs : List Header) : List Bytes :=
  (signedFields sel hs).map (fun h => lower h.name) ++ over.map lower

/-- A name that can be listed in h=: printable ASCII other than `:` and `;`, not empty. -/
def IsFieldName (n : Bytes) : Prop := n ≠ [] ∧ ∀ c ∈ n, 0x21 ≤ c ∧ c ≤ 0x7E ∧ c ≠ COLON ∧ c ≠ SEMI

/-- Decimal digits, no sign, no leading zeros: how `%lu` prints a number in 0 .. 2^64-1. -/
inductive Decimal : Nat → Bytes → Prop
  | digit (n) : n < 10 → Decimal n [UInt8.ofNat (48 + n)]
  | more (n d t) : 0 < n → d < 10 → Decimal n t → Decimal (10 * n + d) (t ++ [UInt8.ofNat (48 + d)])

end Dkim.Spec

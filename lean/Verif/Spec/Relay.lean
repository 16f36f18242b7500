import Verif.Spec.Message
import Verif.Spec.HashInput
import Verif.Spec.Header
import Verif.Spec.Body
import Verif.Spec.Signing
/-!
# Specification: what a relay may do to a signed message

A message is written as its header fields (each a list of lines) and its body. `Relayed` lists the changes under
which a signature over the header fields `names`, with the given canonicalizations and body length limit, is meant to
survive.
-/

namespace Dkim.Spec

/-- A message: fields (as lines without line ends) and body. -/
structure Mail where
  fields : List (List Bytes)
  body : Bytes

/-- The lines make up one field: the first does not start with white space, the others do; no line is empty. -/
def OneField (g : List Bytes) : Prop :=
  ∃ l ls, g = l :: ls ∧ isCont l = false ∧ (∀ x ∈ ls, isCont x = true) ∧ ∀ x ∈ g, x ≠ [] ∧ LF ∉ x

/-- The message text. -/
def Mail.text (m : Mail) : Bytes := lines m.fields.flatten ++ CRLF ++ m.body

/-- Every field is one field. -/
def Mail.Good (m : Mail) : Prop := ∀ g ∈ m.fields, OneField g

/-- The name of a field. -/
def nameOf (g : List Bytes) : Bytes := (mkField g).name

/-- Fields of the same name with the same relaxed form. -/
structure SameRelaxed (f g : List Bytes) : Prop where
  name : lower (nameOf f) = lower (nameOf g)
  legal : COLON ∈ joinLines f ∧ COLON ∈ joinLines g
  named : ¬ Blank (fieldName (joinLines f)) ∧ ¬ Blank (fieldName (joinLines g))
  noBareCR : ¬ HasBareCR (joinLines f) ∧ ¬ HasBareCR (joinLines g)
  canon : canonHeader (joinLines f) = canonHeader (joinLines g)

/-- What matters of a signature header here. -/
structure Coverage where
  header : CanonMode
  body : CanonMode
  names : List Bytes
  limited : Bool
  limit : Nat

/-- Permitted changes, in any number, order and direction. -/
inductive Relayed (c : Coverage) : Mail → Mail → Prop
  | refl (m) : Relayed c m m
  | symm {m n} : Relayed c m n → Relayed c n m
  | trans {m n k} : Relayed c m n → Relayed c n k → Relayed c m k
  /-- a field is put in above at least as many fields of its name as are signed -/
  | insert (a b f t) : OneField f →
      mentions c.names (nameOf f) ≤ (b.filter (fun g => lower (nameOf g) = lower (nameOf f))).length →
      Relayed c ⟨a ++ b, t⟩ ⟨a ++ f :: b, t⟩
  /-- two neighbouring fields of different names change places -/
  | swap (a f g b t) : lower (nameOf f) ≠ lower (nameOf g) → Relayed c ⟨a ++ f :: g :: b, t⟩ ⟨a ++ g :: f :: b, t⟩
  /-- with relaxed canonicalization: a field is refolded, its name written in other case, its white space changed -/
  | refold (a f g b t) : c.header = .relaxed → OneField f → OneField g → SameRelaxed f g →
      Relayed c ⟨a ++ f :: b, t⟩ ⟨a ++ g :: b, t⟩
  /-- immaterial changes of the body -/
  | body (fs t u) : BodyEquiv c.body t u → Relayed c ⟨fs, t⟩ ⟨fs, u⟩
  /-- with a body length limit: complete lines that reach the limit are followed by anything -/
  | append (fs t u) : c.limited = true → c.limit ≤ (canonBody c.body (t ++ [LF])).length →
      Relayed c ⟨fs, t ++ [LF]⟩ ⟨fs, t ++ [LF] ++ u⟩

/-- Changes to a message before signing that must not change the signature: fields that are not selected come and go
(or change in any way, being taken out and put in again), signed fields are refolded under relaxed canonicalization,
immaterial changes of the body. -/
inductive SignSame (sel : List Bytes) (hmode bmode : CanonMode) : Mail → Mail → Prop
  | refl (m) : SignSame sel hmode bmode m m
  | symm {m n} : SignSame sel hmode bmode m n → SignSame sel hmode bmode n m
  | trans {m n k} : SignSame sel hmode bmode m n → SignSame sel hmode bmode n k → SignSame sel hmode bmode m k
  | insert (a b f t) : OneField f → ¬ Wanted sel (mkField f) → SignSame sel hmode bmode ⟨a ++ b, t⟩ ⟨a ++ f :: b, t⟩
  | refold (a f g b t) : hmode = .relaxed → OneField f → OneField g → SameRelaxed f g →
      SignSame sel hmode bmode ⟨a ++ f :: b, t⟩ ⟨a ++ g :: b, t⟩
  | body (fs t u) : BodyEquiv bmode t u → SignSame sel hmode bmode ⟨fs, t⟩ ⟨fs, u⟩

end Dkim.Spec

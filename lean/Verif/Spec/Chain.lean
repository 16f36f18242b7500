import Verif.Spec.RoundTrip
import Verif.Spec.HashInput
import Verif.Props.Options
import Verif.Props.RoundTrip
/-!
# Specification: a message signed by one signer after the other

Each signer signs the message as it arrived and puts its fields in front of it.
-/

namespace Dkim.Spec

variable {E : Env}

/-- A signer: its options and its clock. -/
structure Signer (E : Env) where
  opts : Options E
  clock : Nat → Int

/-- `Chain now resolver d ss t`: the message `d`, signed by the signers `ss` (the latest first), has become `t`. Each
signer's options are well-formed for the message it gets (as for a single signer, `WellFormed`), its keys are published,
and no earlier signer has oversigned (that is, forbidden to add) the field it adds. -/
inductive Chain (now : Int) (resolver : Bytes → Bool × Bytes) (d : Bytes) : List (Signer E) → Bytes → Prop
  | start : Chain now resolver d [] d
  | sign (ss t ls off) (o : Options E) (clock : Nat → Int) (H : Bytes) : Chain now resolver d ss t →
      HeadText 0 t ls off → SafeOptions o → WellFormed o clock now t ((groupLines ls).map mkField) →
      (∀ s ∈ o.signatures, ∃ k, Published o resolver s k) →
      (∀ e ∈ ss, ∀ n ∈ e.opts.oversign, lower n ≠ lower (sigFieldName o)) →
      (Signatory.createSignature E o clock { file := freshStream t }).1 = .ok H → H.length < 2 ^ 31 →
      Chain now resolver d (⟨o, clock⟩ :: ss) (H ++ CRLF ++ t)

/-- How many fields of this kind the signers have added. -/
def added (kind : ValidatorType) (ss : List (Signer E)) : Nat :=
  (ss.map (fun s => if kindOf s.opts = kind then s.opts.signatures.length else 0)).sum

end Dkim.Spec

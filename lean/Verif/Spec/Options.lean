import Verif.Model.SignatoryOptions
import Verif.Spec.Domain
/-!
# Specification: the signing options as a function of the calls made
-/

namespace Dkim.Spec

/-- The last value in the list, or the default. -/
def lastOr {α : Type} (dflt : α) (l : List α) : α := l.getLast?.getD dflt

/-- The signature a call is about: 0 is the options object itself, `i + 1` the i-th additional signature. -/
def about {E : Env} : OptOp E → Option (Nat × SigOp E)
  | .sig none op => some (0, op)
  | .sig (some i) op => some (i + 1, op)
  | _ => none

/-- The calls made on signature `j`, in order. -/
def callsOn {E : Env} (j : Nat) (ops : List (OptOp E)) : List (SigOp E) :=
  ops.filterMap (fun op => match about op with
    | some (k, c) => if k = j then some c else none
    | none => none)

/-- How many additional signatures a history creates. -/
def addedSigs {E : Env} (ops : List (OptOp E)) : Nat :=
  (ops.filter (fun op => match op with | .addSignature => true | _ => false)).length

/-- A caller has a reference to an additional signature only after `AddAdditionalSignature` returned it. -/
def CallOrder {E : Env} (ops : List (OptOp E)) : Prop :=
  ∀ pre i op post, ops = pre ++ .sig (some i) op :: post → i < addedSigs pre

/-- What `SetPrivateKey k` does to a signature: exception thrown, and the signature afterwards. -/
inductive SetsKey {E : Env} (k : Bytes) (s : SigOpts E) : Option Dkim.Reason → SigOpts E → Prop
  /-- PEM text of an RSA key. -/
  | pem {r} (alg : s.alg = .rsa) (dashes : ∃ t, k = b!"-----" ++ t) (key : E.pemPriv k = some (some r)) :
      SetsKey k s none { s with rsa := some r }
  /-- PEM text of another key. -/
  | pemOther (alg : s.alg = .rsa) (dashes : ∃ t, k = b!"-----" ++ t) (key : E.pemPriv k = some none) :
      SetsKey k s (some .privNotRSA) s
  /-- No PEM text. -/
  | pemBad (alg : s.alg = .rsa) (dashes : ∃ t, k = b!"-----" ++ t) (key : E.pemPriv k = none) :
      SetsKey k s (some .badPem) s
  /-- Base64 of a DER key. -/
  | der {r} (alg : s.alg = .rsa) (plain : ¬ ∃ t, k = b!"-----" ++ t) (key : E.derPriv (E.b64dec k) = some r) :
      SetsKey k s none { s with rsa := some r }
  /-- Anything else: the key stored before is lost. -/
  | derBad (alg : s.alg = .rsa) (plain : ¬ ∃ t, k = b!"-----" ++ t) (key : E.derPriv (E.b64dec k) = none) :
      SetsKey k s (some .badDer) { s with rsa := none }
  /-- Ed25519: the 64 bytes of a secret key, as they are or in base64. -/
  | secret (alg : s.alg = .ed25519) (size : k.length = 64) : SetsKey k s none { s with ed := k }
  | secretB64 (alg : s.alg = .ed25519) (size : k.length ≠ 64 ∧ k.length ≠ 32) (dec : (E.b64dec k).length = 64) :
      SetsKey k s none { s with ed := E.b64dec k }
  /-- Ed25519: a 32 byte seed, as it is or in base64. -/
  | seed (alg : s.alg = .ed25519) (size : k.length = 32) : SetsKey k s none { s with ed := E.edSeed k }
  | seedB64 (alg : s.alg = .ed25519) (size : k.length ≠ 64 ∧ k.length ≠ 32) (dec : (E.b64dec k).length = 32) :
      SetsKey k s none { s with ed := E.edSeed (E.b64dec k) }
  | edBad (alg : s.alg = .ed25519) (size : k.length ≠ 64 ∧ k.length ≠ 32)
      (dec : (E.b64dec k).length ≠ 64 ∧ (E.b64dec k).length ≠ 32) : SetsKey k s (some .badEdKey) s

/-- A signature after a sequence of calls on it. -/
inductive After {E : Env} : List (SigOp E) → SigOpts E → Prop
  | new : After [] {}
  | alg {cs s} (a : SigAlg) (h : After cs s) : After (cs ++ [.alg a]) { s with alg := a }
  | domain {cs s} {d : Bytes} (ok : IsDomain d) (h : After cs s) : After (cs ++ [.domain d]) { s with domain := d }
  | noDomain {cs s} {d : Bytes} (bad : ¬ IsDomain d) (h : After cs s) : After (cs ++ [.domain d]) s
  | selector {cs s} {d : Bytes} (ok : IsDomain d) (h : After cs s) : After (cs ++ [.selector d]) { s with selector := d }
  | noSelector {cs s} {d : Bytes} (bad : ¬ IsDomain d) (h : After cs s) : After (cs ++ [.selector d]) s
  | rsa {cs s} (r : Option E.RsaPriv) (h : After cs s) : After (cs ++ [.rsaPrivateKey r]) { s with rsa := r }
  | key {cs s k e s'} (h : After cs s) (set : SetsKey k s e s') : After (cs ++ [.privateKey k]) s'

end Dkim.Spec

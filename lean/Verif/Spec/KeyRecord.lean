import Verif.Spec.Ascii
import Verif.Model.PublicKey
import Verif.Spec.SigHeader
/-!
# Specification: what an acceptable key record is

Written over the tags of the TXT record and the values the getters of the `PublicKey` object return.
-/

namespace Dkim.Spec

/-- k= and its default. -/
inductive KeyType : Option Bytes → SigAlg → Prop
  | absent : KeyType none .rsa
  | rsa : KeyType (some b!"rsa") .rsa
  | ed : KeyType (some b!"ed25519") .ed25519

/-- The decoded p= data and the key the getters return: an RSA SubjectPublicKeyInfo, or 32 bytes. -/
inductive KeyData (E : Env) : SigAlg → Bytes → Option E.RsaPub → Bytes → Prop
  | rsa (dat key) : E.d2iPubkey dat = some (some key) → KeyData E .rsa dat (some key) []
  | ed (dat) : dat.length = 32 → KeyData E .ed25519 dat none dat

/-- The name of a hash algorithm. -/
def digestName : DigestAlg → Bytes
  | .sha1 => b!"sha1"
  | .sha256 => b!"sha256"

/-- h=: which hashes are allowed; an empty set is taken as "no restriction" by the code. -/
inductive HashTag : Option Bytes → (DigestAlg → Prop) → Prop
  | absent : HashTag none (fun _ => False)
  | present (v names) : v ≠ [] → valueList v = .ok names →
      HashTag (some v) (fun d => digestName d ∈ names)

/-- s=: number of e-mail services recorded (none if `*` is listed). -/
inductive ServiceTag : Option Bytes → Nat → Prop
  | absent : ServiceTag none 0
  | any (v names) : v ≠ [] → valueList v = .ok names → b!"*" ∈ names → ServiceTag (some v) 0
  | listed (v names) : v ≠ [] → valueList v = .ok names → b!"*" ∉ names →
      ServiceTag (some v) (names.count b!"email")

/-- t=. -/
inductive FlagsTag : Option Bytes → List Bytes → Prop
  | absent : FlagsTag none []
  | present (v names) : valueList v = .ok names → FlagsTag (some v) names

/-- Everything required of the tags of a key record, and what the getters return. -/
structure LegalKey (E : Env) (tag : Bytes → Option Bytes) (k : PublicKey E) : Prop where
  version : tag b!"v" = none ∨ tag b!"v" = some b!"DKIM1"
  hashes : HashTag (tag b!"h") (fun d => d ∈ k.digests)
  keyType : KeyType (tag b!"k") k.alg
  key : ∃ p, tag b!"p" = some p ∧ p ≠ [] ∧
    KeyData E k.alg (E.b64dec (p.filter (fun c => !isSpace c))) k.rsa k.ed
  service : ServiceTag (tag b!"s") k.serviceEmail
  flags : FlagsTag (tag b!"t") k.flags

end Dkim.Spec

import Verif.Spec.Ascii
import Verif.Spec.Signing
import Verif.Spec.SigHeader
import Verif.Spec.Message
import Verif.Model.PublicKey
import Verif.Model.Signature
/-!
# Specification: option sets and keys for which a signature must verify
-/

namespace Dkim.Spec

variable {E : Env}

/-- The time written as t=, or (without t=) the time of signing. -/
def signTime (o : Options E) (clock : Int) : Int :=
  if o.timestampSign = true ∧ o.timestamp ≠ -1 then o.timestamp else clock

/-- The time meant by the expiration setting. -/
def expiryTime (o : Options E) (clock : Int) : Int :=
  if o.expirationAbsolute = true then o.expiration else signTime o clock + o.expiration

/-- The identity a signature is made for: local part and domain. An ARC signature has none, a DKIM
signature without identity setting stands for the whole domain. -/
inductive SignedIdentity (o : Options E) (s : SigOpts E) : Bytes → Bytes → Prop
  | arc : o.arcInstance ≠ 0 → o.identity = [] → SignedIdentity o s [] []
  | domain : o.arcInstance = 0 → o.identity = [] → SignedIdentity o s [] (lower s.domain)
  | user (loc dom) : o.arcInstance = 0 → o.identity = loc ++ 64 :: dom → (64 : Byte) ∉ loc →
      InDomain (lower dom) (lower s.domain) → SignedIdentity o s loc (lower dom)

/-- What the verifier reads in the signature field is what the signer was told. -/
structure ReadsBack (o : Options E) (s : SigOpts E) (names : List Bytes) (sig : Signature) : Prop where
  domain : sig.domain = lower s.domain
  selector : sig.selector = s.selector
  identity : SignedIdentity o s sig.mailLocal sig.mailDomain
  headers : sig.headers = names
  digest : sig.digest = o.digest
  alg : sig.alg = s.alg
  canonHeader : sig.canonHeader = o.canonHead
  canonBody : sig.canonBody = o.canonBody
  limited : sig.bodySizeLimit = o.bodySignLength
  limit : o.bodySignLength = true → sig.bodySize = o.bodyLength
  arc : sig.arc = true ↔ o.arcInstance ≠ 0
  instance_ : sig.arcInstance = o.arcInstance

/-- Private key and public key belong together: what one signs with the chosen digest, the other
accepts. -/
inductive KeyPair (o : Options E) (s : SigOpts E) (k : PublicKey E) : Prop
  | rsa (priv pub) : s.alg = .rsa → s.rsa = some priv → k.alg = .rsa → k.rsa = some pub →
      (∀ md sg, E.rsaSign priv o.digest md = some sg → sg ≠ [] ∧ E.rsaVerify pub o.digest md sg = true) →
      KeyPair o s k
  | ed : s.alg = .ed25519 → s.ed.length = 64 → k.alg = .ed25519 → k.ed.length = 32 →
      (∀ md sg, E.edSign s.ed md = some sg → sg.length = 64 ∧ E.edVerify k.ed md sg = true) → KeyPair o s k

/-- The resolver publishes, for this signature, a key record that fits and may be used. -/
structure Published (o : Options E) (resolver : Bytes → Bool × Bytes) (s : SigOpts E) (k : PublicKey E) : Prop where
  record : ∃ txt, resolver (s.selector ++ b!"._domainkey." ++ lower s.domain) = (true, txt) ∧ txt ≠ [] ∧
    PublicKey.parse txt ({} : PublicKey E) = .ok () k
  pair : KeyPair o s k
  hash : k.digests = [] ∨ o.digest ∈ k.digests
  strict : o.arcInstance = 0 → b!"s" ∈ k.flags → ∃ loc, SignedIdentity o s loc (lower s.domain)

/-- A message and an option set for which the generated signatures must verify. -/
structure WellFormed (o : Options E) (clock : Nat → Int) (now : Int) (d : Bytes) (hs : List Header) : Prop where
  /-- the message does not begin with a continuation line -/
  start : ∀ c ∈ d.head?, isWSP c = false
  /-- the names to be listed in h= can be listed there, and From is one of them -/
  names : ∀ n ∈ signedNames o.headers o.oversign hs, IsFieldName n
  from_signed : b!"from" ∈ signedNames o.headers o.oversign hs
  /-- an oversigned name is not that of a field which is present and unsigned, nor the generated field's -/
  oversign : ∀ n ∈ o.oversign, (∀ h ∈ hs, lower h.name = lower n → Wanted o.headers h) ∧
    lower n ≠ (if o.arcInstance ≠ 0 then b!"arc-message-signature" else b!"dkim-signature")
  arcRange : o.arcInstance ≤ 50
  identity : ∀ s ∈ o.signatures, ∃ loc dom, SignedIdentity o s loc dom
  length : o.bodySignLength = true → o.bodyLength < 2 ^ 63
  /-- all signatures are made with the same kind of key, and there is no "ed25519-sha1" -/
  algs : ∀ s ∈ o.signatures, s.alg = o.first.alg
  algName : o.first.alg = .ed25519 → o.digest = .sha256
  /-- not expired at the time of verification -/
  expiry : o.expirationSign = true → 0 ≤ now ∧ ∀ k, now ≤ expiryTime o (clock k)

end Dkim.Spec

import Verif.Spec.Rfc
import Verif.Spec.RoundTrip
/-!
# Specification: option sets and messages whose signatures must be valid by the RFCs
-/

namespace Dkim.Spec.Rfc

variable {E : Env}

/-- The identity a signature is made for, local part and domain: none for ARC; the whole domain without identity setting; otherwise the
setting, which has to be `[ Local-part ] "@" domain-name` within the signing domain. -/
inductive SetIdentity (o : Options E) (s : SigOpts E) : Bytes → Bytes → Prop
  | arc : o.arcInstance ≠ 0 → o.identity = [] → SetIdentity o s [] []
  | domain : o.arcInstance = 0 → o.identity = [] → SetIdentity o s [] (lower s.domain)
  | user (loc dom) : o.arcInstance = 0 → o.identity = loc ++ 64 :: dom → (loc = [] ∨ LocalPart loc) → IsDomain dom →
      InDomain (lower dom) (lower s.domain) → SetIdentity o s loc (lower dom)

/-- A message with the fields `hs`, and an option set, for which the signatures must be valid. -/
structure Signable (o : Options E) (clock : Nat → Int) (now : Int) (d : Bytes) (hs : List Header) : Prop where
  /-- the message does not begin with a continuation line, and its fields are fields -/
  start : ∀ c ∈ d.head?, isWSP c = false
  fields : ∀ h ∈ hs, Field h.header
  /-- the names to be listed in h= can be listed there, and From is one of them -/
  names : ∀ n ∈ signedNames o.headers o.oversign hs, IsFieldName n
  from_signed : b!"from" ∈ signedNames o.headers o.oversign hs
  /-- an oversigned name is not that of a field which is present and unsigned, nor that of another generated field -/
  oversign : ∀ n ∈ o.oversign, (∀ h ∈ hs, lower h.name = lower n → Wanted o.headers h) ∧
    (o.more = [] ∨ lower n ≠ (if o.arcInstance ≠ 0 then b!"arc-message-signature" else b!"dkim-signature"))
  /-- domains and selectors are set -/
  domains : ∀ s ∈ o.signatures, s.domain ≠ [] ∧ s.selector ≠ []
  arcRange : o.arcInstance ≤ 50
  identity : ∀ s ∈ o.signatures, ∃ loc dom, SetIdentity o s loc dom
  /-- an unsigned long -/
  length : o.bodyLength < 2 ^ 64
  /-- all signatures are made with the same kind of key, and there is no "ed25519-sha1" -/
  algs : ∀ s ∈ o.signatures, s.alg = o.first.alg
  algName : o.first.alg = .ed25519 → o.digest = .sha256
  /-- times have at most 12 digits -/
  time : o.timestampSign = true → ∀ k, 0 ≤ signTime o (clock k) ∧ signTime o (clock k) < 10 ^ 12
  /-- not expired -/
  expiry : o.expirationSign = true → ∀ k, 0 ≤ expiryTime o (clock k) ∧ expiryTime o (clock k) < 10 ^ 12 ∧ now ≤ expiryTime o (clock k)

/-- The private key of `s` and the public key `dat` belong together. -/
inductive KeyPair (o : Options E) (s : SigOpts E) (dat : Bytes) : Prop
  | rsa (priv pub) : s.alg = .rsa → s.rsa = some priv → E.d2iPubkey dat = some (some pub) →
      (∀ md sg, E.rsaSign priv o.digest md = some sg → sg ≠ [] ∧ E.rsaVerify pub o.digest md sg = true) → KeyPair o s dat
  | ed : s.alg = .ed25519 → s.ed.length = 64 → dat.length = 32 →
      (∀ md sg, E.edSign s.ed md = some sg → sg.length = 64 ∧ E.edVerify dat md sg = true) → KeyPair o s dat

/-- The record conforms to the RFCs, holds the public key and may be used for the signature. -/
structure Published (o : Options E) (s : SigOpts E) (record : Bytes) (key : List TagItem) (dat : Bytes)
    (hashes services flags : List Bytes) : Prop where
  tags : TagList record key
  claims : KeyRecord (value key) s.alg dat hashes services flags
  hashAllowed : value key b!"h" = none ∨ digestName o.digest ∈ hashes
  service : value key b!"s" = none ∨ b!"*" ∈ services ∨ b!"email" ∈ services
  strict : o.arcInstance = 0 → b!"s" ∈ flags → ∀ loc dom, SetIdentity o s loc dom → dom = lower s.domain
  pair : KeyPair o s dat

/-- What the field says is what the options say. -/
structure Says (o : Options E) (s : SigOpts E) (names : List Bytes) (sig : Dkim.Signature) : Prop where
  domain : sig.domain = lower s.domain
  selector : sig.selector = s.selector
  identity : SetIdentity o s sig.mailLocal sig.mailDomain
  headers : sig.headers = names
  digest : sig.digest = o.digest
  alg : sig.alg = s.alg
  canonHeader : sig.canonHeader = o.canonHead
  canonBody : sig.canonBody = o.canonBody
  limited : sig.bodySizeLimit = o.bodySignLength
  limit : o.bodySignLength = true → sig.bodySize = o.bodyLength
  instance_ : sig.arcInstance = o.arcInstance

end Dkim.Spec.Rfc

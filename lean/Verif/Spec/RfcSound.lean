import Verif.Spec.Rfc
/-!
# Specification: texts in the grammar of RFC 6376 (RFC 8617 for ARC-Message-Signature)

Only the way things are written; what the tags say, and whether the signature verifies, is in `Verif/Spec/Rfc.lean`.
-/

namespace Dkim.Spec.Rfc

/-- The tags of a signature field are written as the RFCs allow. Nothing is said about which tags there are and what they mean. -/
structure FieldSyntax (arc : Bool) (tag : Bytes → Option Bytes) : Prop where
  signature : ∀ v, tag b!"b" = some v → ∃ bytes, Base64String bytes v
  bodyHash : ∀ v, tag b!"bh" = some v → ∃ bytes, Base64String bytes v
  domain : ∀ v, tag b!"d" = some v → IsDomain v
  selector : ∀ v, tag b!"s" = some v → IsDomain v
  headers : ∀ v, tag b!"h" = some v → ∃ ns, ColonList FieldName v ns
  identity : arc = false → ∀ v, tag b!"i" = some v →
    ∃ t loc dom, v = t ++ 64 :: dom ∧ QpText false t loc ∧ (loc = [] ∨ LocalPart loc) ∧ IsDomain dom
  arcInstance : arc = true → ∀ v, tag b!"i" = some v → IsDigits v ∧ v.length ≤ 2
  length : ∀ v, tag b!"l" = some v → IsDigits v ∧ v.length ≤ 76
  time : ∀ v, tag b!"t" = some v → IsDigits v ∧ v.length ≤ 12
  expiration : ∀ v, tag b!"x" = some v → IsDigits v ∧ v.length ≤ 12

/-- The tags of a key record are written as the RFCs allow (an empty p= stands for a revoked key). -/
structure KeySyntax (tag : Bytes → Option Bytes) (dat : Bytes) (hashes services flags : List Bytes) : Prop where
  hash : Words (tag b!"h") hashes
  data : ∀ v, tag b!"p" = some v → v = [] ∨ Base64String dat v
  service : Words (tag b!"s") services
  flag : Words (tag b!"t") flags

/-- The message `d` with its signature field `f`, and the key record, are written as the RFCs allow, and consist of the parts `p`. -/
structure Written (d : Bytes) (f : Header) (record : Bytes) (p : Parts) : Prop where
  message : ∃ ls, HeadText 0 d ls p.off ∧ (groupLines ls).map mkField = p.above ++ f :: p.below
  fields : ∀ x ∈ p.above ++ f :: p.below, Field x.header
  tags : TagList (valueText f) p.items
  text : valueText f = joinSemi (p.items.map TagItem.text) ++ p.tail
  isB : p.bi.name = b!"b"
  field : FieldSyntax (isArcName f.name) (value p.items)
  keyTags : TagList record p.key
  key : KeySyntax (value p.key) p.dat p.hashes p.services p.flags

/-! ### What has to be excluded -/

/-- The key record restricts the hash not at all, or to hashes among which there is a known one. -/
def KnownHash (p : Parts) : Prop := value p.key b!"h" = none ∨ b!"sha1" ∈ p.hashes ∨ b!"sha256" ∈ p.hashes

/-- The key may be used for mail. -/
def ForMail (p : Parts) : Prop := value p.key b!"s" = none ∨ b!"*" ∈ p.services ∨ b!"email" ∈ p.services

/-- An Ed25519 signature has 64 bytes. -/
def RightLength (p : Parts) : Prop := value p.key b!"k" = some b!"ed25519" → ∃ bytes, Base64String bytes p.bi.value ∧ bytes.length = 64

/-- No white space around the value of b=. -/
def Tight (p : Parts) : Prop := p.bi.gap2 = [] ∧ p.bi.post = []

/-- h= does not name the signature field itself: no more mentions of its name than fields of this name below. -/
def NotItself (f : Header) (p : Parts) : Prop :=
  ∀ t names, value p.items b!"h" = some t → ColonList FieldName t names → mentions names f.name ≤ (fieldsNamed p.below f.name).length

end Dkim.Spec.Rfc

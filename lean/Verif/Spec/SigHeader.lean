import Verif.Spec.Ascii
import Verif.Spec.Number
import Verif.Model.Signature
import Verif.Spec.TagText
/-!
# Specification: what an acceptable signature header is

Written over the tags of the header (`tag name = some value` when present) and the values the getters
of the `Signature` object return. Uses the library functions specified elsewhere: `valueList`
(colon lists, C10) and `qpDecode` (quoted-printable, C16).
-/

namespace Dkim.Spec

/-- The value of a tag. -/
def tagVal (es : List (Bytes × TagEntry)) (name : Bytes) : Option Bytes := (es.lookup name).map (·.value)

/-- a= and the two algorithms it stands for. -/
inductive AlgTag : Bytes → SigAlg → DigestAlg → Prop
  | rsa256 : AlgTag b!"rsa-sha256" .rsa .sha256
  | rsa1 : AlgTag b!"rsa-sha1" .rsa .sha1
  | ed : AlgTag b!"ed25519-sha256" .ed25519 .sha256

/-- Name of a canonicalization. -/
def canonName : CanonMode → Bytes
  | .simple => b!"simple"
  | .relaxed => b!"relaxed"

/-- c= with its defaults: absent, `header`, or `header/body`. -/
inductive CanonTag : Option Bytes → CanonMode → CanonMode → Prop
  | absent : CanonTag none .simple .simple
  | head (m) : CanonTag (some (canonName m)) m .simple
  | both (m n) : CanonTag (some (canonName m ++ 47 :: canonName n)) m n

/-- `sub` equals `dom` or ends in `.` followed by `dom`. -/
def InDomain (sub dom : Bytes) : Prop := sub = dom ∨ ∃ p, sub = p ++ 46 :: dom

/-- i= of a DKIM signature: local part and lower-cased domain. -/
inductive IdentityTag (d : Bytes) : Option Bytes → Bytes → Bytes → Prop
  | absent : IdentityTag d none [] d
  | present (v loc dom) : qpDecode v = .ok (loc ++ 64 :: dom) → (64 : Byte) ∉ loc →
      InDomain (lower dom) d → IdentityTag d (some v) loc (lower dom)

/-- l=: absent, or the number the C library reads, which must use up the whole value. -/
inductive LengthTag : Option Bytes → Nat → Bool → Prop
  | absent : LengthTag none 0 false
  | present (v n) : v.length ≤ 76 → ULong v n [] false → n < 2 ^ 63 → LengthTag (some v) n true

/-- The text handed to the tag list parser. -/
def valueText (h : Header) : Bytes := h.header.drop h.valueOffset

/-- Is the header an ARC-Message-Signature? -/
def isArcName (name : Bytes) : Bool := decide (lower name = b!"arc-message-signature")

/-- Everything required of the tags of a signature header, and what the getters return. -/
structure Legal (E : Env) (arc : Bool) (now : Int) (tag : Bytes → Option Bytes) (s : Signature) : Prop where
  kind : s.arc = arc
  version : arc = false → tag b!"v" = some b!"1"
  domain : ∃ d, tag b!"d" = some d ∧ s.domain = lower d
  selector : tag b!"s" = some s.selector
  algorithm : ∃ a, tag b!"a" = some a ∧ AlgTag a s.alg s.digest
  signature : ∃ b, tag b!"b" = some b ∧ b ≠ [] ∧ s.b = E.b64dec (b.filter (fun c => !isSpace c))
  bodyHash : ∃ b, tag b!"bh" = some b ∧ s.bh = E.b64dec (b.filter (fun c => !isSpace c))
  canon : CanonTag (tag b!"c") s.canonHeader s.canonBody
  headers : ∃ h, tag b!"h" = some h ∧ valueList h = .ok s.headers
  from_signed : ∃ n ∈ s.headers, lower n = b!"from"
  identity : arc = false → IdentityTag s.domain (tag b!"i") s.mailLocal s.mailDomain ∧ s.arcInstance = 0
  arcIdentity : arc = true → (∃ v, tag b!"i" = some v ∧ (∃ rest o, ULong v s.arcInstance rest o) ∧
    1 ≤ s.arcInstance ∧ s.arcInstance ≤ 50) ∧ s.mailLocal = [] ∧ s.mailDomain = []
  length : LengthTag (tag b!"l") s.bodySize s.bodySizeLimit
  query : tag b!"q" = none ∨ tag b!"q" = some b!"dns/txt"
  notExpired : ∀ x, tag b!"x" = some x → ∃ time o, SLong x time o ∧ now ≤ time

end Dkim.Spec

import Verif.Spec.Verdict
import Verif.Spec.Domain
/-!
# Specification: what RFC 6376 (and RFC 8617 for ARC-Message-Signature) allows and requires

Transcribed from the grammars of the RFCs, not from the code. String literals are compared with case (RFC 6376, 3.2: values are case
sensitive). Other algorithms than the ones listed do not occur: a verifier need not know them.
-/

namespace Dkim.Spec.Rfc

/-- FWS (RFC 6376, 2.8): white space with at most one line break, which must be followed by white space. -/
inductive FWS : Bytes → Prop
  | plain (w) : AllWSP w → w ≠ [] → FWS w
  | fold (a b) : AllWSP a → AllWSP b → b ≠ [] → FWS (a ++ CRLF ++ b)

/-- `[FWS]` -/
def OptFWS (s : Bytes) : Prop := s = [] ∨ FWS s

/-- `1*(WSP / FWS)` -/
inductive Gap : Bytes → Prop
  | one (w) : FWS w → Gap w
  | more (w r) : FWS w → Gap r → Gap (w ++ r)

/-- VALCHAR: `!` to `~` except `;`. -/
def ValChar (c : Byte) : Prop := 0x21 ≤ c ∧ c ≤ 0x7E ∧ c ≠ 59

/-- `tval = 1*VALCHAR` -/
def Tval (s : Bytes) : Prop := s ≠ [] ∧ ∀ c ∈ s, ValChar c

/-- `tag-value = [ tval *( 1*(WSP / FWS) tval ) ]` -/
inductive TagValue : Bytes → Prop
  | empty : TagValue []
  | one (t) : Tval t → TagValue t
  | more (t g r) : Tval t → Gap g → r ≠ [] → TagValue r → TagValue (t ++ g ++ r)

/-- A letter. -/
def Alpha (c : Byte) : Prop := (65 ≤ c ∧ c ≤ 90) ∨ (97 ≤ c ∧ c ≤ 122)

/-- `tag-name = ALPHA *ALNUMPUNC` -/
def TagName (n : Bytes) : Prop := ∃ c r, n = c :: r ∧ Alpha c ∧ ∀ x ∈ r, Alpha x ∨ IsDigit x ∨ x = 95

/-- `tag-spec = [FWS] tag-name [FWS] "=" [FWS] tag-value [FWS]` -/
structure TagSpec (i : TagItem) : Prop where
  pre : OptFWS i.pre
  name : TagName i.name
  gap1 : OptFWS i.gap1
  gap2 : OptFWS i.gap2
  value : TagValue i.value
  post : OptFWS i.post

/-- Texts with a `;` between them. -/
def joinSemi : List Bytes → Bytes
  | [] => []
  | [x] => x
  | x :: y :: r => x ++ 59 :: joinSemi (y :: r)

/-- `tag-list = tag-spec *( ";" tag-spec ) [ ";" ]` (followed by white space); tags with duplicate names must not occur. -/
structure TagList (s : Bytes) (items : List TagItem) : Prop where
  nonempty : items ≠ []
  spec : ∀ i ∈ items, TagSpec i
  text : ∃ w, s = joinSemi (items.map TagItem.text) ++ w ∧ (w = [] ∨ ∃ f, OptFWS f ∧ w = 59 :: f)
  distinct : (items.map TagItem.name).Nodup

/-- The value of a tag. -/
def value (items : List TagItem) (n : Bytes) : Option Bytes := (items.find? (fun i => decide (i.name = n))).map TagItem.value

/-- `p` with white space between its bytes. -/
inductive Spread : Bytes → Bytes → Prop
  | one (c) : Spread [c] [c]
  | cons (c f p t) : OptFWS f → Spread p t → Spread (c :: p) (c :: (f ++ t))

/-- base64string: base64 digits of `bytes`, with white space between them. -/
def Base64String (bytes text : Bytes) : Prop := Spread (base64 bytes) text

/-- A colon-separated list, `item *( [FWS] ":" [FWS] item )`. -/
inductive ColonList (Item : Bytes → Prop) : Bytes → List Bytes → Prop
  | one (n) : Item n → ColonList Item n [n]
  | cons (n f g s ns) : Item n → OptFWS f → OptFWS g → ColonList Item s ns → ColonList Item (n ++ f ++ 58 :: (g ++ s)) (n :: ns)

/-- field-name (RFC 5322): printable ASCII except the colon. -/
def FieldName (n : Bytes) : Prop := n ≠ [] ∧ ∀ c ∈ n, 33 ≤ c ∧ c ≤ 126 ∧ c ≠ 58

/-- atext (RFC 5322). -/
def Atext (c : Byte) : Prop := Alpha c ∨ IsDigit c ∨ c ∈ b!"!#$%&'*+-/=?^_`{|}~"

/-- `*QcontentSMTP` (RFC 5321): printable ASCII and space; `"` and `\` only after `\`. -/
inductive Qcontent : Bytes → Prop
  | nil : Qcontent []
  | text (c r) : 32 ≤ c → c ≤ 126 → c ≠ 34 → c ≠ 92 → Qcontent r → Qcontent (c :: r)
  | pair (c r) : 32 ≤ c → c ≤ 126 → Qcontent r → Qcontent (92 :: c :: r)

/-- Local-part (RFC 5321): atoms joined by dots, or a quoted string. -/
inductive LocalPart : Bytes → Prop
  | dots (as) : as ≠ [] → (∀ a ∈ as, a ≠ [] ∧ ∀ c ∈ a, Atext c) → LocalPart (joinDots as)
  | quoted (t) : Qcontent t → LocalPart (34 :: (t ++ [34]))

/-- i= of a DKIM signature: `[ Local-part ] "@" domain-name` in dkim-quoted-printable; the domain is the signing domain or below it. -/
inductive Identity (d : Bytes) : Option Bytes → Bytes → Bytes → Prop
  | absent : Identity d none [] d
  | present (t loc dom) : QpText false t loc → (loc = [] ∨ LocalPart loc) → IsDomain dom → InDomain (lower dom) d →
      Identity d (some (t ++ 64 :: dom)) loc (lower dom)

/-- l=: `1*76DIGIT` -/
inductive Length : Option Bytes → Nat → Bool → Prop
  | absent : Length none 0 false
  | present (v) : IsDigits v → v.length ≤ 76 → Length (some v) (digitsVal v) true

/-- What the tags of a conforming, unexpired signature field say; `s` is read as the record of what the getters return. -/
structure Signature (arc : Bool) (now : Int) (tag : Bytes → Option Bytes) (s : Dkim.Signature) : Prop where
  version : arc = false → tag b!"v" = some b!"1"
  algorithm : ∃ a, tag b!"a" = some a ∧ AlgTag a s.alg s.digest
  signature : ∃ t, tag b!"b" = some t ∧ Base64String s.b t
  bodyHash : ∃ t, tag b!"bh" = some t ∧ Base64String s.bh t
  canon : CanonTag (tag b!"c") s.canonHeader s.canonBody
  domain : ∃ d, tag b!"d" = some d ∧ IsDomain d ∧ s.domain = lower d
  headers : ∃ h, tag b!"h" = some h ∧ ColonList FieldName h s.headers
  from_signed : ∃ n ∈ s.headers, lower n = b!"from"
  identity : arc = false → Identity s.domain (tag b!"i") s.mailLocal s.mailDomain ∧ s.arcInstance = 0
  /-- RFC 8617: i= is the instance, `1*2DIGIT`, from 1 to 50 -/
  arcInstance : arc = true → (∃ v, tag b!"i" = some v ∧ IsDigits v ∧ v.length ≤ 2 ∧ s.arcInstance = digitsVal v ∧
    1 ≤ s.arcInstance ∧ s.arcInstance ≤ 50) ∧ s.mailLocal = [] ∧ s.mailDomain = []
  length : Length (tag b!"l") s.bodySize s.bodySizeLimit
  /-- q= lists the methods to find the key; `dns/txt` must be among them -/
  query : ∀ q, tag b!"q" = some q → ∃ ms, ColonList FieldName q ms ∧ b!"dns/txt" ∈ ms
  selector : tag b!"s" = some s.selector ∧ IsDomain s.selector
  time : ∀ t, tag b!"t" = some t → IsDigits t ∧ t.length ≤ 12
  notExpired : ∀ x, tag b!"x" = some x → IsDigits x ∧ x.length ≤ 12 ∧ now ≤ digitsVal x

/-- A list of words in a key record; absent, or a colon-separated list. -/
inductive Words : Option Bytes → List Bytes → Prop
  | absent : Words none []
  | present (v ws) : ColonList FieldName v ws → Words (some v) ws

/-- What the tags of a conforming key record (RFC 6376, 3.6.1; RFC 8463) say: type of the key, data, hashes, services and flags. -/
structure KeyRecord (tag : Bytes → Option Bytes) (alg : SigAlg) (dat : Bytes) (hashes services flags : List Bytes) : Prop where
  version : tag b!"v" = none ∨ tag b!"v" = some b!"DKIM1"
  hash : Words (tag b!"h") hashes
  keyType : KeyType (tag b!"k") alg
  data : ∃ p, tag b!"p" = some p ∧ Base64String dat p
  service : Words (tag b!"s") services
  flag : Words (tag b!"t") flags

/-- A header field (RFC 5322): a name, white space, a colon and a text in which CR only stands before LF. -/
structure Field (t : Bytes) : Prop where
  form : ∃ n w v, t = n ++ w ++ 58 :: v ∧ FieldName n ∧ AllWSP w
  cr : ∀ a b, t = a ++ CR :: b → b.head? = some LF

/-- Header canonicalization (RFC 6376, 3.4.1 and 3.4.2). -/
def canon : CanonMode → Bytes → Bytes
  | .simple, t => t
  | .relaxed, t => canonHeader t

/-- The tag-spec without its value, including all white space around it (RFC 6376, 3.7). -/
def emptied (i : TagItem) : TagItem := { i with gap2 := [], value := [], post := [] }

/-- The data hashed for the header (RFC 6376, 3.7): the selected fields other than the signature field, each with CRLF, and the signature field
`lead ++ tag-list` with the value of b= (the item `bi`) deleted, without CRLF. -/
def headerData (mode : CanonMode) (others : List Header) (names : List Bytes) (lead : Bytes) (before : List TagItem) (bi : TagItem)
    (after : List TagItem) (tail : Bytes) : Bytes :=
  lines ((selected others names).map (fun f => canon mode f.header)) ++
    canon mode (lead ++ (joinSemi ((before ++ emptied bi :: after).map TagItem.text) ++ tail))

/-- The parts a message with a signature field and its key record consist of. -/
structure Parts where
  /-- the header fields above and below the signature field -/
  above : List Header
  below : List Header
  /-- position of the body, or -1 -/
  off : Int
  /-- the tag-specs before, of and after b=, and what follows the last -/
  before : List TagItem
  bi : TagItem
  after : List TagItem
  tail : Bytes
  /-- the tag-specs of the key record, and what they say -/
  key : List TagItem
  dat : Bytes
  hashes : List Bytes
  services : List Bytes
  flags : List Bytes

/-- All tag-specs of the signature field. -/
def Parts.items (p : Parts) : List TagItem := p.before ++ p.bi :: p.after

/-- The primitive accepts the signature for a digest: RSA with a SubjectPublicKeyInfo; Ed25519 with 32 bytes of key and 64 bytes of signature. -/
inductive Primitive (E : Env) (dat md : Bytes) (s : Dkim.Signature) : Prop
  | rsa (key) : s.alg = .rsa → E.d2iPubkey dat = some (some key) → E.rsaVerify key s.digest md s.b = true → Primitive E dat md s
  | ed : s.alg = .ed25519 → dat.length = 32 → s.b.length = 64 → E.edVerify dat md s.b = true → Primitive E dat md s

/-- By the RFCs, the signature field `f` of the message `d` verifies at the time `now` with the key record `record`. -/
structure Verifies (E : Env) (now : Int) (d : Bytes) (f : Header) (record : Bytes) (s : Dkim.Signature) (p : Parts) : Prop where
  message : ∃ ls, HeadText 0 d ls p.off ∧ (groupLines ls).map mkField = p.above ++ f :: p.below
  fields : ∀ x ∈ p.above ++ f :: p.below, Field x.header
  tags : TagList (valueText f) p.items
  text : valueText f = joinSemi (p.items.map TagItem.text) ++ p.tail
  isB : p.bi.name = b!"b"
  signature : Signature (isArcName f.name) now (value p.items) s
  body : s.bh = E.hash s.digest (cap s.bodySizeLimit s.bodySize (canonBody s.canonBody (bodyPart d p.off)))
  keyTags : TagList record p.key
  key : KeyRecord (value p.key) s.alg p.dat p.hashes p.services p.flags
  hashAllowed : value p.key b!"h" = none ∨ digestName s.digest ∈ p.hashes
  service : value p.key b!"s" = none ∨ b!"*" ∈ p.services ∨ b!"email" ∈ p.services
  strict : isArcName f.name = false → b!"s" ∈ p.flags → s.mailDomain = s.domain
  primitive : Primitive E p.dat (E.hash s.digest (headerData s.canonHeader (p.above ++ p.below) s.headers (f.header.take f.valueOffset)
    p.before p.bi p.after p.tail)) s

end Dkim.Spec.Rfc

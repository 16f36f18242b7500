import Verif.Spec.ListText
import Verif.Spec.QpText
import Verif.Spec.KeyRecord
import Verif.Spec.HashInput
import Verif.Spec.Header
import Verif.Spec.Message
import Verif.Spec.Body
/-!
# Specification: the verdict on one signature field, from the bytes of the message alone

This file does not use any function of the model: `Env` stands for OpenSSL/libsodium, `Signature` and `PublicKey` are read as records of
what the getters return, `Header` as a field (name, text, position after the colon).
-/

namespace Dkim.Spec

/-- i= of a DKIM signature: local part and lower-cased domain, which must lie in the domain `d`. -/
inductive Identity (d : Bytes) : Option Bytes → Bytes → Bytes → Prop
  | absent : Identity d none [] d
  | present (v loc dom) : QpText false v (loc ++ 64 :: dom) → (64 : Byte) ∉ loc →
      InDomain (lower dom) d → Identity d (some v) loc (lower dom)

/-- The tags of a signature field are legal, and `s` is what they say. -/
structure Claims (E : Env) (arc : Bool) (now : Int) (tag : Bytes → Option Bytes) (s : Signature) : Prop where
  kind : s.arc = arc
  version : arc = false → tag b!"v" = some b!"1"
  domain : ∃ d, tag b!"d" = some d ∧ s.domain = lower d
  selector : tag b!"s" = some s.selector
  algorithm : ∃ a, tag b!"a" = some a ∧ AlgTag a s.alg s.digest
  signature : ∃ b, tag b!"b" = some b ∧ b ≠ [] ∧ s.b = E.b64dec (b.filter (fun c => !isSpace c))
  bodyHash : ∃ b, tag b!"bh" = some b ∧ s.bh = E.b64dec (b.filter (fun c => !isSpace c))
  canon : CanonTag (tag b!"c") s.canonHeader s.canonBody
  headers : ∃ h, tag b!"h" = some h ∧ ListText h s.headers
  from_signed : ∃ n ∈ s.headers, lower n = b!"from"
  identity : arc = false → Identity s.domain (tag b!"i") s.mailLocal s.mailDomain ∧ s.arcInstance = 0
  arcIdentity : arc = true → (∃ v, tag b!"i" = some v ∧ (∃ rest o, ULong v s.arcInstance rest o) ∧
    1 ≤ s.arcInstance ∧ s.arcInstance ≤ 50) ∧ s.mailLocal = [] ∧ s.mailDomain = []
  length : LengthTag (tag b!"l") s.bodySize s.bodySizeLimit
  query : tag b!"q" = none ∨ tag b!"q" = some b!"dns/txt"
  notExpired : ∀ x, tag b!"x" = some x → ∃ time o, SLong x time o ∧ now ≤ time

/-- The hash a name in the key record's h= stands for. -/
def knownHash (n : Bytes) : Option DigestAlg :=
  if n = b!"sha1" then some .sha1 else if n = b!"sha256" then some .sha256 else none

/-- h= of a key record: the hashes allowed (none listed: no restriction). -/
inductive Hashes : Option Bytes → List DigestAlg → Prop
  | absent : Hashes none []
  | present (v names) : v ≠ [] → ListText v names → Hashes (some v) (names.filterMap knownHash)

/-- s= of a key record. -/
inductive Services : Option Bytes → Nat → Prop
  | absent : Services none 0
  | any (v names) : v ≠ [] → ListText v names → b!"*" ∈ names → Services (some v) 0
  | listed (v names) : v ≠ [] → ListText v names → b!"*" ∉ names → Services (some v) (names.count b!"email")

/-- t= of a key record. -/
inductive Flags : Option Bytes → List Bytes → Prop
  | absent : Flags none []
  | present (v names) : ListText v names → Flags (some v) names

/-- The tags of a key record are legal, and `k` is what they say. -/
structure KeyClaims (E : Env) (tag : Bytes → Option Bytes) (k : PublicKey E) : Prop where
  version : tag b!"v" = none ∨ tag b!"v" = some b!"DKIM1"
  hashes : Hashes (tag b!"h") k.digests
  keyType : KeyType (tag b!"k") k.alg
  key : ∃ p, tag b!"p" = some p ∧ p ≠ [] ∧
    KeyData E k.alg (E.b64dec (p.filter (fun c => !isSpace c))) k.rsa k.ed
  service : Services (tag b!"s") k.serviceEmail
  flags : Flags (tag b!"t") k.flags

/-- The canonical form of a field; none in the relaxed mode if it has no colon or a CR without LF. A blank name is reduced to a space or
to nothing. -/
inductive CanonField : CanonMode → Bytes → Bytes → Prop
  | simple (s) : CanonField .simple s s
  | relaxed (s) : COLON ∈ s → ¬ HasBareCR s → ¬ Blank (fieldName s) → CanonField .relaxed s (canonHeader s)
  | blank (s) : COLON ∈ s → ¬ HasBareCR s → Blank (fieldName s) →
      CanonField .relaxed s ((if unfold (fieldName s) = [] then [] else [SP]) ++ COLON ::
        (canonLine .relaxed (unfold (fieldValue s))).dropWhile isWSP)

/-- `canonFields mode fs cs`: `cs` are the canonical forms of `fs`, one by one. -/
inductive CanonFields (mode : CanonMode) : List Header → List Bytes → Prop
  | nil : CanonFields mode [] []
  | cons (f fs c cs) : CanonField mode f.header c → CanonFields mode fs cs → CanonFields mode (f :: fs) (c :: cs)

/-- What is hashed: the selected fields `names` among the fields `hs` of the message, then the field `h` itself without its b= value. -/
def SignedInput (mode : CanonMode) (hs : List Header) (names : List Bytes) (h : Header) (es : List (Bytes × TagEntry)) (input : Bytes) : Prop :=
  ∃ bval before after cs c, (b!"b", ⟨bval, before.length⟩) ∈ es ∧ valueText h = before ++ bval ++ after ∧
    CanonFields mode (selected hs names) cs ∧ CanonField mode (h.header.take h.valueOffset ++ (before ++ after)) c ∧
    input = lines cs ++ c

/-- The key may be used for the signature. -/
structure Usable {E : Env} (s : Signature) (k : PublicKey E) : Prop where
  hash : k.digests = [] ∨ s.digest ∈ k.digests
  alg : s.alg = k.alg
  strict : s.arc = false → b!"s" ∈ k.flags → s.domain = s.mailDomain

/-- The primitive accepts. Ed25519 reads 64 bytes of the data: the NUL after the data can be the last. -/
inductive Accepts (E : Env) (s : Signature) (k : PublicKey E) (md : Bytes) : Prop
  | rsa (key) : s.alg = .rsa → k.rsa = some key → E.rsaVerify key s.digest md s.b = true → Accepts E s k md
  | ed : s.alg = .ed25519 → E.edVerify k.ed md ((s.b ++ [0]).take 64) = true → Accepts E s k md

/-- Possible outcomes of the verification of one signature field; `overread` is a read beyond the end of the signature data. -/
inductive Ruling | pass | fail | permerror | temperror | overread
  deriving DecidableEq, Repr

section
variable (E : Env) (now : Int) (stale : Bool) (resolver : Bytes → Bool × Bytes) (d : Bytes) (h : Header)

/-- The signature field is acceptable, has the tags `es` and says `s`. `stale`: errno was ERANGE before. -/
def Acceptable (es : List (Bytes × TagEntry)) (s : Signature) : Prop :=
  TagText 0 (valueText h) es ∧ (es.map Prod.fst).Nodup ∧ Claims E (isArcName h.name) now (tagVal es) s ∧
    (stale = true → tagVal es b!"l" = none)

/-- bh= is the digest of the canonical body (cut at l=). -/
def BodyMatches (s : Signature) : Prop :=
  ∃ ls off, HeadText 0 d ls off ∧
    s.bh = E.hash s.digest (cap s.bodySizeLimit s.bodySize (canonBody s.canonBody (bodyPart d off)))

/-- The resolver's answer for the key of `s`. -/
def answer (s : Signature) : Bool × Bytes := resolver (s.selector ++ b!"._domainkey." ++ s.domain)

/-- The key record is legal and says `k`. -/
def KeyFound (s : Signature) (k : PublicKey E) : Prop :=
  ∃ kes, TagText 0 (answer resolver s).2 kes ∧ (kes.map Prod.fst).Nodup ∧ KeyClaims E (tagVal kes) k

/-- The header hash input. -/
def Input (es : List (Bytes × TagEntry)) (s : Signature) (input : Bytes) : Prop :=
  ∃ ls off, HeadText 0 d ls off ∧ SignedInput s.canonHeader ((groupLines ls).map mkField) s.headers h es input

/-- The verdict: the checks in their order; the first that fails decides. -/
inductive Decided : Ruling → Prop
  | badField : (¬ ∃ es s, Acceptable E now stale h es s) → Decided .permerror
  | badBody (es s) : Acceptable E now stale h es s → ¬ BodyMatches E d s → Decided .fail
  | noAnswer (es s) : Acceptable E now stale h es s → BodyMatches E d s → (answer resolver s).1 = false → Decided .temperror
  | badKey (es s) : Acceptable E now stale h es s → BodyMatches E d s → (answer resolver s).1 = true →
      (¬ ∃ k, KeyFound E resolver s k) → Decided .permerror
  | unusable (es s k) : Acceptable E now stale h es s → BodyMatches E d s → (answer resolver s).1 = true →
      KeyFound E resolver s k → ¬ Usable s k → Decided .permerror
  | noInput (es s k) : Acceptable E now stale h es s → BodyMatches E d s → (answer resolver s).1 = true →
      KeyFound E resolver s k → Usable s k → (¬ ∃ input, Input d h es s input) → Decided .permerror
  | short (es s k input) : Acceptable E now stale h es s → BodyMatches E d s → (answer resolver s).1 = true →
      KeyFound E resolver s k → Usable s k → Input d h es s input → s.alg = .ed25519 → s.b.length < 63 → Decided .overread
  | reject (es s k input) : Acceptable E now stale h es s → BodyMatches E d s → (answer resolver s).1 = true →
      KeyFound E resolver s k → Usable s k → Input d h es s input → (s.alg = .ed25519 → 63 ≤ s.b.length) →
      ¬ Accepts E s k (E.hash s.digest input) → Decided .fail
  | accept (es s k input) : Acceptable E now stale h es s → BodyMatches E d s → (answer resolver s).1 = true →
      KeyFound E resolver s k → Usable s k → Input d h es s input → (s.alg = .ed25519 → 63 ≤ s.b.length) →
      Accepts E s k (E.hash s.digest input) → Decided .pass

end

end Dkim.Spec

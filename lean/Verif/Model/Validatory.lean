import Verif.Model.Signature
import Verif.Model.PublicKey
import Verif.Model.Canonicalization
import Verif.Model.MailParser
/-!
# `src/Validatory.cpp`, `src/Validatory.hpp`
-/

namespace Dkim

/-- `ValidatorType`, src/Validatory.hpp:39. -/
inductive ValidatorType | dkim | arc | none
  deriving DecidableEq, Repr

/-- `class Validatory`, src/Validatory.hpp:70-74. -/
structure Validatory where
  file : IStream
  msg : Message
  sigs : List Header
  deriving DecidableEq, Repr

/-- The collection test, src/Validatory.cpp:59-64. -/
def isSigHeader (type : ValidatorType) (h : Header) : Bool :=
  match type with
  | .dkim => lower h.name = b!"dkim-signature"
  | .arc => lower h.name = b!"arc-message-signature"
  | .none => false

/-- The constructor, src/Validatory.cpp:46-69. -/
def Validatory.mk' (stream : IStream) (type : ValidatorType) : Except Err Validatory :=
  match ({} : Message).parseAll stream with
  | .error e => .error e
  | .ok (m, s) => .ok { file := s, msg := m, sigs := m.headers.filter (isSigHeader type) }

/-- `CheckBodyHash`, src/Validatory.cpp:131-165; also returns the stream. -/
def Validatory.checkBodyHash (E : Env) (v : Validatory) (sig : Signature) :
    Except Err Unit × Validatory :=
  match canonBody v.file sig.canonBody v.msg.bodyOffset sig.bodySizeLimit sig.bodySize with
  | .error e => (.error e, v)
  | .ok ((calls, _), s') =>
    let v' := { v with file := s' }
    if sig.bh = E.hash sig.digest calls.flatten then (.ok (), v')
    else (.error (.perm .bodyHashMismatch .fail), v')

/-- `GetSignature`, src/Validatory.cpp:80-85, on signature object + errno `st`. -/
def Validatory.getSignature (E : Env) (now : Int) (v : Validatory) (h : Header) (st : SigSt) :
    Except Err Unit × SigSt × Validatory :=
  match Signature.parse E now h st with
  | .error e st' => (.error e, st', v)
  | .ok () st' =>
    match v.checkBodyHash E st'.sig with
    | (r, v') => (r, st', v')

/-- The DNS name queried, src/Validatory.cpp:97. -/
def keyQuery (sig : Signature) : Bytes := sig.selector ++ b!"._domainkey." ++ sig.domain

/-- `GetPublicKey`, src/Validatory.cpp:92-124. The resolver (custom or built in) is a function from
the query name to (success, record text). The last `throw` (query type) is unreachable as
`QueryType` has one value. -/
def getPublicKey {E : Env} (resolver : Bytes → Bool × Bytes) (sig : Signature) : KeyM E Unit :=
  let (ok, txt) := resolver (keyQuery sig)
  if ok then
    if txt.isEmpty then throw (.p (.noKey sig.selector sig.domain)) else PublicKey.parse txt
  else throw (.temp (.dnsFailed sig.selector sig.domain) .temperror)

/-- `headerCache`, src/Validatory.cpp:209: a `std::map` from lower-cased name to header list; a
missing key and an empty list are treated alike by the code (line 228). -/
abbrev HeaderCache := Bytes → List Header

/-- `headerCache[name] = l`. src/Validatory.cpp:209-238. -/
def HeaderCache.put (c : HeaderCache) (k : Bytes) (l : List Header) : HeaderCache :=
  fun n => if n = k then l else c n

/-- Filling the cache, src/Validatory.cpp:210-215. -/
def HeaderCache.fill (hs : List Header) : HeaderCache :=
  hs.foldl (fun c h => HeaderCache.put c (lower h.name) (c (lower h.name) ++ [h])) (fun _ => [])

/-- The loop over the signed header names, src/Validatory.cpp:218-238: what is hashed. -/
def headLoop (mode : CanonMode) : HeaderCache → List Bytes → Except Err Bytes
  | _, [] => .ok []
  | cache, name :: names =>
    let k := lower name
    match (cache k).getLast? with
    | none => headLoop mode cache names
    | some h =>
      match filterHeader mode h.header with
      | .error e => .error e
      | .ok t =>
        match headLoop mode (cache.put k (cache k).dropLast) names with
        | .error e => .error e
        | .ok rest => .ok (t ++ CRLF ++ rest)

/-- Conversion of the tag offset to `int` and then to `size_t`, src/Validatory.cpp:246:
`none` if the result is negative as `int` (a huge `size_t`). -/
def offsetToSize (off : Int) : Option Nat :=
  let w := off % 2 ^ 32
  if w < 2 ^ 31 then some w.toNat else none

/-- The signature header with the b= value erased, src/Validatory.cpp:241-248. A signature object
without a b tag leaves `bTag`'s offset uninitialised (undefined behaviour). -/
def stripB (h : Header) (sig : Signature) : Except Err Bytes :=
  match sig.tags.getTag b!"b" with
  | none => .error .ub
  | some b =>
    let hd := h.header.take h.valueOffset
    let v := h.header.drop h.valueOffset
    match offsetToSize b.offset with
    | none => .error .outOfRange
    | some off =>
      if off > v.length then .error .outOfRange
      else .ok (hd ++ eraseAt v off b.value.length)

/-- The bytes digested by `CheckSignature`, src/Validatory.cpp:206-252. -/
def headerHashInput (msg : Message) (h : Header) (sig : Signature) : Except Err Bytes :=
  match headLoop sig.canonHeader (HeaderCache.fill msg.headers) sig.headers with
  | .error e => .error e
  | .ok a =>
    match stripB h sig with
    | .error e => .error e
    | .ok t =>
      match filterHeader sig.canonHeader t with
      | .error e => .error e
      | .ok c => .ok (a ++ c)

/-- `n` bytes read at `s.c_str()`: bytes `0 .. size` (the terminating NUL included) may be read.
src/Validatory.cpp:266,274-277. -/
def readBuf (s : Bytes) (n : Nat) : Except Err Bytes :=
  if n ≤ s.length + 1 then .ok ((s ++ [0]).take n) else .error .ub

/-- The cryptographic check, src/Validatory.cpp:259-280. -/
def verifyDigest (E : Env) (sig : Signature) (pub : PublicKey E) (md : Bytes) : Except Err Unit :=
  match sig.alg with
  | .rsa =>
    match pub.rsa with
    | none => .error .ub
    | some key =>
      if E.rsaVerify key sig.digest md sig.b then .ok () else .error (.perm .sigMismatch .fail)
  | .ed25519 =>
    match readBuf sig.b 64 with
    | .error e => .error e
    | .ok s =>
      match readBuf pub.ed 32 with
      | .error e => .error e
      | .ok k => if E.edVerify k md s then .ok () else .error (.perm .sigMismatch .fail)

/-- The sanity checks, src/Validatory.cpp:177-189. -/
def sanityCheck {E : Env} (sig : Signature) (pub : PublicKey E) : Except Err Unit :=
  if pub.digests.length > 0 ∧ !pub.digests.contains sig.digest then .error (.p .algNotAllowed)
  else if sig.alg ≠ pub.alg then .error (.p .algMismatch)
  else if !sig.arc ∧ pub.flags.contains b!"s" ∧ sig.domain ≠ sig.mailDomain then
    .error (.p .strictDomain)
  else .ok ()

/-- `CheckSignature`, src/Validatory.cpp:172-283. It reads only the parsed message, not the
stream. -/
def checkSignature (E : Env) (msg : Message) (h : Header) (sig : Signature) (pub : PublicKey E) :
    Except Err Unit :=
  match sanityCheck sig pub with
  | .error e => .error e
  | .ok () =>
    match headerHashInput msg h sig with
    | .error e => .error e
    | .ok input => verifyDigest E sig pub (E.hash sig.digest input)

/-- Verification of one signature header with fresh `Signature` and `PublicKey` objects, as in
tools/src/main.cpp:178-183: parse, body hash, key lookup, signature check. `erange` is the errno
flag before. Returns the result, the objects, errno and the Validatory afterwards. -/
def Validatory.verifyOne (E : Env) (now : Int) (resolver : Bytes → Bool × Bytes) (v : Validatory)
    (h : Header) (erange : Bool) :
    Except Err Unit × SigSt × PublicKey E × Validatory :=
  match v.getSignature E now h { erange := erange } with
  | (.error e, st, v') => (.error e, st, {}, v')
  | (.ok (), st, v') =>
    match getPublicKey resolver st.sig ({} : PublicKey E) with
    | .error e pub => (.error e, st, pub, v')
    | .ok () pub => (checkSignature E v'.msg h st.sig pub, st, pub, v')

end Dkim

import Verif.Model.Signatory
import Verif.Model.Validatory
/-!
# Exceptions from outside: streams with an exception mask, faults at any access, resolvers that throw

`std::istream` as in C++11 [iostate.flags], [istream]: every operation that sets a state bit throws if that bit (or one set
before) is in the mask given to `exceptions()`. Any access to the source may fail (the stream buffer throws): the stream sets
badbit and, if badbit is in the mask, passes the exception on. `fault k = some j` says that the k-th access fails after j more
bytes were taken from the source. The functions of the library that touch the stream are modelled again over it; none of them
catches an exception. A resolver (`CustomDNSResolver`) may throw as well.
-/

namespace Dkim

/-- What ends a call: an exception of the library, or one from outside (the stream's or the resolver's).
What the stream of src/Validatory.hpp:71, src/Signatory.hpp:46 does in any of the calls at src/MailParser.cpp:88,108, src/Canonicalization.cpp:131-141. -/
inductive FErr
  | lib (e : Err)
  | outside
  deriving DecidableEq, Repr

/-- The bits given to `exceptions()`.
What the stream of src/Validatory.hpp:71, src/Signatory.hpp:46 does in any of the calls at src/MailParser.cpp:88,108, src/Canonicalization.cpp:131-141. -/
structure Mask where
  bad : Bool := false
  fail : Bool := false
  eof : Bool := false
  deriving DecidableEq, Repr

/-- A `std::istream`. src/Validatory.hpp:71, src/Signatory.hpp:46. -/
structure FStream where
  data : Bytes
  seekable : Bool := true
  mask : Mask := {}
  fault : Nat → Option Nat := fun _ => none
  /-- number of accesses so far -/
  ops : Nat := 0
  pos : Nat := 0
  eof : Bool := false
  fail : Bool := false
  bad : Bool := false

/-- Result of a call, and the stream afterwards (also after an exception).
What the stream of src/Validatory.hpp:71, src/Signatory.hpp:46 does in any of the calls at src/MailParser.cpp:88,108, src/Canonicalization.cpp:131-141. -/
abbrev FResult (α : Type) := Except FErr α × FStream

namespace FStream

/-- `stream.good()`. src/Canonicalization.cpp:136. -/
def good (s : FStream) : Bool := !s.eof && !s.fail && !s.bad

/-- The end of an operation that changed the state: `clear(rdstate() | bits)` throws if a bit of the mask is set.
What the stream of src/Validatory.hpp:71, src/Signatory.hpp:46 does in any of the calls at src/MailParser.cpp:88,108, src/Canonicalization.cpp:131-141. -/
def settle (s : FStream) (a : α) : FResult α :=
  if (s.mask.bad && s.bad) || (s.mask.fail && s.fail) || (s.mask.eof && s.eof) then (.error .outside, s) else (.ok a, s)

/-- `stream.clear()`. src/Canonicalization.cpp:131. -/
def clear (s : FStream) : FStream := { s with eof := false, fail := false, bad := false }

/-- `stream.seekg(off, beg)`. src/Canonicalization.cpp:132. -/
def seekg (s : FStream) (off : Int) : FResult Unit :=
  let s := { s with eof := false }
  if s.fail || s.bad then s.settle ()
  else if s.seekable ∧ 0 ≤ off ∧ off ≤ s.data.length then (.ok (), { s with pos := off.toNat })
  else { s with fail := true }.settle ()

/-- `stream.tellg()`. src/MailParser.cpp:108. -/
def tellg (s : FStream) : FResult Int :=
  if s.good then (.ok (if s.seekable then (s.pos : Int) else -1), s) else { s with fail := true }.settle (-1)

/-- `stream.read(buf, n)`: the bytes read (`gcount()` many). src/Canonicalization.cpp:141-144. -/
def read (s : FStream) (n : Nat) : FResult Bytes :=
  if !s.good then { s with fail := true }.settle []
  else
    let rest := s.data.drop s.pos
    match s.fault s.ops with
    | some j => { s with ops := s.ops + 1, pos := s.pos + min j rest.length, bad := true }.settle []
    | none =>
      if n ≤ rest.length then (.ok (rest.take n), { s with ops := s.ops + 1, pos := s.pos + n })
      else { s with ops := s.ops + 1, pos := s.pos + rest.length, eof := true, fail := true }.settle rest

/-- `std::getline(stream, line)`: `none` when the stream converts to false afterwards. src/MailParser.cpp:88. -/
def getline (s : FStream) : FResult (Option Bytes) :=
  if !s.good then { s with fail := true }.settle none
  else
    let rest := s.data.drop s.pos
    match s.fault s.ops with
    | some j => { s with ops := s.ops + 1, pos := s.pos + min j rest.length, bad := true }.settle none
    | none =>
      match IStream.cutLF rest with
      | some (line, _) => (.ok (some line), { s with ops := s.ops + 1, pos := s.pos + line.length + 1 })
      | none =>
        if rest.isEmpty then { s with ops := s.ops + 1, eof := true, fail := true }.settle none
        else { s with ops := s.ops + 1, pos := s.pos + rest.length, eof := true }.settle (some rest)

end FStream

/-- `Message::ParseLine`, src/MailParser.cpp:85-126. An exception leaves the message as it was before the call, except that
`tellg()` (line 108) throws after the field was pushed. -/
def Message.fParseLine (m : Message) (s : FStream) : FResult (Bool × Message) × Message :=
  match s.getline with
  | (.error e, s1) => ((.error e, s1), m)
  | (.ok none, s1) =>
    let m1 := { m with headers := m.pushTmp, bodyOffset := -1, done := true }
    ((.ok (false, m1), s1), m1)
  | (.ok (some line0), s1) =>
    match chopCR line0 with
    | [] =>
      match s1.tellg with
      | (.error e, s2) => ((.error e, s2), { m with tmp := none, headers := m.pushTmp })
      | (.ok off, s2) =>
        let m1 : Message := { tmp := none, headers := m.pushTmp, bodyOffset := off, done := true }
        ((.ok (true, m1), s2), m1)
    | c :: cs =>
      let m1 : Message :=
        if c ≠ TAB ∧ c ≠ SP then { m with headers := m.pushTmp, tmp := some {} } else m
      let h := m1.tmp.getD {}
      let m2 := { m1 with tmp := some (h.parseLine (c :: cs)) }
      ((.ok (true, m2), s1), m2)

/-- The header loop, src/Validatory.cpp:50, src/Signatory.cpp:57; also the message after an exception. -/
def Message.fParseLoop : Nat → Message → FStream → FResult Unit × Message
  | 0, m, s => ((.error (.lib .hang), s), m)
  | n + 1, m, s =>
    match m.fParseLine s with
    | ((.error e, s1), m1) => ((.error e, s1), m1)
    | ((.ok (ok, _), s1), m1) => if ok && !m1.done then fParseLoop n m1 s1 else ((.ok (), s1), m1)

/-- The header loop run on message and stream. src/Validatory.cpp:50, src/Signatory.cpp:57. -/
def Message.fParse (m : Message) (s : FStream) : FResult Unit × Message := m.fParseLoop (s.data.length + 2) s

/-- The `while (stream.good())` loop, src/Canonicalization.cpp:136-199. -/
def fBodyLoop (blk : Nat) (mode : CanonMode) (limit : Bool) : Nat → FStream → BodyAcc → FResult BodyAcc
  | 0, s, _ => (.error (.lib .hang), s)
  | n + 1, s, a =>
    if !s.good then (.ok a, s)
    else if limit ∧ a.size = 0 then (.ok a, s)
    else
      match s.read blk with
      | (.error e, s') => (.error e, s')
      | (.ok block, s') =>
        let (st', buf) := bodyBlock mode a.st block
        let a1 := ({ a with st := st' }).emit limit buf
        fBodyLoop blk mode limit n s' { a1 with empty := a1.empty && buf.isEmpty }

/-- `CanonicalizationBody`, src/Canonicalization.cpp:124-218. -/
def fBodyBlk (blk : Nat) (s : FStream) (mode : CanonMode) (bodyOffset : Int) (limit : Bool) (size : Nat) : FResult (List Bytes × Bool) :=
  let a0 : BodyAcc := { size := size }
  let r : FResult BodyAcc :=
    if bodyOffset ≠ -1 then
      match s.clear.seekg bodyOffset with
      | (.error e, s') => (.error e, s')
      | (.ok (), s') => fBodyLoop blk mode limit (s.data.length + 2) s' a0
    else (.ok a0, s)
  match r with
  | (.error e, s') => (.error e, s')
  | (.ok a, s') =>
    let a' := if a.empty = false ∨ mode ≠ .relaxed then a.emit limit CRLF else a
    (.ok (a'.calls, !(limit && a'.size > 0)), s')

/-- `char buffer[8096]`, src/Canonicalization.cpp:140. -/
def fBody := fBodyBlk 8096

/-- An exception of the library. For src/Signature.cpp:72-300, src/Signatory.cpp:80-265. -/
def liftLib : Except Err α → Except FErr α
  | .ok a => .ok a
  | .error e => .error (.lib e)

/-- `class Signatory`, src/Signatory.hpp:38-48. -/
structure FSignatory where
  file : FStream
  msg : Message := {}

/-- `CreateSignature`, src/Signatory.cpp:55-267. -/
def FSignatory.createSignature (E : Env) (o : Options E) (clock : Nat → Int) (sg : FSignatory) : Except FErr Bytes × FSignatory :=
  match sg.msg.fParse sg.file with
  | ((.error e, s1), msg) => (.error e, { file := s1, msg := msg })
  | ((.ok (), s1), msg) =>
    match fBody s1 o.canonBody msg.bodyOffset o.bodySignLength o.bodyLength with
    | (.error e, s2) => (.error e, { file := s2, msg := msg })
    | (.ok (calls, ok), s2) =>
      let sg' : FSignatory := { file := s2, msg := msg }
      if !ok then (.error (.lib (.p .bodyLimitExceeded)), sg')
      else
        let bh := E.hash o.digest calls.flatten
        match signLoop o.canonHead o.headers msg.headers.reverse with
        | .error e => (.error (.lib e), sg')
        | .ok (hashed, names) =>
          (liftLib (allSignatures E o clock hashed (names ++ o.oversign.map lower) bh 0 [] o.signatures.reverse), sg')

/-- `class Validatory`, src/Validatory.hpp:70-74. -/
structure FValidatory where
  file : FStream
  msg : Message
  sigs : List Header

/-- The constructor, src/Validatory.cpp:46-69: the object, or an exception; and the caller's stream. -/
def FValidatory.mk' (stream : FStream) (type : ValidatorType) : FResult FValidatory :=
  match ({} : Message).fParse stream with
  | ((.error e, s), _) => (.error e, s)
  | ((.ok (), s), m) => (.ok { file := s, msg := m, sigs := m.headers.filter (isSigHeader type) }, s)

/-- `CheckBodyHash`, src/Validatory.cpp:131-165. -/
def FValidatory.checkBodyHash (E : Env) (v : FValidatory) (sig : Signature) : Except FErr Unit × FValidatory :=
  match fBody v.file sig.canonBody v.msg.bodyOffset sig.bodySizeLimit sig.bodySize with
  | (.error e, s') => (.error e, { v with file := s' })
  | (.ok (calls, _), s') =>
    let v' := { v with file := s' }
    if sig.bh = E.hash sig.digest calls.flatten then (.ok (), v')
    else (.error (.lib (.perm .bodyHashMismatch .fail)), v')

/-- `GetSignature`, src/Validatory.cpp:80-85. -/
def FValidatory.getSignature (E : Env) (now : Int) (v : FValidatory) (h : Header) (st : SigSt) : Except FErr Unit × SigSt × FValidatory :=
  match Signature.parse E now h st with
  | .error e st' => (.error (.lib e), st', v)
  | .ok () st' =>
    match v.checkBodyHash E st'.sig with
    | (r, v') => (r, st', v')

/-- `GetPublicKey` with a resolver that may throw (`none`), src/Validatory.cpp:92-124: `pubkey` is not touched then. -/
def fGetPublicKey {E : Env} (resolver : Bytes → Option (Bool × Bytes)) (sig : Signature) (pub : PublicKey E) : Except FErr Unit × PublicKey E :=
  match resolver (keyQuery sig) with
  | none => (.error .outside, pub)
  | some a =>
    match getPublicKey (fun _ => a) sig pub with
    | .error e pub' => (.error (.lib e), pub')
    | .ok () pub' => (.ok (), pub')

/-- Verification of one signature header, as in tools/src/main.cpp:178-183. -/
def FValidatory.verifyOne (E : Env) (now : Int) (resolver : Bytes → Option (Bool × Bytes)) (v : FValidatory) (h : Header) (erange : Bool) :
    Except FErr Unit × SigSt × PublicKey E × FValidatory :=
  match v.getSignature E now h { erange := erange } with
  | (.error e, st, v') => (.error e, st, {}, v')
  | (.ok (), st, v') =>
    match fGetPublicKey resolver st.sig ({} : PublicKey E) with
    | (.error e, pub) => (.error e, st, pub, v')
    | (.ok (), pub) => (liftLib (checkSignature E v'.msg h st.sig pub), st, pub, v')

end Dkim

import Verif.Model.Signatory
/-!
# The message source as an arbitrary `std::istream`

`Model/Stream.lean` is a seekable source that is read without errors. Here the source may also be one
that cannot be positioned (a pipe, a terminal, a socket: `pubseekoff` gives -1) and one that breaks off
with an I/O error (the stream buffer throws; the stream catches the exception and sets badbit, C++11
[istream]). The functions of the library that touch the stream are modelled again over it.

Simplified: the error occurs after a fixed number of bytes, and again at the same place after a seek.
Errors at arbitrary accesses and streams with an exception mask (`exceptions()`) are in `Model/Faults.lean`.
-/

namespace Dkim

/-- A `std::istream`. `data` is what the source delivers; then it ends, or fails if `broken`.
src/Validatory.hpp:71, src/Signatory.hpp:46. -/
structure Device where
  data : Bytes
  seekable : Bool := true
  broken : Bool := false
  pos : Nat := 0
  eof : Bool := false
  fail : Bool := false
  bad : Bool := false
  deriving DecidableEq, Repr

namespace Device

/-- `stream.good()`. src/Canonicalization.cpp:136. -/
def good (d : Device) : Bool := !d.eof && !d.fail && !d.bad

/-- `stream.clear()`. src/Canonicalization.cpp:131. -/
def clear (d : Device) : Device := { d with eof := false, fail := false, bad := false }

/-- `stream.seekg(off, beg)`. src/Canonicalization.cpp:132. -/
def seekg (d : Device) (off : Int) : Device :=
  let d := { d with eof := false }
  if d.fail || d.bad then d
  else if d.seekable ∧ 0 ≤ off ∧ off ≤ d.data.length then { d with pos := off.toNat }
  else { d with fail := true }

/-- `stream.tellg()`: -1 if the stream is not good (setting failbit) or cannot be positioned. src/MailParser.cpp:108. -/
def tellg (d : Device) : Int × Device :=
  if d.good then (if d.seekable then (d.pos : Int) else -1, d) else (-1, { d with fail := true })

/-- `stream.read(buf, n)`: if the buffer throws, `gcount()` stays 0 and badbit is set.
src/Canonicalization.cpp:141-144. -/
def read (d : Device) (n : Nat) : Bytes × Device :=
  if !d.good then ([], { d with fail := true })
  else
    let rest := d.data.drop d.pos
    if n ≤ rest.length then (rest.take n, { d with pos := d.pos + n })
    else if d.broken then ([], { d with pos := d.pos + rest.length, bad := true })
    else (rest, { d with pos := d.pos + rest.length, eof := true, fail := true })

/-- `std::getline(stream, line)`: `none` when the stream converts to false afterwards. src/MailParser.cpp:88. -/
def getline (d : Device) : Option Bytes × Device :=
  if !d.good then (none, { d with fail := true })
  else
    let rest := d.data.drop d.pos
    match IStream.cutLF rest with
    | some (line, _) => (some line, { d with pos := d.pos + line.length + 1 })
    | none =>
      if d.broken then (none, { d with pos := d.pos + rest.length, bad := true })
      else if rest.isEmpty then (none, { d with eof := true, fail := true })
      else (some rest, { d with pos := d.pos + rest.length, eof := true })

end Device

/-- `Message::ParseLine`, src/MailParser.cpp:85-126. -/
def Message.parseLineFrom (m : Message) (s : Device) : Bool × Message × Device :=
  match s.getline with
  | (none, s1) =>
    (false, { m with headers := m.pushTmp, bodyOffset := -1, done := true }, s1)
  | (some line0, s1) =>
    match chopCR line0 with
    | [] =>
      let (off, s2) := s1.tellg
      (true, { tmp := none, headers := m.pushTmp, bodyOffset := off, done := true }, s2)
    | c :: cs =>
      let m1 : Message :=
        if c ≠ TAB ∧ c ≠ SP then { m with headers := m.pushTmp, tmp := some {} } else m
      let h := m1.tmp.getD {}
      (true, { m1 with tmp := some (h.parseLine (c :: cs)) }, s1)

/-- The header loop, src/Validatory.cpp:50, src/Signatory.cpp:57. -/
def Message.parseFromLoop : Nat → Message → Device → Except Err (Message × Device)
  | 0, _, _ => .error .hang
  | n + 1, m, s =>
    match m.parseLineFrom s with
    | (ok, m1, s1) => if ok && !m1.done then parseFromLoop n m1 s1 else .ok (m1, s1)

/-- The header loop run on message and stream. src/Validatory.cpp:50, src/Signatory.cpp:57. -/
def Message.parseFrom (m : Message) (s : Device) : Except Err (Message × Device) :=
  m.parseFromLoop (s.data.length + 2) s

/-- The `while (stream.good())` loop, src/Canonicalization.cpp:136-199. -/
def devLoop (blk : Nat) (mode : CanonMode) (limit : Bool) :
    Nat → Device → BodyAcc → Except Err (Device × BodyAcc)
  | 0, _, _ => .error .hang
  | n + 1, s, a =>
    if !s.good then .ok (s, a)
    else if limit ∧ a.size = 0 then .ok (s, a)
    else
      let (block, s') := s.read blk
      let (st', buf) := bodyBlock mode a.st block
      let a1 := ({ a with st := st' }).emit limit buf
      devLoop blk mode limit n s' { a1 with empty := a1.empty && buf.isEmpty }

/-- `CanonicalizationBody`, src/Canonicalization.cpp:124-218. -/
def devBodyBlk (blk : Nat) (s : Device) (mode : CanonMode) (bodyOffset : Int) (limit : Bool)
    (size : Nat) : Except Err ((List Bytes × Bool) × Device) :=
  let a0 : BodyAcc := { size := size }
  let r : Except Err (Device × BodyAcc) :=
    if bodyOffset ≠ -1 then
      devLoop blk mode limit (s.data.length + 2) (s.clear.seekg bodyOffset) a0
    else .ok (s, a0)
  match r with
  | .error e => .error e
  | .ok (s', a) =>
    let a' := if a.empty = false ∨ mode ≠ .relaxed then a.emit limit CRLF else a
    .ok ((a'.calls, !(limit && a'.size > 0)), s')

/-- `char buffer[8096]`, src/Canonicalization.cpp:140. -/
def devBody := devBodyBlk 8096

/-- `class Signatory`, src/Signatory.hpp:38-48. -/
structure DevSignatory where
  file : Device
  msg : Message := {}
  deriving DecidableEq, Repr

/-- `CreateSignature`, src/Signatory.cpp:55-267. -/
def DevSignatory.createSignature (E : Env) (o : Options E) (clock : Nat → Int) (sg : DevSignatory) :
    Except Err Bytes × DevSignatory :=
  match sg.msg.parseFrom sg.file with
  | .error e => (.error e, sg)
  | .ok (msg, s1) =>
    match devBody s1 o.canonBody msg.bodyOffset o.bodySignLength o.bodyLength with
    | .error e => (.error e, { file := s1, msg := msg })
    | .ok ((calls, ok), s2) =>
      let sg' : DevSignatory := { file := s2, msg := msg }
      if !ok then (.error (.p .bodyLimitExceeded), sg')
      else
        let bh := E.hash o.digest calls.flatten
        match signLoop o.canonHead o.headers msg.headers.reverse with
        | .error e => (.error e, sg')
        | .ok (hashed, names) =>
          (allSignatures E o clock hashed (names ++ o.oversign.map lower) bh 0 []
            o.signatures.reverse, sg')

/-- `class Validatory`, src/Validatory.hpp:70-74. -/
structure DevValidatory where
  file : Device
  msg : Message
  sigs : List Header
  deriving DecidableEq, Repr

/-- The constructor, src/Validatory.cpp:46-69. -/
def DevValidatory.mk' (stream : Device) (type : ValidatorType) : Except Err DevValidatory :=
  match ({} : Message).parseFrom stream with
  | .error e => .error e
  | .ok (m, s) => .ok { file := s, msg := m, sigs := m.headers.filter (isSigHeader type) }

/-- `CheckBodyHash`, src/Validatory.cpp:131-165. -/
def DevValidatory.checkBodyHash (E : Env) (v : DevValidatory) (sig : Signature) :
    Except Err Unit × DevValidatory :=
  match devBody v.file sig.canonBody v.msg.bodyOffset sig.bodySizeLimit sig.bodySize with
  | .error e => (.error e, v)
  | .ok ((calls, _), s') =>
    let v' := { v with file := s' }
    if sig.bh = E.hash sig.digest calls.flatten then (.ok (), v')
    else (.error (.perm .bodyHashMismatch .fail), v')

/-- `GetSignature`, src/Validatory.cpp:80-85. -/
def DevValidatory.getSignature (E : Env) (now : Int) (v : DevValidatory) (h : Header) (st : SigSt) :
    Except Err Unit × SigSt × DevValidatory :=
  match Signature.parse E now h st with
  | .error e st' => (.error e, st', v)
  | .ok () st' =>
    match v.checkBodyHash E st'.sig with
    | (r, v') => (r, st', v')

/-- Verification of one signature header, as in tools/src/main.cpp:178-183. -/
def DevValidatory.verifyOne (E : Env) (now : Int) (resolver : Bytes → Bool × Bytes) (v : DevValidatory)
    (h : Header) (erange : Bool) :
    Except Err Unit × SigSt × PublicKey E × DevValidatory :=
  match v.getSignature E now h { erange := erange } with
  | (.error e, st, v') => (.error e, st, {}, v')
  | (.ok (), st, v') =>
    match getPublicKey resolver st.sig ({} : PublicKey E) with
    | .error e pub => (.error e, st, pub, v')
    | .ok () pub => (checkSignature E v'.msg h st.sig pub, st, pub, v')

end Dkim

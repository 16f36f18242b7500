import Verif.Model.TagList
import Verif.Model.EncodedWord
import Verif.Model.Canonicalization
/-!
# The parsers as stream programs

`Model/Tokenizer.lean`, `Model/TagList.lean`, `Model/QuotedPrintable.lean`, `Model/EncodedWord.lean`
and `collapse` represent a `std::stringstream` by the bytes that are left. Here the same functions
are written again, statement by statement, over a `std::stringstream` with a get position and the
three state bits, so that look-ahead, put-back, the end-of-file bits and the positions printed in the
error texts are part of the model. `Props/StringStream.lean` proves that both agree.
-/

namespace Dkim

/-- A `std::stringstream` constructed from a string and only read (`data(input)`,
src/Tokenizer.cpp:133,280, src/TagList.cpp:99, src/Canonicalization.cpp:83,
src/QuotedPrintable.cpp:36, src/EncodedWord.cpp:36): the buffer, the get position and
`eofbit`, `failbit`, `badbit`. The exception mask is empty, as in the code. -/
structure SS where
  data : Bytes
  pos : Nat := 0
  eof : Bool := false
  fail : Bool := false
  bad : Bool := false
  deriving DecidableEq, Repr

/-- `good()`: no state bit is set.
For the streams made at src/Tokenizer.cpp:133,280, src/TagList.cpp:99, src/Canonicalization.cpp:83, src/QuotedPrintable.cpp:36, src/EncodedWord.cpp:36. -/
def SS.good (s : SS) : Bool := !s.eof && !s.fail && !s.bad

/-- An exception with what its text prints: the `throw` site, the byte printed with `0x%x` and the
position printed with `%ld`. `hang` is a loop that does not end within its fuel.
For the streams made at src/Tokenizer.cpp:133,280, src/TagList.cpp:99, src/Canonicalization.cpp:83, src/QuotedPrintable.cpp:36, src/EncodedWord.cpp:36. -/
inductive SErr
  | hang
  | perm (r : Reason) (byte : Option Nat) (pos : Option Int)
  deriving DecidableEq, Repr

/-- The exception without the numbers in its text.
For the streams made at src/Tokenizer.cpp:133,280, src/TagList.cpp:99, src/Canonicalization.cpp:83, src/QuotedPrintable.cpp:36, src/EncodedWord.cpp:36. -/
def SErr.toErr : SErr → Err
  | .hang => .hang
  | .perm r _ _ => .p r

/-- Code reading a stringstream.
For the streams made at src/Tokenizer.cpp:133,280, src/TagList.cpp:99, src/Canonicalization.cpp:83, src/QuotedPrintable.cpp:36, src/EncodedWord.cpp:36. -/
abbrev SM := EStateM SErr SS

namespace SS

/-- `istream::peek()` (`none` is `EOF`): on a stream that is not good the sentry sets `failbit`; at
the end of the buffer `eofbit` is set. E.g. src/Tokenizer.cpp:69,83. -/
def peek : SM (Option Byte) := fun s =>
  if s.good then
    match s.data[s.pos]? with
    | some c => .ok (some c) s
    | none => .ok none { s with eof := true }
  else .ok none { s with fail := true }

/-- `istream::get()` (`none` is `EOF`): at the end of the buffer `eofbit` and `failbit` are set.
E.g. src/Tokenizer.cpp:42,71,161. -/
def get : SM (Option Byte) := fun s =>
  if s.good then
    match s.data[s.pos]? with
    | some c => .ok (some c) { s with pos := s.pos + 1 }
    | none => .ok none { s with eof := true, fail := true }
  else .ok none { s with fail := true }

/-- `istream::putback(c)`: clears `eofbit`; if the stream is then good, steps back and stores `c`,
or sets `badbit` at the start of the buffer; otherwise sets `failbit`. src/Tokenizer.cpp:118. -/
def putback (c : Byte) : SM Unit := fun s =>
  let s := { s with eof := false }
  if s.good then
    if s.pos = 0 then .ok () { s with bad := true }
    else .ok () { s with pos := s.pos - 1, data := s.data.set (s.pos - 1) c }
  else .ok () { s with fail := true }

/-- `ios::clear()`. src/Tokenizer.cpp:116-119. -/
def clear : SM Unit := fun s => .ok () { s with eof := false, fail := false, bad := false }

/-- `istream::tellg()`: the sentry sets `failbit` on a stream that is not good, and then -1 is
returned. src/Tokenizer.cpp:50, src/TagList.cpp:131,147,181. -/
def tellg : SM Int := fun s =>
  if s.good then .ok (s.pos : Int) s else .ok (-1) { s with fail := true }

/-- Bytes left in the buffer; used only as fuel for the loops below.
For the streams made at src/Tokenizer.cpp:133,280, src/TagList.cpp:99, src/Canonicalization.cpp:83, src/QuotedPrintable.cpp:36, src/EncodedWord.cpp:36. -/
def left : SM Nat := fun s => .ok (s.data.length - s.pos) s

/-- `(char)stream.get()`: `EOF` is -1, that is byte 0xFF. E.g. src/Tokenizer.cpp:42,71,161. -/
def toChar (o : Option Byte) : Byte := o.getD 255

/-- `stream.peek() & 0xff`. src/Tokenizer.cpp:49, src/TagList.cpp:146,180. -/
def code (o : Option Byte) : Nat := (toChar o).toNat

/-- The test `stream.peek() == 'c'`. E.g. src/Tokenizer.cpp:69,83. -/
def peekIs (c : Byte) : SM Bool := do return (← peek) == some c

/-- The test `stream.peek() == EOF`. src/TagList.cpp:161, src/Tokenizer.cpp:204. -/
def peekEOF : SM Bool := do return (← peek) == none

/-- The test `stream.peek() >= 'a'`; `EOF` is negative.
src/TagList.cpp:114-124,164-165, src/QuotedPrintable.cpp:55,64,75-77. -/
def peekGe (a : Byte) : SM Bool := do
  match ← peek with
  | some c => return a ≤ c
  | none => return false

/-- The test `stream.peek() <= 'b'`; `EOF` is negative.
src/TagList.cpp:114-124,164-165, src/QuotedPrintable.cpp:55,64,75-77. -/
def peekLe (b : Byte) : SM Bool := do
  match ← peek with
  | some c => return c ≤ b
  | none => return true

/-- The test `(stream.peek() >= 'a' && stream.peek() <= 'b')`.
src/TagList.cpp:114-124,164-165, src/QuotedPrintable.cpp:55,64,75-77. -/
def between (a b : Byte) : SM Bool := peekGe a <&&> peekLe b

/-- The two arguments `stream.peek() & 0xff, (ssize_t)stream.tellg()` of `StringFormat`. C++ leaves
the order of their evaluation open: `lr` says whether the first one is evaluated first.
src/Tokenizer.cpp:48-51, src/TagList.cpp:145-148,179-182, src/QuotedPrintable.cpp:58-61. -/
def peekTell (lr : Bool) : SM (Nat × Int) :=
  if lr then do
    let b ← peek
    let p ← tellg
    return (code b, p)
  else do
    let p ← tellg
    let b ← peek
    return (code b, p)

/-- `throw PermanentError(StringFormat("... 0x%x ... %ld", peek() & 0xff, (ssize_t)tellg()))`.
src/Tokenizer.cpp:48-51, src/TagList.cpp:145-148,179-182, src/QuotedPrintable.cpp:58-61. -/
def throwAt {α : Type} (lr : Bool) (r : Reason) : SM α := do
  let (b, p) ← peekTell lr
  throw (.perm r (some b) (some p))

/-- `throw PermanentError(StringFormat("... %ld", (ssize_t)tellg()))`. src/Tokenizer.cpp:168, src/TagList.cpp:130. -/
def throwPos {α : Type} (r : Reason) : SM α := do
  let p ← tellg
  throw (.perm r none (some p))

/-- `throw PermanentError(text)` with a text without numbers. src/Tokenizer.cpp:54,204,207,228,233,293,318. -/
def throwPlain {α : Type} (r : Reason) : SM α := throw (.perm r none none)

/-! ## `ReadWhiteSpace` -/

/-- `ReadWhiteSpace(stream, READ_CRLF)`, src/Tokenizer.cpp:37-62. -/
def readCRLF (lr : Bool) : SM Bytes := do
  if ← peekIs CR then
    let c ← get
    let p ← peek
    if p != some LF then
      if p != none then throwAt lr .crWithoutLf
      else throwPlain .crWithoutLf
    else
      let d ← get
      return [toChar c, toChar d]
  else return []

/-- `ReadWhiteSpace(stream, READ_WSP)`, src/Tokenizer.cpp:66-76. -/
def readWSP : SM Bytes := do
  if ← (peekIs SP <||> peekIs TAB) then
    let c ← get
    return [toChar c]
  else return []

/-- `ReadWhiteSpace(stream, READ_WSP_LOOSE)`, src/Tokenizer.cpp:80-90. -/
def readLoose : SM Bytes := do
  if ← (peekIs SP <||> (peekIs TAB <||> (peekIs CR <||> peekIs LF))) then
    let c ← get
    return [toChar c]
  else return []

/-- `while (!(_t = ReadWhiteSpace(stream, READ_WSP)).empty()) { _s += _t; }`,
src/Tokenizer.cpp:99-100, 110-111. -/
def loopWSP : Nat → Bytes → SM Bytes
  | 0, _ => throw .hang
  | n + 1, s => do
    let t ← readWSP
    if t.isEmpty then return s
    else loopWSP n (s ++ t)

/-- `for (size_t i = _s.size(); i > 0; i--) stream.putback(_s[i-1]);`, src/Tokenizer.cpp:116-119,
the string given backwards. -/
def putbackAll : Bytes → SM Unit
  | [] => return ()
  | c :: r => do
    putback c
    putbackAll r

/-- `ReadWhiteSpace(stream, READ_FWS)`, src/Tokenizer.cpp:94-122. -/
def readFWS (lr : Bool) : SM Bytes := do
  let s ← loopWSP ((← left) + 1) []
  let t ← readCRLF lr
  if t.isEmpty then return s
  else
    let s := s ++ t
    let t ← readWSP
    if t.isEmpty then
      clear
      putbackAll s.reverse
      return []
    else
      let s := s ++ t
      loopWSP ((← left) + 1) s

/-- `WhiteSpaceType`, src/Tokenizer.hpp:31-36. -/
inductive WSType | crlf | wsp | wspLoose | fws
  deriving DecidableEq, Repr

/-- `ReadWhiteSpace`, src/Tokenizer.cpp:33-127. -/
def readWhiteSpace (lr : Bool) : WSType → SM Bytes
  | .crlf => readCRLF lr
  | .wsp => readWSP
  | .wspLoose => readLoose
  | .fws => readFWS lr

/-- `while (!ReadWhiteSpace(data, READ_FWS).empty());`, src/Tokenizer.cpp:140, src/EncodedWord.cpp:39
and, with `found = true` as body, src/Canonicalization.cpp:89-91: `found` at the end. -/
def skipFWS (lr : Bool) : Nat → Bool → SM Bool
  | 0, _ => throw .hang
  | n + 1, found => do
    let w ← readFWS lr
    if w.isEmpty then return found
    else skipFWS lr n true

/-- `while (!ReadWhiteSpace(data, READ_WSP_LOOSE).empty());`, src/TagList.cpp:107, 141, 154. -/
def skipLoose : Nat → SM Unit
  | 0 => throw .hang
  | n + 1 => do
    let w ← readLoose
    if w.isEmpty then return ()
    else skipLoose n

/-! ## `ValueList` -/

/-- The inner loop of `ValueList`, src/Tokenizer.cpp:147-165; arguments `value_buf`, `value`. -/
def valueLoop (lr : Bool) : Nat → Bytes → Bytes → SM Bytes
  | 0, _, _ => throw .hang
  | n + 1, buf, val => do
    let ws ← readFWS lr
    if ws.isEmpty then
      if ← (peekIs COLON <||> peekEOF) then return val
      else
        let val := if buf.isEmpty then val else val ++ buf
        let buf := []
        let c ← get
        valueLoop lr n (buf ++ ws) (val ++ [toChar c])
    else valueLoop lr n (buf ++ ws) val

/-- The outer loop of `ValueList`, src/Tokenizer.cpp:135-177; argument `values`. -/
def valueListLoop (lr : Bool) : Nat → List Bytes → SM (List Bytes)
  | 0, _ => throw .hang
  | n + 1, values => do
    let _ ← skipFWS lr ((← left) + 1) false
    if ← peekEOF then return values
    else
      let value ← valueLoop lr ((← left) + 1) [] []
      if value.isEmpty then throwPos .emptyListValue
      else
        let values := values ++ [value]
        if (← get) == none then return values
        else valueListLoop lr n values

/-- Running stream code on `std::stringstream data(input)`.
For the streams made at src/Tokenizer.cpp:133,280, src/TagList.cpp:99, src/Canonicalization.cpp:83, src/QuotedPrintable.cpp:36, src/EncodedWord.cpp:36. -/
def run {α : Type} (m : SM α) (input : Bytes) : Except SErr α :=
  match m { data := input } with
  | .ok a _ => .ok a
  | .error e _ => .error e

/-- `ValueList`, src/Tokenizer.cpp:129-180. -/
def valueList (lr : Bool) (input : Bytes) : Except SErr (List Bytes) :=
  run (valueListLoop lr (input.length + 1) []) input

/-! ## `NextAddressListToken`, `ParseAddressList` -/

/-- The quoted-string loop, src/Tokenizer.cpp:199-217; `char c` equals `EOF` for byte 0xFF if `char`
is signed (`sc`), and never if it is not. -/
def quotedLoop (sc : Bool) : Nat → Bytes → SM Bytes
  | 0, _ => throw .hang
  | n + 1, token => do
    let c := toChar (← get)
    if sc && c == 255 then throwPlain .unclosedString
    else if c == 92 then
      if ← peekEOF then throwPlain .incompleteEscape
      else
        let d ← get
        quotedLoop sc n (token ++ [toChar d])
    else if c == 34 then return token
    else quotedLoop sc n (token ++ [c])

/-- The part of the comment loop after the escape, src/Tokenizer.cpp:239-246: new `depth` and
`token`. -/
def commentStep (depth : Nat) (token : Bytes) : SM (Nat × Bytes) := do
  let depth := if ← peekIs 40 then depth + 1 else depth
  let depth := if ← peekIs 41 then depth - 1 else depth
  let c ← get
  if depth > 0 then return (depth, token ++ [toChar c])
  else return (depth, token)

/-- The comment loop, src/Tokenizer.cpp:225-247. -/
def commentLoop : Nat → Nat → Bytes → SM Bytes
  | 0, _, _ => throw .hang
  | n + 1, depth, token => do
    if depth = 0 then return token
    else
      if ← peekEOF then throwPlain .unclosedComment
      else
        if ← peekIs 92 then
          let _ ← get
          if ← peekEOF then throwPlain .incompleteEscape
          else
            let d ← get
            let (depth, token) ← commentStep depth (token ++ [toChar d])
            commentLoop n depth token
        else
          let (depth, token) ← commentStep depth token
          commentLoop n depth token

/-- `NextAddressListToken`, src/Tokenizer.cpp:182-274; argument `token`, result type and `token`. -/
def nextTok (lr sc : Bool) : Nat → Bytes → SM (AddrTok × Bytes)
  | 0, _ => throw .hang
  | n + 1, token => do
    let done : SM (AddrTok × Bytes) :=
      if token.isEmpty then pure (.eof, token) else pure (.atom, token)
    if ← peekEOF then done
    else
      let ws ← readFWS lr
      if !ws.isEmpty && !token.isEmpty then done
      else if ← peekEOF then done
      else if ← peekIs 34 then
        if !token.isEmpty then return (.atom, token)
        else
          let _ ← get
          let token ← quotedLoop sc ((← left) + 1) []
          return (.quoted, token)
      else if ← peekIs 40 then
        if !token.isEmpty then return (.atom, token)
        else
          let _ ← get
          let token ← commentLoop ((← left) + 2) 1 []
          return (.comment, token)
      else if ← peekIs 60 then
        if !token.isEmpty then return (.atom, token)
        else
          let _ ← get
          return (.tagOpen, token)
      else if ← peekIs 62 then
        if !token.isEmpty then return (.atom, token)
        else
          let _ ← get
          return (.tagClose, token)
      else if ← (peekIs 44 <||> peekIs 59) then
        if !token.isEmpty then return (.atom, token)
        else
          let _ ← get
          return (.separator, token)
      else
        let c ← get
        nextTok lr sc n (token ++ [toChar c])

/-- A call that does not touch this stream, its exception passed on.
For src/EncodedWord.cpp:123-138, src/Tokenizer.cpp:333. -/
def liftErr {α : Type} (r : Except SErr α) : SM α :=
  match r with
  | .ok a => pure a
  | .error e => throw e

/-- The `switch` of `ParseAddressList`, src/Tokenizer.cpp:295-349; it does not touch the stream. `rec`
is the recursive call (line 333). -/
def addrSwitch (rec : Bytes → Except SErr (List Bytes)) (st : AddrSt) (token : Bytes) :
    Except SErr AddrSt :=
  /- lines 316-346, with `inOpen` as just updated -/
  let flush (inOpen : Bool) : Except SErr AddrSt :=
    if inOpen then .error (.perm .unclosedAddrSpec none none)
    else
      match st.tokens with
      | [] => .ok { st with inOpen := inOpen }
      | t :: ts =>
        if st.type = .separator ∧ st.last ≠ .tagClose ∧ !((t :: ts).getLast (by simp)).contains 64 then
          .ok { st with inOpen := inOpen, tokens := [] }
        else if st.last = .quoted ∧ ts = [] then
          match rec t with
          | .error e => .error e
          | .ok addrs => .ok { st with inOpen := inOpen, list := st.list ++ addrs, tokens := [] }
        else
          .ok { st with inOpen := inOpen, list := st.list ++ [(t :: ts).flatten], tokens := [] }
  match st.type with
  | .quoted => .ok { st with tokens := st.tokens ++ [token] }
  | .atom => .ok { st with tokens := st.tokens ++ [token] }
  | .comment => .ok st
  | .tagOpen => .ok { st with tokens := [], inOpen := true }
  | .tagClose => flush false
  | .separator => flush st.inOpen
  | .eof => flush st.inOpen

/-- The loop of `ParseAddressList`, src/Tokenizer.cpp:287-350. -/
def addrLoop (lr sc : Bool) (rec : Bytes → Except SErr (List Bytes)) :
    Nat → AddrSt → SM (List Bytes)
  | 0, _ => throw .hang
  | n + 1, st => do
    if st.type = .eof then return st.list
    else
      let (ty, token) ← nextTok lr sc ((← left) + 1) []
      if token.contains 0 then throwPlain .nulInAddress
      else
        let st ← liftErr (addrSwitch rec { st with last := st.type, type := ty } token)
        addrLoop lr sc rec n st

/-- `ParseAddressList` with a bound on the recursion depth, src/Tokenizer.cpp:276-353. -/
def parseAddrDepth (lr sc : Bool) : Nat → Bytes → Except SErr (List Bytes)
  | 0, _ => .error .hang
  | n + 1, input => run (addrLoop lr sc (parseAddrDepth lr sc n) (input.length + 2) {}) input

/-- `ParseAddressList`, src/Tokenizer.cpp:276-353. -/
def parseAddressList (lr sc : Bool) (input : Bytes) : Except SErr (List Bytes) :=
  parseAddrDepth lr sc (input.length + 1) input

/-! ## `FilterHeader` -/

/-- The unfold/collapse loop, src/Canonicalization.cpp:86-98; argument `x`. -/
def collapse (lr : Bool) : Nat → Bytes → SM Bytes
  | 0, _ => throw .hang
  | n + 1, x => do
    let found ← skipFWS lr ((← left) + 1) false
    if ← peekEOF then return x
    else
      let x := if found then x ++ [SP] else x
      let c ← get
      collapse lr n (x ++ [toChar c])

/-- `CanonicalizationHeader::FilterHeader`, src/Canonicalization.cpp:44-122, with the loop above;
the rest does not use the stream. -/
def filterHeader (lr : Bool) (mode : CanonMode) (input : Bytes) : Except SErr Bytes :=
  match mode with
  | .simple => .ok input
  | .relaxed =>
    match input.findIdx? (· == COLON) with
    | none => .error (.perm (.missingColon input) none none)
    | some k =>
      let output := lower (input.take k) ++ input.drop k
      match run (collapse lr (output.length + 1) []) output with
      | .error e => .error e
      | .ok x =>
        match colonTrim input x with
        | .ok y => .ok y
        | .error _ => .error (.perm (.missingColon input) none none)

/-! ## `QuotedPrintable::Decode` -/

/-- The test for a hex digit, src/QuotedPrintable.cpp:55, 64. -/
def peekHex : SM Bool := between 65 70 <||> between 48 57

/-- The loop of `QuotedPrintable::Decode`, src/QuotedPrintable.cpp:39-89; argument `output`. -/
def qpLoop (lr toSpace : Bool) : Nat → Bytes → SM Bytes
  | 0, _ => throw .hang
  | n + 1, output => do
    if ← peekEOF then return output
    else if ← (pure toSpace <&&> peekIs 95) then
      let _ ← get
      qpLoop lr toSpace n (output ++ [SP])
    else if ← peekIs EQ then
      let _ ← get
      if ← peekHex then
        let a ← get
        if ← peekHex then
          let b ← get
          qpLoop lr toSpace n (output ++ [hexVal (toChar a) * 16 + hexVal (toChar b)])
        else throwAt lr .qpHex
      else throwAt lr .qpHex
    else if ← (between 0x21 0x3A <||> (peekIs 0x3C <||> between 0x3E 0x7E)) then
      let c ← get
      qpLoop lr toSpace n (output ++ [toChar c])
    else
      let ws ← readFWS lr
      if ws.isEmpty then throwAt lr .qpUnsafe
      else qpLoop lr toSpace n output

/-- `QuotedPrintable::Decode`, src/QuotedPrintable.cpp:34-92. -/
def qpDecode (lr : Bool) (input : Bytes) (toSpace : Bool) : Except SErr Bytes :=
  run (qpLoop lr toSpace (input.length + 1) []) input

/-! ## `EncodedWord::Decode` -/

/-- The inner whitespace loop, src/EncodedWord.cpp:44-58; argument `ws`. -/
def ewSpace (lr : Bool) : Nat → Bytes → SM Bytes
  | 0, _ => throw .hang
  | n + 1, ws => do
    let w ← readWSP
    if !w.isEmpty then ewSpace lr n (ws ++ w)
    else
      let w ← readCRLF lr
      if !w.isEmpty then ewSpace lr n ws
      else return ws

/-- `while (!fail) { if (peek() == EOF) { fail = true; break; } if (peek() == '?') break; else x +=
get(); }`, src/EncodedWord.cpp:74-81, 87-94, 100-107: (fail, x). -/
def untilQ : Nat → Bytes → SM (Bool × Bytes)
  | 0, _ => throw .hang
  | n + 1, x => do
    if ← peekEOF then return (true, x)
    else if ← peekIs 63 then return (false, x)
    else
      let c ← get
      untilQ n (x ++ [toChar c])

/-- One `if (!fail && data.peek() == '?') { buffer += get(); ... buffer += x; } else fail = true;`,
src/EncodedWord.cpp:71-83, 84-96, 97-109: (fail, x, buffer). -/
def ewPart (fail : Bool) (buffer : Bytes) : SM (Bool × Bytes × Bytes) := do
  if ← (pure (!fail) <&&> peekIs 63) then
    let c ← get
    let buffer := buffer ++ [toChar c]
    let (fail, x) ← untilQ ((← left) + 1) []
    return (fail, x, buffer ++ x)
  else return (true, [], buffer)

/-- The scanner, src/EncodedWord.cpp:63-121: (fail, encoding, encdata, buffer). -/
def ewScan : SM (Bool × Bytes × Bytes × Bytes) := do
  let c ← get
  let buffer := [toChar c]
  let (fail, _, buffer) ← ewPart false buffer
  let (fail, encoding, buffer) ← ewPart fail buffer
  let (fail, encdata, buffer) ← ewPart fail buffer
  let (fail, buffer) ←
    if ← (pure (!fail) <&&> peekIs 63) then do
      let c ← get
      let buffer := buffer ++ [toChar c]
      if ← peekIs EQ then do
        let c ← get
        pure (false, buffer ++ [toChar c])
      else pure (true, buffer)
    else pure (true, buffer)
  let bad ← pure (!fail) <&&> ((do return !(← peekEOF)) <&&> ((do return !(← peekIs SP)) <&&>
    ((do return !(← peekIs CR)) <&&> ((do return !(← peekIs LF)) <&&> (do return !(← peekIs TAB))))))
  return (fail || bad, encoding, encdata, buffer)

/-- Decoding the data part, src/EncodedWord.cpp:123-138; `none` = `fail`. -/
def ewData (lr : Bool) (E : Env) (enc dat : Bytes) : Option Bytes :=
  if enc = b!"q" ∨ enc = b!"Q" then
    match qpDecode lr dat true with
    | .ok o => some o
    | .error _ => none
  else if enc = b!"b" ∨ enc = b!"B" then some (E.b64dec dat)
  else none

/-- The main loop, src/EncodedWord.cpp:42-156; arguments `ws`, `output`. -/
def ewLoop (lr : Bool) (E : Env) : Nat → Bytes → Bytes → SM Bytes
  | 0, _, _ => throw .hang
  | n + 1, ws, output => do
    let ws ← ewSpace lr ((← left) + 1) ws
    if ← peekIs EQ then
      let (fail, encoding, encdata, buffer) ← ewScan
      match (if fail then none else ewData lr E encoding encdata) with
      | some o => ewLoop lr E n [] (output ++ o)
      | none => ewLoop lr E n [] (output ++ (ws ++ buffer))
    else
      if ← peekEOF then return output
      else
        let c ← get
        ewLoop lr E n [] (output ++ ws ++ [toChar c])

/-- `EncodedWord::Decode`, src/EncodedWord.cpp:33-159. -/
def ewDecode (lr : Bool) (E : Env) (input : Bytes) : Except SErr Bytes :=
  run (do
    let _ ← skipFWS lr ((← left) + 1) false
    ewLoop lr E ((← left) + 1) [] []) input

/-! ## `TagList::Parse` -/

/-- The local stringstream together with the member `m_tags`. For src/TagList.cpp:97-197. -/
abbrev TM := EStateM SErr (SS × TagList)

/-- Stream code inside `TagList::Parse`. For src/TagList.cpp:97-197. -/
def onStream {α : Type} (m : SM α) : TM α := fun (s, tags) =>
  match m s with
  | .ok a s' => .ok a (s', tags)
  | .error e s' => .error e (s', tags)

/-- The test for `[A-Za-z0-9]`, src/TagList.cpp:114-116. -/
def peekAlnum : SM Bool := between 65 90 <||> (between 97 122 <||> between 48 57)

/-- The test for `[A-Za-z0-9_]`, src/TagList.cpp:121-124. -/
def peekNameChar : SM Bool :=
  between 65 90 <||> (between 97 122 <||> (between 48 57 <||> peekIs 95))

/-- The loop over the rest of a tag name, src/TagList.cpp:120-127; argument `name`. -/
def nameLoop : Nat → Bytes → SM Bytes
  | 0, _ => throw .hang
  | n + 1, name => do
    if ← peekNameChar then
      let c ← get
      nameLoop n (name ++ [toChar c])
    else return name

/-- Reading a tag name, src/TagList.cpp:113-127. -/
def readName : SM Bytes := do
  let name ← if ← peekAlnum then do
      let c ← get
      pure [toChar c]
    else pure []
  nameLoop ((← left) + 1) name

/-- The tag-value loop, src/TagList.cpp:161-186; arguments `value_buf`, `value`. -/
def readValue (lr : Bool) : Nat → Bytes → Bytes → SM Bytes
  | 0, _, _ => throw .hang
  | n + 1, buf, value => do
    if ← ((do return !(← peekIs SEMI)) <&&> (do return !(← peekEOF))) then
      if ← (between 0x21 0x3A <||> between 0x3C 0x7E) then
        let value := if buf.isEmpty then value else value ++ buf
        let c ← get
        readValue lr n [] (value ++ [toChar c])
      else
        let ws ← readLoose
        if ws.isEmpty then throwAt lr .badTagValue
        else readValue lr n (buf ++ ws) value
    else return value

/-- The loop of `TagList::Parse`, src/TagList.cpp:101-194. -/
def tagLoop (lr : Bool) : Nat → TM Unit
  | 0 => throw .hang
  | n + 1 => do
    onStream (do skipLoose ((← left) + 1))
    if ← onStream peekEOF then return ()
    else
      let name ← onStream readName
      if name.isEmpty then onStream (throwPos .emptyTagName)
      else if ((← MonadState.get).2.getTag name).isSome then throw (.perm (.duplicateTag name) none none)
      else
        onStream (do skipLoose ((← left) + 1))
        if !(← onStream (peekIs EQ)) then onStream (throwAt lr .expectedEq)
        else
          let _ ← onStream get
          onStream (do skipLoose ((← left) + 1))
          let offset ← onStream tellg
          let value ← onStream (do readValue lr ((← left) + 1) [] [])
          modify (fun (s, tags) => (s, tags ++ [(name, { value := value, offset := offset })]))
          if (← onStream get) == none then return ()
          else tagLoop lr n

/-- `TagList::Parse`, src/TagList.cpp:97-197: outcome and tags afterwards. -/
def tagParse (lr : Bool) (input : Bytes) (tags : TagList) : Except SErr Unit × TagList :=
  match tagLoop lr (input.length + 1) ({ data := input }, tags) with
  | .ok _ (_, t) => (.ok (), t)
  | .error e (_, t) => (.error e, t)

end SS
end Dkim

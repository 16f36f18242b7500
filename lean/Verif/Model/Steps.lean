import Verif.Model.StringStream
import Verif.Model.PublicKey
/-!
# The parsers with a step counter

The stream programs of `Model/StringStream.lean` once more; every call of a member function of the
stream (`peek`, `get`, `putback`, `clear`, `tellg`) counts one step. Not counted: work on strings and
maps (a bounded number of amortised constant or logarithmic operations between two calls), the base64
decoder. `Props/Steps.lean` proves that the results are those of `Model/StringStream.lean` and bounds the
steps.
-/

namespace Dkim.Steps
open SS (toChar code)

/-- Code reading a stringstream, with the number of steps made.
For the streams made at src/Tokenizer.cpp:133,280, src/TagList.cpp:99, src/Canonicalization.cpp:83, src/QuotedPrintable.cpp:36, src/EncodedWord.cpp:36. -/
abbrev CM := EStateM SErr (SS × Nat)

/-- One step.
For the streams made at src/Tokenizer.cpp:133,280, src/TagList.cpp:99, src/Canonicalization.cpp:83, src/QuotedPrintable.cpp:36, src/EncodedWord.cpp:36. -/
def tick {α : Type} (m : SM α) : CM α := fun (s, n) =>
  match m s with
  | .ok a s' => .ok a (s', n + 1)
  | .error e s' => .error e (s', n + 1)

/-- `istream::peek()`. E.g. src/Tokenizer.cpp:69,83. -/
def peek : CM (Option Byte) := tick SS.peek

/-- `istream::get()`. E.g. src/Tokenizer.cpp:42,71,161. -/
def get : CM (Option Byte) := tick SS.get

/-- `istream::putback(c)`. src/Tokenizer.cpp:118. -/
def putback (c : Byte) : CM Unit := tick (SS.putback c)

/-- `ios::clear()`. src/Tokenizer.cpp:116-119. -/
def clear : CM Unit := tick SS.clear

/-- `istream::tellg()`. src/Tokenizer.cpp:50, src/TagList.cpp:131,147,181. -/
def tellg : CM Int := tick SS.tellg

/-- Bytes left in the buffer; used only as fuel for the loops below, not a step.
For the streams made at src/Tokenizer.cpp:133,280, src/TagList.cpp:99, src/Canonicalization.cpp:83, src/QuotedPrintable.cpp:36, src/EncodedWord.cpp:36. -/
def left : CM Nat := fun (s, n) => .ok (s.data.length - s.pos) (s, n)

/-- A call that does not touch this stream, its steps added.
For src/EncodedWord.cpp:123-138, src/Tokenizer.cpp:333. -/
def charge {α : Type} (r : α × Nat) : CM α := fun (s, n) => .ok r.1 (s, n + r.2)

/-- The test `stream.peek() == 'c'`. E.g. src/Tokenizer.cpp:69,83. -/
def peekIs (c : Byte) : CM Bool := do return (← peek) == some c

/-- The test `stream.peek() == EOF`. src/TagList.cpp:161, src/Tokenizer.cpp:204. -/
def peekEOF : CM Bool := do return (← peek) == none

/-- The test `stream.peek() >= 'a'`; `EOF` is negative.
src/TagList.cpp:114-124,164-165, src/QuotedPrintable.cpp:55,64,75-77. -/
def peekGe (a : Byte) : CM Bool := do
  match ← peek with
  | some c => return a ≤ c
  | none => return false

/-- The test `stream.peek() <= 'b'`; `EOF` is negative.
src/TagList.cpp:114-124,164-165, src/QuotedPrintable.cpp:55,64,75-77. -/
def peekLe (b : Byte) : CM Bool := do
  match ← peek with
  | some c => return c ≤ b
  | none => return true

/-- The test `(stream.peek() >= 'a' && stream.peek() <= 'b')`.
src/TagList.cpp:114-124,164-165, src/QuotedPrintable.cpp:55,64,75-77. -/
def between (a b : Byte) : CM Bool := peekGe a <&&> peekLe b

/-- The two arguments `stream.peek() & 0xff, (ssize_t)stream.tellg()` of `StringFormat`. C++ leaves
the order of their evaluation open: `lr` says whether the first one is evaluated first.
src/Tokenizer.cpp:48-51, src/TagList.cpp:145-148,179-182, src/QuotedPrintable.cpp:58-61. -/
def peekTell (lr : Bool) : CM (Nat × Int) :=
  if lr then do
    let b ← peek
    let p ← tellg
    return (code b, p)
  else do
    let p ← tellg
    let b ← peek
    return (code b, p)

/-- `throw PermanentError(StringFormat("... 0x%x ... %ld", peek() & 0xff, (ssize_t)tellg()))`.
src/Tokenizer.cpp:48-51, src/TagList.cpp:145-148,179-182, src/QuotedPrintable.cpp:58-61. -/
def throwAt {α : Type} (lr : Bool) (r : Reason) : CM α := do
  let (b, p) ← peekTell lr
  throw (.perm r (some b) (some p))

/-- `throw PermanentError(StringFormat("... %ld", (ssize_t)tellg()))`. src/Tokenizer.cpp:168, src/TagList.cpp:130. -/
def throwPos {α : Type} (r : Reason) : CM α := do
  let p ← tellg
  throw (.perm r none (some p))

/-- `throw PermanentError(text)` with a text without numbers. src/Tokenizer.cpp:54,204,207,228,233,293,318. -/
def throwPlain {α : Type} (r : Reason) : CM α := throw (.perm r none none)

/-! ## `ReadWhiteSpace` -/

/-- `ReadWhiteSpace(stream, READ_CRLF)`, src/Tokenizer.cpp:37-62. -/
def readCRLF (lr : Bool) : CM Bytes := do
  if ← peekIs CR then
    let c ← get
    let p ← peek
    if p != some LF then
      if p != none then throwAt lr .crWithoutLf
      else throwPlain .crWithoutLf
    else
      let d ← get
      return [toChar c, toChar d]
  else return []

/-- `ReadWhiteSpace(stream, READ_WSP)`, src/Tokenizer.cpp:66-76. -/
def readWSP : CM Bytes := do
  if ← (peekIs SP <||> peekIs TAB) then
    let c ← get
    return [toChar c]
  else return []

/-- `ReadWhiteSpace(stream, READ_WSP_LOOSE)`, src/Tokenizer.cpp:80-90. -/
def readLoose : CM Bytes := do
  if ← (peekIs SP <||> (peekIs TAB <||> (peekIs CR <||> peekIs LF))) then
    let c ← get
    return [toChar c]
  else return []

/-- `while (!(_t = ReadWhiteSpace(stream, READ_WSP)).empty()) { _s += _t; }`,
src/Tokenizer.cpp:99-100, 110-111. -/
def loopWSP : Nat → Bytes → CM Bytes
  | 0, _ => throw .hang
  | n + 1, s => do
    let t ← readWSP
    if t.isEmpty then return s
    else loopWSP n (s ++ t)

/-- `for (size_t i = _s.size(); i > 0; i--) stream.putback(_s[i-1]);`, src/Tokenizer.cpp:116-119,
the string given backwards. -/
def putbackAll : Bytes → CM Unit
  | [] => return ()
  | c :: r => do
    putback c
    putbackAll r

/-- `ReadWhiteSpace(stream, READ_FWS)`, src/Tokenizer.cpp:94-122. -/
def readFWS (lr : Bool) : CM Bytes := do
  let s ← loopWSP ((← left) + 1) []
  let t ← readCRLF lr
  if t.isEmpty then return s
  else
    let s := s ++ t
    let t ← readWSP
    if t.isEmpty then
      clear
      putbackAll s.reverse
      return []
    else
      let s := s ++ t
      loopWSP ((← left) + 1) s

/-- `while (!ReadWhiteSpace(data, READ_FWS).empty());`, src/Tokenizer.cpp:140, src/EncodedWord.cpp:39
and, with `found = true` as body, src/Canonicalization.cpp:89-91: `found` at the end. -/
def skipFWS (lr : Bool) : Nat → Bool → CM Bool
  | 0, _ => throw .hang
  | n + 1, found => do
    let w ← readFWS lr
    if w.isEmpty then return found
    else skipFWS lr n true

/-- `while (!ReadWhiteSpace(data, READ_WSP_LOOSE).empty());`, src/TagList.cpp:107, 141, 154. -/
def skipLoose : Nat → CM Unit
  | 0 => throw .hang
  | n + 1 => do
    let w ← readLoose
    if w.isEmpty then return ()
    else skipLoose n

/-! ## `ValueList` -/

/-- The inner loop of `ValueList`, src/Tokenizer.cpp:147-165; arguments `value_buf`, `value`. -/
def valueLoop (lr : Bool) : Nat → Bytes → Bytes → CM Bytes
  | 0, _, _ => throw .hang
  | n + 1, buf, val => do
    let ws ← readFWS lr
    if ws.isEmpty then
      if ← (peekIs COLON <||> peekEOF) then return val
      else
        let val := if buf.isEmpty then val else val ++ buf
        let buf := []
        let c ← get
        valueLoop lr n (buf ++ ws) (val ++ [toChar c])
    else valueLoop lr n (buf ++ ws) val

/-- The outer loop of `ValueList`, src/Tokenizer.cpp:135-177; argument `values`. -/
def valueListLoop (lr : Bool) : Nat → List Bytes → CM (List Bytes)
  | 0, _ => throw .hang
  | n + 1, values => do
    let _ ← skipFWS lr ((← left) + 1) false
    if ← peekEOF then return values
    else
      let value ← valueLoop lr ((← left) + 1) [] []
      if value.isEmpty then throwPos .emptyListValue
      else
        let values := values ++ [value]
        if (← get) == none then return values
        else valueListLoop lr n values

/-- Running stream code on `std::stringstream data(input)`: result and number of steps.
For the streams made at src/Tokenizer.cpp:133,280, src/TagList.cpp:99, src/Canonicalization.cpp:83, src/QuotedPrintable.cpp:36, src/EncodedWord.cpp:36. -/
def run {α : Type} (m : CM α) (input : Bytes) : Except SErr α × Nat :=
  match m ({ data := input }, 0) with
  | .ok a (_, n) => (.ok a, n)
  | .error e (_, n) => (.error e, n)

/-- `ValueList`, src/Tokenizer.cpp:129-180. -/
def valueList (lr : Bool) (input : Bytes) : Except SErr (List Bytes) × Nat :=
  run (valueListLoop lr (input.length + 1) []) input

/-! ## `NextAddressListToken`, `ParseAddressList` -/

/-- The quoted-string loop, src/Tokenizer.cpp:199-217; `char c` equals `EOF` for byte 0xFF if `char`
is signed (`sc`), and never if it is not. -/
def quotedLoop (sc : Bool) : Nat → Bytes → CM Bytes
  | 0, _ => throw .hang
  | n + 1, token => do
    let c := toChar (← get)
    if sc && c == 255 then throwPlain .unclosedString
    else if c == 92 then
      if ← peekEOF then throwPlain .incompleteEscape
      else
        let d ← get
        quotedLoop sc n (token ++ [toChar d])
    else if c == 34 then return token
    else quotedLoop sc n (token ++ [c])

/-- The part of the comment loop after the escape, src/Tokenizer.cpp:239-246: new `depth` and
`token`. -/
def commentStep (depth : Nat) (token : Bytes) : CM (Nat × Bytes) := do
  let depth := if ← peekIs 40 then depth + 1 else depth
  let depth := if ← peekIs 41 then depth - 1 else depth
  let c ← get
  if depth > 0 then return (depth, token ++ [toChar c])
  else return (depth, token)

/-- The comment loop, src/Tokenizer.cpp:225-247. -/
def commentLoop : Nat → Nat → Bytes → CM Bytes
  | 0, _, _ => throw .hang
  | n + 1, depth, token => do
    if depth = 0 then return token
    else
      if ← peekEOF then throwPlain .unclosedComment
      else
        if ← peekIs 92 then
          let _ ← get
          if ← peekEOF then throwPlain .incompleteEscape
          else
            let d ← get
            let (depth, token) ← commentStep depth (token ++ [toChar d])
            commentLoop n depth token
        else
          let (depth, token) ← commentStep depth token
          commentLoop n depth token

/-- `NextAddressListToken`, src/Tokenizer.cpp:182-274; argument `token`, result type and `token`. -/
def nextTok (lr sc : Bool) : Nat → Bytes → CM (AddrTok × Bytes)
  | 0, _ => throw .hang
  | n + 1, token => do
    let done : CM (AddrTok × Bytes) :=
      if token.isEmpty then pure (.eof, token) else pure (.atom, token)
    if ← peekEOF then done
    else
      let ws ← readFWS lr
      if !ws.isEmpty && !token.isEmpty then done
      else if ← peekEOF then done
      else if ← peekIs 34 then
        if !token.isEmpty then return (.atom, token)
        else
          let _ ← get
          let token ← quotedLoop sc ((← left) + 1) []
          return (.quoted, token)
      else if ← peekIs 40 then
        if !token.isEmpty then return (.atom, token)
        else
          let _ ← get
          let token ← commentLoop ((← left) + 2) 1 []
          return (.comment, token)
      else if ← peekIs 60 then
        if !token.isEmpty then return (.atom, token)
        else
          let _ ← get
          return (.tagOpen, token)
      else if ← peekIs 62 then
        if !token.isEmpty then return (.atom, token)
        else
          let _ ← get
          return (.tagClose, token)
      else if ← (peekIs 44 <||> peekIs 59) then
        if !token.isEmpty then return (.atom, token)
        else
          let _ ← get
          return (.separator, token)
      else
        let c ← get
        nextTok lr sc n (token ++ [toChar c])

/-- A call that does not touch this stream, its exception passed on and its steps added.
For src/EncodedWord.cpp:123-138, src/Tokenizer.cpp:333. -/
def liftErr {α : Type} (r : Except SErr α × Nat) : CM α := fun (s, n) =>
  match r.1 with
  | .ok a => .ok a (s, n + r.2)
  | .error e => .error e (s, n + r.2)

/-- The `switch` of `ParseAddressList`, src/Tokenizer.cpp:295-349; it does not touch the stream. `rec`
is the recursive call (line 333). -/
def addrSwitch (rec : Bytes → Except SErr (List Bytes) × Nat) (st : AddrSt) (token : Bytes) :
    Except SErr AddrSt × Nat :=
  /- lines 316-346, with `inOpen` as just updated -/
  let flush (inOpen : Bool) : Except SErr AddrSt × Nat :=
    if inOpen then (.error (.perm .unclosedAddrSpec none none), 0)
    else
      match st.tokens with
      | [] => (.ok { st with inOpen := inOpen }, 0)
      | t :: ts =>
        if st.type = .separator ∧ st.last ≠ .tagClose ∧ !((t :: ts).getLast (by simp)).contains 64 then
          (.ok { st with inOpen := inOpen, tokens := [] }, 0)
        else if st.last = .quoted ∧ ts = [] then
          match rec t with
          | (.error e, k) => (.error e, k)
          | (.ok addrs, k) => (.ok { st with inOpen := inOpen, list := st.list ++ addrs, tokens := [] }, k)
        else
          (.ok { st with inOpen := inOpen, list := st.list ++ [(t :: ts).flatten], tokens := [] }, 0)
  match st.type with
  | .quoted => (.ok { st with tokens := st.tokens ++ [token] }, 0)
  | .atom => (.ok { st with tokens := st.tokens ++ [token] }, 0)
  | .comment => (.ok st, 0)
  | .tagOpen => (.ok { st with tokens := [], inOpen := true }, 0)
  | .tagClose => flush false
  | .separator => flush st.inOpen
  | .eof => flush st.inOpen

/-- The loop of `ParseAddressList`, src/Tokenizer.cpp:287-350. -/
def addrLoop (lr sc : Bool) (rec : Bytes → Except SErr (List Bytes) × Nat) :
    Nat → AddrSt → CM (List Bytes)
  | 0, _ => throw .hang
  | n + 1, st => do
    if st.type = .eof then return st.list
    else
      let (ty, token) ← nextTok lr sc ((← left) + 1) []
      if token.contains 0 then throwPlain .nulInAddress
      else
        let st ← liftErr (addrSwitch rec { st with last := st.type, type := ty } token)
        addrLoop lr sc rec n st

/-- `ParseAddressList` with a bound on the recursion depth, src/Tokenizer.cpp:276-353. -/
def parseAddrDepth (lr sc : Bool) : Nat → Bytes → Except SErr (List Bytes) × Nat
  | 0, _ => (.error .hang, 0)
  | n + 1, input => run (addrLoop lr sc (parseAddrDepth lr sc n) (input.length + 2) {}) input

/-- `ParseAddressList`, src/Tokenizer.cpp:276-353. -/
def parseAddressList (lr sc : Bool) (input : Bytes) : Except SErr (List Bytes) × Nat :=
  parseAddrDepth lr sc (input.length + 1) input

/-! ## `FilterHeader` -/

/-- The unfold/collapse loop, src/Canonicalization.cpp:86-98; argument `x`. -/
def collapse (lr : Bool) : Nat → Bytes → CM Bytes
  | 0, _ => throw .hang
  | n + 1, x => do
    let found ← skipFWS lr ((← left) + 1) false
    if ← peekEOF then return x
    else
      let x := if found then x ++ [SP] else x
      let c ← get
      collapse lr n (x ++ [toChar c])

/-- `CanonicalizationHeader::FilterHeader`, src/Canonicalization.cpp:44-122, with the loop above;
the rest does not use the stream. -/
def filterHeader (lr : Bool) (mode : CanonMode) (input : Bytes) : Except SErr Bytes × Nat :=
  match mode with
  | .simple => (.ok input, 0)
  | .relaxed =>
    match input.findIdx? (· == COLON) with
    | none => (.error (.perm (.missingColon input) none none), 0)
    | some k =>
      let output := lower (input.take k) ++ input.drop k
      match run (collapse lr (output.length + 1) []) output with
      | (.error e, n) => (.error e, n)
      | (.ok x, n) =>
        match colonTrim input x with
        | .ok y => (.ok y, n)
        | .error _ => (.error (.perm (.missingColon input) none none), n)

/-! ## `QuotedPrintable::Decode` -/

/-- The test for a hex digit, src/QuotedPrintable.cpp:55, 64. -/
def peekHex : CM Bool := between 65 70 <||> between 48 57

/-- The loop of `QuotedPrintable::Decode`, src/QuotedPrintable.cpp:39-89; argument `output`. -/
def qpLoop (lr toSpace : Bool) : Nat → Bytes → CM Bytes
  | 0, _ => throw .hang
  | n + 1, output => do
    if ← peekEOF then return output
    else if ← (pure toSpace <&&> peekIs 95) then
      let _ ← get
      qpLoop lr toSpace n (output ++ [SP])
    else if ← peekIs EQ then
      let _ ← get
      if ← peekHex then
        let a ← get
        if ← peekHex then
          let b ← get
          qpLoop lr toSpace n (output ++ [hexVal (toChar a) * 16 + hexVal (toChar b)])
        else throwAt lr .qpHex
      else throwAt lr .qpHex
    else if ← (between 0x21 0x3A <||> (peekIs 0x3C <||> between 0x3E 0x7E)) then
      let c ← get
      qpLoop lr toSpace n (output ++ [toChar c])
    else
      let ws ← readFWS lr
      if ws.isEmpty then throwAt lr .qpUnsafe
      else qpLoop lr toSpace n output

/-- `QuotedPrintable::Decode`, src/QuotedPrintable.cpp:34-92. -/
def qpDecode (lr : Bool) (input : Bytes) (toSpace : Bool) : Except SErr Bytes × Nat :=
  run (qpLoop lr toSpace (input.length + 1) []) input

/-! ## `EncodedWord::Decode` -/

/-- The inner whitespace loop, src/EncodedWord.cpp:44-58; argument `ws`. -/
def ewSpace (lr : Bool) : Nat → Bytes → CM Bytes
  | 0, _ => throw .hang
  | n + 1, ws => do
    let w ← readWSP
    if !w.isEmpty then ewSpace lr n (ws ++ w)
    else
      let w ← readCRLF lr
      if !w.isEmpty then ewSpace lr n ws
      else return ws

/-- `while (!fail) { if (peek() == EOF) { fail = true; break; } if (peek() == '?') break; else x +=
get(); }`, src/EncodedWord.cpp:74-81, 87-94, 100-107: (fail, x). -/
def untilQ : Nat → Bytes → CM (Bool × Bytes)
  | 0, _ => throw .hang
  | n + 1, x => do
    if ← peekEOF then return (true, x)
    else if ← peekIs 63 then return (false, x)
    else
      let c ← get
      untilQ n (x ++ [toChar c])

/-- One `if (!fail && data.peek() == '?') { buffer += get(); ... buffer += x; } else fail = true;`,
src/EncodedWord.cpp:71-83, 84-96, 97-109: (fail, x, buffer). -/
def ewPart (fail : Bool) (buffer : Bytes) : CM (Bool × Bytes × Bytes) := do
  if ← (pure (!fail) <&&> peekIs 63) then
    let c ← get
    let buffer := buffer ++ [toChar c]
    let (fail, x) ← untilQ ((← left) + 1) []
    return (fail, x, buffer ++ x)
  else return (true, [], buffer)

/-- The scanner, src/EncodedWord.cpp:63-121: (fail, encoding, encdata, buffer). -/
def ewScan : CM (Bool × Bytes × Bytes × Bytes) := do
  let c ← get
  let buffer := [toChar c]
  let (fail, _, buffer) ← ewPart false buffer
  let (fail, encoding, buffer) ← ewPart fail buffer
  let (fail, encdata, buffer) ← ewPart fail buffer
  let (fail, buffer) ←
    if ← (pure (!fail) <&&> peekIs 63) then do
      let c ← get
      let buffer := buffer ++ [toChar c]
      if ← peekIs EQ then do
        let c ← get
        pure (false, buffer ++ [toChar c])
      else pure (true, buffer)
    else pure (true, buffer)
  let bad ← pure (!fail) <&&> ((do return !(← peekEOF)) <&&> ((do return !(← peekIs SP)) <&&>
    ((do return !(← peekIs CR)) <&&> ((do return !(← peekIs LF)) <&&> (do return !(← peekIs TAB))))))
  return (fail || bad, encoding, encdata, buffer)

/-- Decoding the data part, src/EncodedWord.cpp:123-138; `none` = `fail`. The base64 decoder is not counted. -/
def ewData (lr : Bool) (E : Env) (enc dat : Bytes) : Option Bytes × Nat :=
  if enc = b!"q" ∨ enc = b!"Q" then
    match qpDecode lr dat true with
    | (.ok o, k) => (some o, k)
    | (.error _, k) => (none, k)
  else if enc = b!"b" ∨ enc = b!"B" then (some (E.b64dec dat), 0)
  else (none, 0)

/-- The main loop, src/EncodedWord.cpp:42-156; arguments `ws`, `output`. -/
def ewLoop (lr : Bool) (E : Env) : Nat → Bytes → Bytes → CM Bytes
  | 0, _, _ => throw .hang
  | n + 1, ws, output => do
    let ws ← ewSpace lr ((← left) + 1) ws
    if ← peekIs EQ then
      let (fail, encoding, encdata, buffer) ← ewScan
      match ← charge (if fail then (none, 0) else ewData lr E encoding encdata) with
      | some o => ewLoop lr E n [] (output ++ o)
      | none => ewLoop lr E n [] (output ++ (ws ++ buffer))
    else
      if ← peekEOF then return output
      else
        let c ← get
        ewLoop lr E n [] (output ++ ws ++ [toChar c])

/-- `EncodedWord::Decode`, src/EncodedWord.cpp:33-159. -/
def ewDecode (lr : Bool) (E : Env) (input : Bytes) : Except SErr Bytes × Nat :=
  run (do
    let _ ← skipFWS lr ((← left) + 1) false
    ewLoop lr E ((← left) + 1) [] []) input

/-! ## `TagList::Parse` -/

/-- The local stringstream and the counter together with the member `m_tags`. For src/TagList.cpp:97-197. -/
abbrev TM := EStateM SErr ((SS × Nat) × TagList)

/-- Stream code inside `TagList::Parse`. For src/TagList.cpp:97-197. -/
def onStream {α : Type} (m : CM α) : TM α := fun (s, tags) =>
  match m s with
  | .ok a s' => .ok a (s', tags)
  | .error e s' => .error e (s', tags)

/-- The test for `[A-Za-z0-9]`, src/TagList.cpp:114-116. -/
def peekAlnum : CM Bool := between 65 90 <||> (between 97 122 <||> between 48 57)

/-- The test for `[A-Za-z0-9_]`, src/TagList.cpp:121-124. -/
def peekNameChar : CM Bool :=
  between 65 90 <||> (between 97 122 <||> (between 48 57 <||> peekIs 95))

/-- The loop over the rest of a tag name, src/TagList.cpp:120-127; argument `name`. -/
def nameLoop : Nat → Bytes → CM Bytes
  | 0, _ => throw .hang
  | n + 1, name => do
    if ← peekNameChar then
      let c ← get
      nameLoop n (name ++ [toChar c])
    else return name

/-- Reading a tag name, src/TagList.cpp:113-127. -/
def readName : CM Bytes := do
  let name ← if ← peekAlnum then do
      let c ← get
      pure [toChar c]
    else pure []
  nameLoop ((← left) + 1) name

/-- The tag-value loop, src/TagList.cpp:161-186; arguments `value_buf`, `value`. -/
def readValue (lr : Bool) : Nat → Bytes → Bytes → CM Bytes
  | 0, _, _ => throw .hang
  | n + 1, buf, value => do
    if ← ((do return !(← peekIs SEMI)) <&&> (do return !(← peekEOF))) then
      if ← (between 0x21 0x3A <||> between 0x3C 0x7E) then
        let value := if buf.isEmpty then value else value ++ buf
        let c ← get
        readValue lr n [] (value ++ [toChar c])
      else
        let ws ← readLoose
        if ws.isEmpty then throwAt lr .badTagValue
        else readValue lr n (buf ++ ws) value
    else return value

/-- The loop of `TagList::Parse`, src/TagList.cpp:101-194. -/
def tagLoop (lr : Bool) : Nat → TM Unit
  | 0 => throw .hang
  | n + 1 => do
    onStream (do skipLoose ((← left) + 1))
    if ← onStream peekEOF then return ()
    else
      let name ← onStream readName
      if name.isEmpty then onStream (throwPos .emptyTagName)
      else if ((← MonadState.get).2.getTag name).isSome then throw (.perm (.duplicateTag name) none none)
      else
        onStream (do skipLoose ((← left) + 1))
        if !(← onStream (peekIs EQ)) then onStream (throwAt lr .expectedEq)
        else
          let _ ← onStream get
          onStream (do skipLoose ((← left) + 1))
          let offset ← onStream tellg
          let value ← onStream (do readValue lr ((← left) + 1) [] [])
          modify (fun (s, tags) => (s, tags ++ [(name, { value := value, offset := offset })]))
          if (← onStream get) == none then return ()
          else tagLoop lr n

/-- `TagList::Parse`, src/TagList.cpp:97-197: outcome, steps and tags afterwards. -/
def tagParse (lr : Bool) (input : Bytes) (tags : TagList) : (Except SErr Unit × Nat) × TagList :=
  match tagLoop lr (input.length + 1) (({ data := input }, 0), tags) with
  | .ok _ ((_, n), t) => ((.ok (), n), t)
  | .error e ((_, n), t) => ((.error e, n), t)

/-! ## `PublicKey::Parse` -/

/-- A `PublicKey` object and the number of steps made. For src/PublicKey.cpp:53-180. -/
abbrev KM (E : Env) := EStateM Err (PublicKey E × Nat)

/-- Code that does not use a stream. For src/PublicKey.cpp:53-180. -/
def onKey {E : Env} {α : Type} (m : KeyM E α) : KM E α := fun (k, n) =>
  match m k with
  | .ok a k' => .ok a (k', n)
  | .error e k' => .error e (k', n)

/-- `m_tagList.Parse(signature)`, src/PublicKey.cpp:55. -/
def keyTagList {E : Env} (lr : Bool) (txt : Bytes) : KM E Unit := fun (k, n) =>
  match tagParse lr txt k.tags with
  | ((.ok (), c), t) => .ok () ({ k with tags := t }, n + c)
  | ((.error e, c), t) => .error e.toErr ({ k with tags := t }, n + c)

/-- `Tokenizer::ValueList(value)`, src/PublicKey.cpp:79, 158, 176. -/
def keyValues {E : Env} (lr : Bool) (value : Bytes) : KM E (List Bytes) := fun (k, n) =>
  match valueList lr value with
  | (.ok l, c) => .ok l (k, n + c)
  | (.error e, c) => .error e.toErr (k, n + c)

/-- h=, src/PublicKey.cpp:73-88. -/
def keyH {E : Env} (lr : Bool) : KM E Unit := do
  match ← onKey (keyTag b!"h") with
  | none => pure ()
  | some h =>
    if h.value.isEmpty then throw (.p .keyEmptyH)
    else
      let algo ← keyValues lr h.value
      onKey (modify (fun k => { k with digests := k.digests ++ algo.filterMap digestOf }))

/-- s=, src/PublicKey.cpp:152-170. -/
def keyS {E : Env} (lr : Bool) : KM E Unit := do
  match ← onKey (keyTag b!"s") with
  | none => pure ()
  | some s =>
    if s.value.isEmpty then throw (.p .keyEmptyS)
    else
      let types ← keyValues lr s.value
      onKey (modify (fun k => { k with serviceEmail := serviceLoop k.serviceEmail types }))

/-- t=, src/PublicKey.cpp:173-177. -/
def keyT {E : Env} (lr : Bool) : KM E Unit := do
  match ← onKey (keyTag b!"t") with
  | none => pure ()
  | some t =>
    let fl ← keyValues lr t.value
    onKey (modify ({ · with flags := fl }))

/-- `PublicKey::Parse`, src/PublicKey.cpp:53-180, on a new object: outcome, object afterwards, steps. -/
def keyParse (E : Env) (lr : Bool) (txt : Bytes) : Except Err Unit × PublicKey E × Nat :=
  let m : KM E Unit := do
    keyTagList lr txt
    onKey keyV
    keyH lr
    onKey keyK
    onKey keyP
    keyS lr
    keyT lr
  match m ({}, 0) with
  | .ok () r => (.ok (), r)
  | .error e r => (.error e, r)

end Dkim.Steps

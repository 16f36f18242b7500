import Verif.Model.Basic
/-!
# `src/Tokenizer.cpp`

A `std::stringstream` that is only read is represented by the bytes not yet consumed.
-/

namespace Dkim

/-- `ReadWhiteSpace(stream, READ_CRLF)`, src/Tokenizer.cpp:37-62: (consumed, rest). -/
def readCRLF (s : Bytes) : Except Err (Bytes × Bytes) :=
  match s with
  | [] => .ok ([], [])
  | c :: r =>
    if c = CR then
      match r with
      | [] => .error (.p .crWithoutLf)
      | d :: r' => if d = LF then .ok ([CR, LF], r') else .error (.p .crWithoutLf)
    else .ok ([], c :: r)

/-- `ReadWhiteSpace(stream, READ_WSP)`, src/Tokenizer.cpp:66-76. -/
def readWSP (s : Bytes) : Bytes × Bytes :=
  match s with
  | [] => ([], [])
  | c :: r => if isWSP c then ([c], r) else ([], c :: r)

/-- `ReadWhiteSpace(stream, READ_WSP_LOOSE)`, src/Tokenizer.cpp:80-90. -/
def readLoose (s : Bytes) : Bytes × Bytes :=
  match s with
  | [] => ([], [])
  | c :: r => if isLoose c then ([c], r) else ([], c :: r)

/-- The loop `while (!(_t = ReadWhiteSpace(stream, READ_WSP)).empty()) _s += _t;`,
src/Tokenizer.cpp:99-100 and 110-111: (bytes read, rest). -/
def loopWSP (s : Bytes) : Bytes × Bytes :=
  match s with
  | [] => ([], [])
  | c :: r => if isWSP c then (c :: (loopWSP r).1, (loopWSP r).2) else ([], c :: r)

/-- The loop `while (!ReadWhiteSpace(data, READ_WSP_LOOSE).empty());`, src/TagList.cpp:107,141,154. -/
def skipLoose (s : Bytes) : Bytes :=
  match s with
  | [] => []
  | c :: r => if isLoose c then skipLoose r else c :: r

/-- `ReadWhiteSpace(stream, READ_FWS)`, src/Tokenizer.cpp:94-122. The `unwind` label
(114-120) puts every byte back, hence returns the original stream. -/
def readFWS (s : Bytes) : Except Err (Bytes × Bytes) :=
  let (w, r) := loopWSP s
  match readCRLF r with
  | .error e => .error e
  | .ok (t, r2) =>
    if t.isEmpty then .ok (w, r)
    else
      let (t2, r3) := readWSP r2
      if t2.isEmpty then .ok ([], s)
      else
        let (w3, r4) := loopWSP r3
        .ok (w ++ t ++ t2 ++ w3, r4)

/-- The loop `while (!ReadWhiteSpace(data, READ_FWS).empty());`, src/Tokenizer.cpp:140,
src/Canonicalization.cpp:89-90 (there with `found = true` in the body): (found, rest). -/
def skipFWS : Nat → Bytes → Except Err (Bool × Bytes)
  | 0, _ => .error .hang
  | n + 1, s =>
    match readFWS s with
    | .error e => .error e
    | .ok (w, r) =>
      if w.isEmpty then .ok (false, r)
      else
        match skipFWS n r with
        | .error e => .error e
        | .ok (_, r') => .ok (true, r')

/-- The inner loop of `ValueList`, src/Tokenizer.cpp:147-165: arguments are `value_buf`, `value`
and the stream; result (value, rest). -/
def valueLoop : Nat → Bytes → Bytes → Bytes → Except Err (Bytes × Bytes)
  | 0, _, _, _ => .error .hang
  | n + 1, buf, val, s =>
    match readFWS s with
    | .error e => .error e
    | .ok (ws, r) =>
      if ws.isEmpty then
        match r with
        | [] => .ok (val, [])
        | c :: r' =>
          if c = COLON then .ok (val, c :: r')
          else valueLoop n [] (val ++ buf ++ [c]) r'
      else valueLoop n (buf ++ ws) val r

/-- The outer loop of `ValueList`, src/Tokenizer.cpp:135-177. -/
def valueListLoop : Nat → Bytes → Except Err (List Bytes)
  | 0, _ => .error .hang
  | n + 1, s =>
    match skipFWS (s.length + 1) s with
    | .error e => .error e
    | .ok (_, []) => .ok []
    | .ok (_, c :: r) =>
      match valueLoop ((c :: r).length + 1) [] [] (c :: r) with
      | .error e => .error e
      | .ok (val, rest) =>
        if val.isEmpty then .error (.p .emptyListValue)
        else
          match rest with
          | [] => .ok [val]
          | _ :: rest' =>
            match valueListLoop n rest' with
            | .error e => .error e
            | .ok vs => .ok (val :: vs)

/-- `ValueList`, src/Tokenizer.cpp:129-180. -/
def valueList (input : Bytes) : Except Err (List Bytes) := valueListLoop (input.length + 1) input

/-! ## Address lists -/

/-- `AddressListTokens`, src/Tokenizer.hpp:42-50. -/
inductive AddrTok | quoted | atom | comment | tagOpen | tagClose | separator | eof
  deriving DecidableEq, Repr

/-- The quoted-string loop, src/Tokenizer.cpp:199-217; `sc` says whether `char` is signed.
`(char)data.get()` is compared with `EOF` (-1) after the conversion to `char`: with signed `char`
byte 0xFF is taken for the end of input; with unsigned `char` the end of input is never noticed and
the loop appends 0xFF for ever. Result (token, rest). -/
def quotedLoop (sc : Bool) : Bytes → Bytes → Except Err (Bytes × Bytes)
  | _, [] => if sc then .error (.p .unclosedString) else .error .hang
  | tok, c :: r =>
    if sc ∧ c = 255 then .error (.p .unclosedString)
    else if c = 92 then
      match r with
      | [] => .error (.p .incompleteEscape)
      | d :: r' => quotedLoop sc (tok ++ [d]) r'
    else if c = 34 then .ok (tok, r)
    else quotedLoop sc (tok ++ [c]) r

/-- The part of the comment loop after the escape handling, src/Tokenizer.cpp:239-246, for a stream
at `s` with current depth: (new depth, bytes appended to the token, rest).
At end of input `token += (char)data.get()` appends 0xFF. -/
def commentStep (depth : Nat) (s : Bytes) : Nat × Bytes × Bytes :=
  match s with
  | [] => (depth, [255], [])
  | c :: r =>
    let d := if c = 40 then depth + 1 else if c = 41 then depth - 1 else depth
    if d > 0 then (d, [c], r) else (d, [], r)

/-- The comment loop, src/Tokenizer.cpp:225-247: (token, rest). -/
def commentLoop : Nat → Nat → Bytes → Bytes → Except Err (Bytes × Bytes)
  | 0, _, _, _ => .error .hang
  | n + 1, depth, tok, s =>
    if depth = 0 then .ok (tok, s)
    else
      match s with
      | [] => .error (.p .unclosedComment)
      | c :: r =>
        if c = 92 then
          match r with
          | [] => .error (.p .incompleteEscape)
          | d :: r' =>
            let (dep, a, r2) := commentStep depth r'
            commentLoop n dep (tok ++ [d] ++ a) r2
        else
          let (dep, a, r2) := commentStep depth (c :: r)
          commentLoop n dep (tok ++ a) r2

/-- `NextAddressListToken`, src/Tokenizer.cpp:182-274 (loop 186-270): (type, token, rest). -/
def nextTok (sc : Bool) : Nat → Bytes → Bytes → Except Err (AddrTok × Bytes × Bytes)
  | 0, _, _ => .error .hang
  | n + 1, tok, s0 =>
    let done (r : Bytes) : Except Err (AddrTok × Bytes × Bytes) :=
      if tok.isEmpty then .ok (.eof, [], r) else .ok (.atom, tok, r)
    if s0.isEmpty then done []
    else
      match readFWS s0 with
      | .error e => .error e
      | .ok (ws, s) =>
        if !ws.isEmpty ∧ !tok.isEmpty then done s
        else
          match s with
          | [] => done []
          | c :: r =>
            if c = 34 then
              if !tok.isEmpty then .ok (.atom, tok, s)
              else
                match quotedLoop sc [] r with
                | .error e => .error e
                | .ok (t, r') => .ok (.quoted, t, r')
            else if c = 40 then
              if !tok.isEmpty then .ok (.atom, tok, s)
              else
                match commentLoop (r.length + 2) 1 [] r with
                | .error e => .error e
                | .ok (t, r') => .ok (.comment, t, r')
            else if c = 60 then
              if !tok.isEmpty then .ok (.atom, tok, s) else .ok (.tagOpen, [], r)
            else if c = 62 then
              if !tok.isEmpty then .ok (.atom, tok, s) else .ok (.tagClose, [], r)
            else if c = 44 ∨ c = 59 then
              if !tok.isEmpty then .ok (.atom, tok, s) else .ok (.separator, [], r)
            else nextTok sc n (tok ++ [c]) r

/-- Local variables of `ParseAddressList`, src/Tokenizer.cpp:278-286. -/
structure AddrSt where
  list : List Bytes := []
  tokens : List Bytes := []
  inOpen : Bool := false
  last : AddrTok := .separator
  type : AddrTok := .separator
  deriving DecidableEq, Repr

/-- The `switch` in the loop body, src/Tokenizer.cpp:295-349, with `st.last`/`st.type` already set;
`rec` is the recursive call (line 333). -/
def addrSwitch (rec : Bytes → Except Err (List Bytes)) (st : AddrSt) (token : Bytes) :
    Except Err AddrSt :=
  /- lines 316-346, with `inOpen` as just updated -/
  let flush (inOpen : Bool) : Except Err AddrSt :=
    if inOpen then .error (.p .unclosedAddrSpec)
    else
      match st.tokens with
      | [] => .ok { st with inOpen := inOpen }
      | t :: ts =>
        if st.type = .separator ∧ st.last ≠ .tagClose ∧ !((t :: ts).getLast (by simp)).contains 64 then
          .ok { st with inOpen := inOpen, tokens := [] }
        else if st.last = .quoted ∧ ts = [] then
          match rec t with
          | .error e => .error e
          | .ok addrs => .ok { st with inOpen := inOpen, list := st.list ++ addrs, tokens := [] }
        else
          .ok { st with inOpen := inOpen, list := st.list ++ [(t :: ts).flatten], tokens := [] }
  match st.type with
  | .quoted => .ok { st with tokens := st.tokens ++ [token] }
  | .atom => .ok { st with tokens := st.tokens ++ [token] }
  | .comment => .ok st
  | .tagOpen => .ok { st with tokens := [], inOpen := true }
  | .tagClose => flush false
  | .separator => flush st.inOpen
  | .eof => flush st.inOpen

/-- The loop of `ParseAddressList`, src/Tokenizer.cpp:287-350. -/
def addrLoop (sc : Bool) (rec : Bytes → Except Err (List Bytes)) :
    Nat → AddrSt → Bytes → Except Err (List Bytes)
  | 0, _, _ => .error .hang
  | n + 1, st, s =>
    if st.type = .eof then .ok st.list
    else
      match nextTok sc (s.length + 1) [] s with
      | .error e => .error e
      | .ok (ty, token, r) =>
        if token.contains 0 then .error (.p .nulInAddress)
        else
          match addrSwitch rec { st with last := st.type, type := ty } token with
          | .error e => .error e
          | .ok st' => addrLoop sc rec n st' r

/-- `ParseAddressList`, src/Tokenizer.cpp:276-353, with a bound on the recursion depth (line 333). -/
def parseAddrDepth (sc : Bool) : Nat → Bytes → Except Err (List Bytes)
  | 0, _ => .error .hang
  | n + 1, input => addrLoop sc (parseAddrDepth sc n) (input.length + 2) {} input

/-- `ParseAddressList`, src/Tokenizer.cpp:276-353; `sc` = `char` is signed. -/
def parseAddressList (sc : Bool) (input : Bytes) : Except Err (List Bytes) :=
  parseAddrDepth sc (input.length + 1) input

end Dkim

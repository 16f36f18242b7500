import Verif.Model.Tokenizer
import Verif.Model.Stream
/-!
# `src/Canonicalization.cpp`
-/

namespace Dkim

/-- The unfold/collapse loop of `FilterHeader`, src/Canonicalization.cpp:86-98 (returns `x`). -/
def collapse : Nat → Bytes → Except Err Bytes
  | 0, _ => .error .hang
  | n + 1, s =>
    match skipFWS (s.length + 1) s with
    | .error e => .error e
    | .ok (_, []) => .ok []
    | .ok (found, c :: r) =>
      match collapse n r with
      | .error e => .error e
      | .ok x => .ok ((if found then [SP] else []) ++ c :: x)

/-- `x.find_first_not_of(' ', from)`. src/Canonicalization.cpp:112. -/
def findFirstNotSP (x : Bytes) (frm : Nat) : Option Nat :=
  ((x.drop frm).findIdx? (· != SP)).map (· + frm)

/-- `x.find_last_not_of(' ')`. src/Canonicalization.cpp:115. -/
def findLastNotSP (x : Bytes) : Option Nat :=
  (x.reverse.findIdx? (· != SP)).map (fun i => x.length - 1 - i)

/-- Deleting WSP after the colon, src/Canonicalization.cpp:112-114. -/
def trimAfterColon (x : Bytes) (colonSplit : Nat) : Bytes :=
  match findFirstNotSP x (colonSplit + 1) with
  | some colonAfter => eraseAt x (colonSplit + 1) ((colonAfter - 1) - colonSplit)
  | none => x

/-- Deleting WSP around the colon, src/Canonicalization.cpp:106-121 (`input` only for the error text). -/
def colonTrim (input x : Bytes) : Except Err Bytes :=
  match x.findIdx? (· == COLON) with
  | none => .error (.p (.missingColon input))
  | some colonSplit =>
    let x1 := trimAfterColon x colonSplit
    match findLastNotSP (x1.take colonSplit) with
    | some colonBefore =>
      if colonBefore + 1 ≠ colonSplit then
        .ok (eraseAt x1 (colonBefore + 1) (colonSplit - (colonBefore + 1)))
      else .ok x1
    | none => .ok x1

/-- `CanonicalizationHeader::FilterHeader`, src/Canonicalization.cpp:44-122. -/
def filterHeader (mode : CanonMode) (input : Bytes) : Except Err Bytes :=
  match mode with
  | .simple => .ok input
  | .relaxed =>
    match input.findIdx? (· == COLON) with
    | none => .error (.p (.missingColon input))
    | some k =>
      let output := lower (input.take k) ++ input.drop k
      match collapse (output.length + 1) output with
      | .error e => .error e
      | .ok x => colonTrim input x

/-! ## Body -/

/-- `pendingwsp` and `lines`, src/Canonicalization.cpp:134-135. -/
structure BodySt where
  pending : Bool := false
  lines : Nat := 0
  deriving DecidableEq, Repr

/-- One iteration of the `for` loop, src/Canonicalization.cpp:144-186: new state and the bytes
appended to `buf`. -/
def bodyByte (mode : CanonMode) (st : BodySt) (c : Byte) : BodySt × Bytes :=
  if c = CR then (st, [])
  else if c = LF then ({ pending := false, lines := st.lines + 1 }, [])
  else if mode = .relaxed ∧ isWSP c then ({ st with pending := true }, [])
  else ({ pending := false, lines := 0 },
        (List.replicate st.lines CRLF).flatten ++ (if st.pending then [SP] else []) ++ [c])

/-- The `for` loop over one block, src/Canonicalization.cpp:143-186. -/
def bodyBlock (mode : CanonMode) : BodySt → Bytes → BodySt × Bytes
  | st, [] => (st, [])
  | st, c :: r =>
    let (st1, o1) := bodyByte mode st c
    let (st2, o2) := bodyBlock mode st1 r
    (st2, o1 ++ o2)

/-- Variables that survive an iteration of the read loop plus the arguments of the `func` calls.
src/Canonicalization.cpp:124-135,188-198. -/
structure BodyAcc where
  st : BodySt := {}
  size : Nat
  empty : Bool := true
  calls : List Bytes := []
  deriving DecidableEq, Repr

/-- A call `func(buf.c_str(), n)` with the limit handling of src/Canonicalization.cpp:188-195 and
207-214. -/
def BodyAcc.emit (a : BodyAcc) (limit : Bool) (buf : Bytes) : BodyAcc :=
  if limit then
    let left := min buf.length a.size
    { a with calls := a.calls ++ [buf.take left], size := a.size - left }
  else { a with calls := a.calls ++ [buf] }

/-- The `while (stream.good())` loop, src/Canonicalization.cpp:136-199, reading `blk` bytes at a
time (the code uses 8096). -/
def bodyLoop (blk : Nat) (mode : CanonMode) (limit : Bool) :
    Nat → IStream → BodyAcc → Except Err (IStream × BodyAcc)
  | 0, _, _ => .error .hang
  | n + 1, s, a =>
    if !s.good then .ok (s, a)
    else if limit ∧ a.size = 0 then .ok (s, a)
    else
      let (block, s') := s.read blk
      let (st', buf) := bodyBlock mode a.st block
      let a1 := ({ a with st := st' }).emit limit buf
      bodyLoop blk mode limit n s' { a1 with empty := a1.empty && buf.isEmpty }

/-- `CanonicalizationBody`, src/Canonicalization.cpp:124-218, parametrised by the block size.
Result: the list of buffers passed to `func`, the return value, and the stream afterwards. -/
def canonBodyBlk (blk : Nat) (s : IStream) (mode : CanonMode) (bodyOffset : Int) (limit : Bool)
    (size : Nat) : Except Err ((List Bytes × Bool) × IStream) :=
  let a0 : BodyAcc := { size := size }
  let r : Except Err (IStream × BodyAcc) :=
    if bodyOffset ≠ -1 then
      bodyLoop blk mode limit (s.data.length + 2) (s.clear.seekg bodyOffset) a0
    else .ok (s, a0)
  match r with
  | .error e => .error e
  | .ok (s', a) =>
    let a' := if a.empty = false ∨ mode ≠ .relaxed then a.emit limit CRLF else a
    .ok ((a'.calls, !(limit && a'.size > 0)), s')

/-- `CanonicalizationBody` as compiled: `char buffer[8096]`, src/Canonicalization.cpp:140. -/
def canonBody := canonBodyBlk 8096

end Dkim

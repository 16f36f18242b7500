import Verif.Model.Tokenizer
/-!
# `src/TagList.cpp`, `src/TagList.hpp`
-/

namespace Dkim

/-- `TagListEntry`, src/TagList.hpp:29-46. -/
structure TagEntry where
  value : Bytes
  offset : Int
  deriving DecidableEq, Repr

/-- `TagList::m_tags`, src/TagList.hpp:59, as association list in insertion order
(simplification: the sorted iteration order of `cbegin/cend` is in `Model/TagMap`, with the proof
that nothing else depends on it in `Props/TagMap`). -/
abbrev TagList := List (Bytes × TagEntry)

/-- `TagList::GetTag`, src/TagList.cpp:199-207. -/
def TagList.getTag (m : TagList) (name : Bytes) : Option TagEntry := m.lookup name

/-- `[0-9A-Za-z_]`, src/TagList.cpp:121-124. -/
def isNameChar (c : Byte) : Bool := isAlnum c || c == 95

/-- `VALCHAR`, src/TagList.cpp:164-165. -/
def isValChar (c : Byte) : Bool := (0x21 ≤ c && c ≤ 0x3A) || (0x3C ≤ c && c ≤ 0x7E)

/-- The `while` loop reading the rest of a tag name, src/TagList.cpp:120-127: (read, rest). -/
def nameLoop (s : Bytes) : Bytes × Bytes :=
  match s with
  | [] => ([], [])
  | c :: r => if isNameChar c then (c :: (nameLoop r).1, (nameLoop r).2) else ([], c :: r)

/-- Reading a tag name, src/TagList.cpp:113-127: one optional alphanumeric, then the loop. -/
def readName (s : Bytes) : Bytes × Bytes :=
  match s with
  | [] => nameLoop []
  | c :: r => if isAlnum c then (c :: (nameLoop r).1, (nameLoop r).2) else nameLoop (c :: r)

/-- The tag-value loop, src/TagList.cpp:161-186: arguments `value_buf`, `value`, stream;
result (value, rest). -/
def readValue : Bytes → Bytes → Bytes → Except Err (Bytes × Bytes)
  | _, val, [] => .ok (val, [])
  | buf, val, c :: r =>
    if c = SEMI then .ok (val, c :: r)
    else if isValChar c then readValue [] (val ++ buf ++ [c]) r
    else if isLoose c then readValue (buf ++ [c]) val r
    else .error (.p .badTagValue)

/-- `data.tellg()` when the next byte has just been peeked: the number of bytes consumed, or -1 if
the peek hit the end of the input (eofbit set, so the `tellg` sentry fails). src/TagList.cpp:157. -/
def tellgAfterPeek (total : Nat) (rest : Bytes) : Int :=
  if rest.isEmpty then -1 else (total : Int) - rest.length

/-- The loop of `TagList::Parse`, src/TagList.cpp:101-194. `EStateM` keeps the tags stored so far
when an exception leaves the loop. `total` is the length of the whole input. -/
def tagLoop (total : Nat) : Nat → Bytes → EStateM Err TagList Unit
  | 0, _ => throw .hang
  | n + 1, s => do
    let s1 := skipLoose s
    if s1.isEmpty then return ()
    let (name, s2) := readName s1
    if name.isEmpty then throw (.p .emptyTagName)
    if ((← get).getTag name).isSome then throw (.p (.duplicateTag name))
    match skipLoose s2 with
    | [] => throw (.p .expectedEq)
    | c :: s3 =>
      if c ≠ EQ then throw (.p .expectedEq)
      let s4 := skipLoose s3
      match readValue [] [] s4 with
      | .error e => throw e
      | .ok (value, s5) =>
        modify (fun m => m ++ [(name, { value := value, offset := tellgAfterPeek total s4 })])
        match s5 with
        | [] => return ()
        | _ :: s6 => tagLoop total n s6

/-- `TagList::Parse`, src/TagList.cpp:97-197. -/
def TagList.parse (input : Bytes) : EStateM Err TagList Unit :=
  tagLoop input.length (input.length + 1) input

/-- `TagList::Reset`, src/TagList.cpp:92-95. -/
def TagList.reset : EStateM Err TagList Unit := set ([] : TagList)

end Dkim

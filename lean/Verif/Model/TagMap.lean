import Verif.Model.TagList
/-!
# The `std::map` behind a tag list: `src/TagList.cpp`, `src/TagList.hpp`

`Model/TagList` keeps the tags in the order in which they were stored, which is all `GetTag` can
tell. Here the member `m_tags` is what the code declares, a map ordered by the names, so that the
iteration with `cbegin()` and `cend()` is modelled too. The map itself belongs to the C++ library:
it is modelled as the sequence of its pairs in iteration order, and its operations work on that
sequence from the front (simplification: the balanced tree is not modelled).
-/

namespace Dkim

/-- `std::less<std::string>`, the order of src/TagList.hpp:59: the bytes are compared as
`unsigned char` from the front, and a proper prefix comes first. -/
def nameLess : Bytes → Bytes → Bool
  | _, [] => false
  | [], _ :: _ => true
  | a :: x, b :: y => if a < b then true else if b < a then false else nameLess x y

/-- `std::map<std::string, TagListEntry>`, src/TagList.hpp:59: its pairs from `cbegin()` to
`cend()` (src/TagList.hpp:56-57). -/
abbrev TagMap := List (Bytes × TagEntry)

/-- `m_tags.find(name)` and reading the entry found, src/TagList.cpp:134, 201-205: go past the
smaller names; the next one is `name`, or there is none. -/
def TagMap.find : TagMap → Bytes → Option TagEntry
  | [], _ => none
  | (k, e) :: m, n =>
    if nameLess k n then TagMap.find m n
    else if nameLess n k then none
    else some e

/-- `m_tags[name] = tagEntry`, src/TagList.cpp:190: go past the smaller names, and replace the
entry there if it has this name, or insert a new pair. -/
def TagMap.assign : TagMap → Bytes → TagEntry → TagMap
  | [], n, t => [(n, t)]
  | (k, e) :: m, n, t =>
    if nameLess k n then (k, e) :: TagMap.assign m n t
    else if nameLess n k then (n, t) :: (k, e) :: m
    else (k, t) :: m

/-- The loop of `TagList::Parse` on the map, src/TagList.cpp:101-194; see `tagLoop`. -/
def mapLoop (total : Nat) : Nat → Bytes → EStateM Err TagMap Unit
  | 0, _ => throw .hang
  | n + 1, s => do
    let s1 := skipLoose s
    if s1.isEmpty then return ()
    let (name, s2) := readName s1
    if name.isEmpty then throw (.p .emptyTagName)
    if ((← get).find name).isSome then throw (.p (.duplicateTag name))
    match skipLoose s2 with
    | [] => throw (.p .expectedEq)
    | c :: s3 =>
      if c ≠ EQ then throw (.p .expectedEq)
      let s4 := skipLoose s3
      match readValue [] [] s4 with
      | .error e => throw e
      | .ok (value, s5) =>
        modify (·.assign name { value := value, offset := tellgAfterPeek total s4 })
        match s5 with
        | [] => return ()
        | _ :: s6 => mapLoop total n s6

/-- `TagList::Parse`, src/TagList.cpp:97-197. -/
def TagMap.parse (input : Bytes) : EStateM Err TagMap Unit :=
  mapLoop input.length (input.length + 1) input

/-- One call on a `TagList` object. -/
inductive TagOp
  /-- `Reset()`, src/TagList.cpp:92-95. -/
  | reset
  /-- `Parse(input)`, src/TagList.cpp:97-197. -/
  | parse (input : Bytes)

/-- The map after one call; the caller catches what `Parse` throws. src/TagList.cpp:92-197. -/
def TagMap.after (m : TagMap) : TagOp → TagMap
  | .reset => []
  | .parse s => match TagMap.parse s m with
    | .ok _ m' => m'
    | .error _ m' => m'

/-- The map of a new object after a sequence of calls. src/TagList.cpp:92-197. -/
def TagMap.history (ops : List TagOp) : TagMap := ops.foldl TagMap.after []

end Dkim

import Verif.Spec.Address
/-!
# Specification: what address list a text stands for, for every text
-/

namespace Dkim.Spec

/-- Nothing, or a backslash with the byte it escapes. -/
def Escape (e : Bytes) : Prop := e = [] ∨ ∃ x, e = [92, x]

/-- `CommentText d text`: read inside `d` open parentheses, `text` ends with the parenthesis that closes the outermost one. The text is
a sequence of bytes, each of which may have an escape before it. Parentheses nest; the escaped byte does not count, and the byte after an
escape is taken as it is even if it is a backslash. -/
inductive CommentText : Nat → Bytes → Prop
  | close (e) : Escape e → CommentText 1 (e ++ [41])
  | inner (e d text) : Escape e → CommentText (d + 1) text → CommentText (d + 2) (e ++ 41 :: text)
  | nest (e d text) : Escape e → CommentText (d + 2) text → CommentText (d + 1) (e ++ 40 :: text)
  | plain (e d c text) : Escape e → c ≠ 40 → c ≠ 41 → (e = [] → c ≠ 92) → CommentText d text → CommentText d (e ++ c :: text)

/-- `WordText s a r`: `s` goes on with `a`, which belongs to the word before, and `r` remains. A word ends at the end of the text, before a
byte with a meaning of its own, and with folding white space (which is consumed). CRLF that is no folding belongs to the word. -/
inductive WordText : Bytes → Bytes → Bytes → Prop
  | fin : WordText [] [] []
  | ws (s w r) : ReadsFWS s w r → w ≠ [] → WordText s [] r
  | special (c r) : isSpecial c = true → WordText (c :: r) [] (c :: r)
  | byte (c r a r') : ReadsFWS (c :: r) [] (c :: r) → isSpecial c = false → WordText r a r' → WordText (c :: r) (c :: a) r'

/-- The tokens of an address list. -/
inductive Tok
  | word (a : Bytes)
  | quoted (content : Bytes)
  | comment
  | opening
  | closing
  | separator
  deriving DecidableEq

/-- `TokText sc s t r`: `t` is the first token of `s`, after at most one folding white space, and `r` remains. -/
inductive TokText (sc : Bool) : Bytes → Tok → Bytes → Prop
  | word (s w c r a r') : ReadsFWS s w (c :: r) → isSpecial c = false → WordText r a r' → 0 ∉ c :: a → TokText sc s (.word (c :: a)) r'
  | quoted (s w text content r) : ReadsFWS s w (34 :: (text ++ 34 :: r)) → Quoted sc content text → 0 ∉ content →
      TokText sc s (.quoted content) r
  | comment (s w text r) : ReadsFWS s w (40 :: (text ++ r)) → CommentText 1 text → 0 ∉ text → TokText sc s .comment r
  | opening (s w r) : ReadsFWS s w (60 :: r) → TokText sc s .opening r
  | closing (s w r) : ReadsFWS s w (62 :: r) → TokText sc s .closing r
  | separator (s w c r) : ReadsFWS s w (c :: r) → c = 44 ∨ c = 59 → TokText sc s .separator r

/-- `s` consists of these tokens; folding white space may follow them. -/
inductive TokensText (sc : Bool) : Bytes → List Tok → Prop
  | done (s w) : ReadsFWS s w [] → TokensText sc s []
  | cons (s t r ts) : TokText sc s t r → TokensText sc r ts → TokensText sc s (t :: ts)

/-- What ends a group of tokens: `>`, a separator, or the end of the text. -/
inductive GroupEnd | closing | separator | fin
  deriving DecidableEq

/-- The address part of a group: what follows its last `<`, or all of it if there is none. -/
def AddrPart (group part : List Tok) : Prop := Tok.opening ∉ part ∧ (group = part ∨ ∃ name, group = name ++ .opening :: part)

/-- What a token contributes. -/
def Tok.content : Tok → List Bytes
  | .word a => [a]
  | .quoted a => [a]
  | _ => []

/-- The words and quoted strings of a group part. -/
def contents (part : List Tok) : List Bytes := part.flatMap Tok.content

/-- The addresses a group of tokens, ended by `e`, stands for. `Nested q as` says that the text `q` is itself an address list `as`. -/
inductive Group (Nested : Bytes → List Bytes → Prop) : List Tok → GroupEnd → List Bytes → Prop
  /-- no words: no address -/
  | nothing (group part e) : AddrPart group part → contents part = [] → Group Nested group e []
  /-- words before a separator of which the last contains no `@`: part of a display name -/
  | name (group part xs x) : AddrPart group part → contents part = xs ++ [x] → 64 ∉ x → Group Nested group .separator []
  /-- a single quoted string, not followed by a comment: an address list of its own -/
  | nested (group part e q as) : AddrPart group (part ++ [.quoted q]) → contents part = [] → (e = .separator → 64 ∈ q) → Nested q as →
      Group Nested group e as
  /-- otherwise: the words and quoted strings joined -/
  | address (group part e xs x) : AddrPart group part → contents part = xs ++ [x] → (e = .separator → 64 ∈ x) →
      (xs = [] → ∀ a, part ≠ a ++ [.quoted x]) → Group Nested group e [(xs ++ [x]).flatten]

/-- No `>` and no separator: the tokens of one group. -/
def OneGroup (group : List Tok) : Prop := Tok.closing ∉ group ∧ Tok.separator ∉ group

/-- The addresses of a list of tokens: those of its groups. Every `<` must be followed by `>` before the next separator. -/
inductive Groups (Nested : Bytes → List Bytes → Prop) : List Tok → List Bytes → Prop
  | last (group as) : OneGroup group → Tok.opening ∉ group → Group Nested group .fin as → Groups Nested group as
  | separator (group as ts bs) : OneGroup group → Tok.opening ∉ group → Group Nested group .separator as → Groups Nested ts bs →
      Groups Nested (group ++ .separator :: ts) (as ++ bs)
  | closing (group as ts bs) : OneGroup group → Group Nested group .closing as → Groups Nested ts bs →
      Groups Nested (group ++ .closing :: ts) (as ++ bs)

/-- `s` stands for the addresses `as`, with address lists in quoted strings nested less than `n` deep. -/
def AddrTextIn (sc : Bool) : Nat → Bytes → List Bytes → Prop
  | 0, _, _ => False
  | n + 1, s, as => ∃ ts, TokensText sc s ts ∧ Groups (AddrTextIn sc n) ts as

/-- `s` stands for the addresses `as`. -/
def AddrText (sc : Bool) (s : Bytes) (as : List Bytes) : Prop := ∃ n, AddrTextIn sc n s as

/-! ## Texts on which reading never ends (unsigned `char`) -/

/-- `s` starts with these tokens, and `r` remains. -/
inductive TokensBefore (sc : Bool) : Bytes → List Tok → Bytes → Prop
  | none (s) : TokensBefore sc s [] s
  | cons (s t r ts r') : TokText sc s t r → TokensBefore sc r ts r' → TokensBefore sc s (t :: ts) r'

/-- The address part of a group is the quoted string `q`, last in the group, and comments. -/
def NestedIn (group : List Tok) (q : Bytes) : Prop := ∃ part, AddrPart group (part ++ [.quoted q]) ∧ contents part = []

/-- Reading stops for ever after the tokens `ts`, when `r` is left: all groups before are in order, and then an opening quotation mark
follows that is never closed (and no lone backslash stands at the end), or a group ends which is a nested list on which reading never ends. -/
inductive Stops (Nested : Bytes → List Bytes → Prop) (Endless : Bytes → Prop) : List Tok → Bytes → Prop
  | unclosed (group r w q content) : OneGroup group → ReadsFWS r w (34 :: q) → Quoted false content q → Stops Nested Endless group r
  | fin (group q r w) : OneGroup group → Tok.opening ∉ group → NestedIn group q → ReadsFWS r w [] → Endless q → Stops Nested Endless group r
  | separator (group q r) : OneGroup group → Tok.opening ∉ group → NestedIn group q → 64 ∈ q → Endless q →
      Stops Nested Endless (group ++ [.separator]) r
  | closing (group q r) : OneGroup group → NestedIn group q → Endless q → Stops Nested Endless (group ++ [.closing]) r
  | afterSeparator (group as ts r) : OneGroup group → Tok.opening ∉ group → Group Nested group .separator as → Stops Nested Endless ts r →
      Stops Nested Endless (group ++ .separator :: ts) r
  | afterClosing (group as ts r) : OneGroup group → Group Nested group .closing as → Stops Nested Endless ts r →
      Stops Nested Endless (group ++ .closing :: ts) r

/-- Reading `s` never ends; the unclosed quotation mark is nested less than `n` deep. -/
def EndlessIn : Nat → Bytes → Prop
  | 0, _ => False
  | n + 1, s => ∃ ts r, TokensBefore false s ts r ∧ Stops (AddrTextIn false n) (EndlessIn n) ts r

/-- Reading `s` never ends. -/
def Endless (s : Bytes) : Prop := ∃ n, EndlessIn n s

end Dkim.Spec

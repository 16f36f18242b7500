import Verif.Spec.Ascii
import Verif.Model.Basic
import Verif.Spec.Tokens
/-!
# Specification: address lists in plain form

A mailbox is a bare address or an address in angle brackets after a display name; comments and folding white
space may stand between the parts; mailboxes are separated by commas (or semicolons).
-/

namespace Dkim.Spec

/-- Bytes with a meaning of their own: `"`, `(`, `<`, `>`, `,`, `;`. -/
def isSpecial (c : Byte) : Bool := c == 34 || c == 40 || c == 60 || c == 62 || c == 44 || c == 59

/-- Bytes a word may consist of. -/
def IsWordByte (c : Byte) : Prop := isSpecial c = false ∧ isWSP c = false ∧ c ≠ CR ∧ c ≠ LF ∧ c ≠ 0

/-- `Quoted sc content text`: `text` between quotation marks stands for `content`. Any byte but `"` and `\` may stand
for itself, any byte may be escaped. With signed `char` (`sc`), the byte 0xFF can only be written escaped. -/
inductive Quoted (sc : Bool) : Bytes → Bytes → Prop
  | nil : Quoted sc [] []
  | plain (c) (content text) : c ≠ 34 → c ≠ 92 → (sc = true → c ≠ 255) → Quoted sc content text →
      Quoted sc (c :: content) (c :: text)
  | escaped (c) (content text) : Quoted sc content text → Quoted sc (c :: content) (92 :: c :: text)

/-- `CommentTail d text`: read inside `d` open parentheses, `text` ends with the parenthesis that closes the
outermost one. Parentheses nest, escaped bytes do not count. Two escapes may not be adjacent. -/
inductive CommentTail : Nat → Bytes → Prop
  | close : CommentTail 1 [41]
  | inner (d text) : CommentTail (d + 1) text → CommentTail (d + 2) (41 :: text)
  | nest (d text) : CommentTail (d + 2) text → CommentTail (d + 1) (40 :: text)
  | plain (d c text) : c ≠ 40 → c ≠ 41 → c ≠ 92 → CommentTail d text → CommentTail d (c :: text)
  | escaped (d c text) : NotHead (· == 92) text → CommentTail d text → CommentTail d (92 :: c :: text)

/-- The parts of an address list. -/
inductive Lexeme
  | word (a : Bytes)
  | quoted (content text : Bytes)
  | comment (text : Bytes)
  deriving DecidableEq

/-- How a part is written. -/
def Lexeme.text : Lexeme → Bytes
  | .word a => a
  | .quoted _ text => 34 :: text ++ [34]
  | .comment text => 40 :: text

/-- What a part contributes to an address. -/
def Lexeme.value : Lexeme → List Bytes
  | .word a => [a]
  | .quoted content _ => [content]
  | .comment _ => []

/-- Legal part (NUL bytes are never allowed). -/
def Lexeme.WF (sc : Bool) : Lexeme → Prop
  | .word a => a ≠ [] ∧ ∀ c ∈ a, IsWordByte c
  | .quoted content text => Quoted sc content text ∧ 0 ∉ content
  | .comment text => CommentTail 1 text ∧ 0 ∉ text

/-- A part with the white space before it. -/
structure Piece where
  ws : Bytes
  lex : Lexeme

/-- Text of a piece. -/
def Piece.text (p : Piece) : Bytes := p.ws ++ p.lex.text

/-- Text of several pieces. -/
def piecesText (ps : List Piece) : Bytes := ps.flatMap Piece.text

/-- Is it a word? -/
def Lexeme.isWord : Lexeme → Bool
  | .word _ => true
  | _ => false

/-- Legal pieces: adjacent words are separated by white space. `afterWord` tells whether a word stands before. -/
def PiecesWF (sc : Bool) : Bool → List Piece → Prop
  | _, [] => True
  | afterWord, p :: ps => IsFWS p.ws ∧ p.lex.WF sc ∧ (afterWord = true → p.lex.isWord = true → p.ws ≠ []) ∧
      PiecesWF sc p.lex.isWord ps

/-- Comments only. -/
def OnlyComments (ps : List Piece) : Prop := ∀ p ∈ ps, p.lex.value = []

/-- A mailbox. -/
inductive Mailbox
  /-- one word, with comments around it -/
  | bare (parts : List Piece)
  /-- display name, `<`, address, `>`, comments -/
  | angle (display : List Piece) (ws1 : Bytes) (addr : List Piece) (ws2 : Bytes) (after : List Piece)

/-- The words and quoted strings among some pieces. -/
def values (ps : List Piece) : List Bytes := ps.flatMap (·.lex.value)

/-- How a mailbox is written. -/
def Mailbox.text : Mailbox → Bytes
  | .bare parts => piecesText parts
  | .angle display ws1 addr ws2 after =>
    piecesText display ++ (ws1 ++ 60 :: (piecesText addr ++ (ws2 ++ 62 :: piecesText after)))

/-- Its address. -/
def Mailbox.addr : Mailbox → Bytes
  | .bare parts => (values parts).flatten
  | .angle _ _ addr _ _ => (values addr).flatten

/-- Legal mailbox. A bare address is one word containing `@`. An address in brackets consists of words and
quoted strings (but is not a single quoted string, which would be read as an address list of its own). -/
def Mailbox.WF (sc : Bool) : Mailbox → Prop
  | .bare parts => PiecesWF sc false parts ∧ (∃ a, values parts = [a] ∧ 64 ∈ a) ∧ ∀ p ∈ parts, ∀ c t, p.lex ≠ .quoted c t
  | .angle display ws1 addr ws2 after => PiecesWF sc false display ∧ IsFWS ws1 ∧ PiecesWF sc false addr ∧
      values addr ≠ [] ∧ (∀ c t, values addr = [c] → ∀ p ∈ addr, p.lex ≠ .quoted c t) ∧
      IsFWS ws2 ∧ PiecesWF sc false after ∧ OnlyComments after

/-- Mailboxes, each followed by white space and a separator, except the last, which white space follows. -/
def addressText : List (Mailbox × Bytes × Byte) → Mailbox → Bytes → Bytes
  | [], last, ws => last.text ++ ws
  | (m, ws', sep) :: ms, last, ws => m.text ++ (ws' ++ sep :: addressText ms last ws)

end Dkim.Spec

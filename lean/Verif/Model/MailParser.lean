import Verif.Model.Stream
/-!
# `src/MailParser.cpp`, `src/MailParser.hpp`
-/

namespace Dkim

/-- `class Header`, src/MailParser.hpp:35-50. -/
structure Header where
  name : Bytes := []
  header : Bytes := []
  valueOffset : Nat := 0
  deriving DecidableEq, Repr

/-- Stripping SP and TAB at both ends, src/MailParser.cpp:51-52. -/
def stripWSP (s : Bytes) : Bytes := ((s.dropWhile isWSP).reverse.dropWhile isWSP).reverse

/-- `Header::ParseLine`, src/MailParser.cpp:35-55 (the boolean result is never used). -/
def Header.parseLine (h : Header) (line : Bytes) : Header :=
  let text := if h.header.isEmpty then line else h.header ++ CRLF ++ line
  if h.valueOffset = 0 then
    match text.findIdx? (· == COLON) with
    | none => { h with header := text }
    | some sep => { name := stripWSP (text.take sep), header := text, valueOffset := sep + 1 }
  else { h with header := text }

/-- `class Message`, src/MailParser.hpp:51-67. Headers are shared pointers in the code; a pushed
header is never modified afterwards in any call sequence modelled here, so values suffice. -/
structure Message where
  tmp : Option Header := none
  headers : List Header := []
  bodyOffset : Int := 0
  done : Bool := false
  deriving DecidableEq, Repr

/-- `if (m_tmpHeader.get()) m_header.push_back(m_tmpHeader)`, src/MailParser.cpp:90-91,104-105,116-117. -/
def Message.pushTmp (m : Message) : List Header :=
  match m.tmp with
  | some h => m.headers ++ [h]
  | none => m.headers

/-- Remove one trailing CR, src/MailParser.cpp:99-100. -/
def chopCR (line : Bytes) : Bytes :=
  if line.getLast? = some CR then line.dropLast else line

/-- `Message::ParseLine`, src/MailParser.cpp:85-126: (return value, message, stream). -/
def Message.parseLine (m : Message) (s : IStream) : Bool × Message × IStream :=
  match s.getline with
  | (none, s1) =>
    (false, { m with headers := m.pushTmp, bodyOffset := -1, done := true }, s1)
  | (some line0, s1) =>
    match chopCR line0 with
    | [] =>
      let (off, s2) := s1.tellg
      (true, { tmp := none, headers := m.pushTmp, bodyOffset := off, done := true }, s2)
    | c :: cs =>
      let m1 : Message :=
        if c ≠ TAB ∧ c ≠ SP then { m with headers := m.pushTmp, tmp := some {} } else m
      let h := m1.tmp.getD {}
      (true, { m1 with tmp := some (h.parseLine (c :: cs)) }, s1)

/-- The loop `while (m_msg.ParseLine(m_file) && !m_msg.IsDone()) { }`, src/Validatory.cpp:50,
src/Signatory.cpp:57. -/
def Message.parseLoop : Nat → Message → IStream → Except Err (Message × IStream)
  | 0, _, _ => .error .hang
  | n + 1, m, s =>
    match m.parseLine s with
    | (ok, m1, s1) => if ok && !m1.done then parseLoop n m1 s1 else .ok (m1, s1)

/-- The header loop run on message and stream. src/Validatory.cpp:50, src/Signatory.cpp:57. -/
def Message.parseAll (m : Message) (s : IStream) : Except Err (Message × IStream) :=
  m.parseLoop (s.data.length + 2) s

end Dkim

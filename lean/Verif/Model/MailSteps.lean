import Verif.Model.MailParser
/-!
# The header block parser with a step counter

A step is one byte read, copied or looked at. Not counted: allocation, and the list of fields (a constant amount of
work for each line).
-/

namespace Dkim

/-- `Header::ParseLine`, src/MailParser.cpp:35-55: the line is appended (with CRLF); as long as no colon was
found, `m_header.find(':')` (45) looks at the whole field from its start; the name is copied (51). -/
def Header.parseLineSteps (h : Header) (line : Bytes) : Nat :=
  let text := if h.header.isEmpty then line else h.header ++ CRLF ++ line
  line.length + 2 +
    (if h.valueOffset = 0 then
      match text.findIdx? (· == COLON) with
      | none => text.length
      | some sep => (sep + 1) + sep
    else 0)

/-- `Message::ParseLine`, src/MailParser.cpp:85-126: the line is read (88), then given to the field (123). -/
def Message.parseLineSteps (m : Message) (s : IStream) : Nat :=
  match s.getline with
  | (none, _) => 1
  | (some line0, _) =>
    line0.length + 1 +
      match chopCR line0 with
      | [] => 0
      | c :: cs =>
        let m1 : Message :=
          if c ≠ TAB ∧ c ≠ SP then { m with headers := m.pushTmp, tmp := some {} } else m
        (m1.tmp.getD {}).parseLineSteps (c :: cs)

/-- The loop `while (m_msg.ParseLine(m_file) && !m_msg.IsDone()) { }`, src/Validatory.cpp:50,
src/Signatory.cpp:57; the calls are those of `Message.parseLoop`. -/
def Message.parseLoopSteps : Nat → Message → IStream → Nat
  | 0, _, _ => 0
  | n + 1, m, s =>
    m.parseLineSteps s +
      match m.parseLine s with
      | (ok, m1, s1) => if ok && !m1.done then parseLoopSteps n m1 s1 else 0

/-- The header loop run on message and stream. src/Validatory.cpp:50, src/Signatory.cpp:57. -/
def Message.parseAllSteps (m : Message) (s : IStream) : Nat := m.parseLoopSteps (s.data.length + 2) s

end Dkim

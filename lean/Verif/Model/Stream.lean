import Verif.Model.Basic
/-!
# The message stream (`std::istream&`)

Library contract (C++11 `std::basic_istream` over a seekable buffer), not code of the repository.
Sources that cannot be positioned and I/O errors (badbit) are in `Model/Device.lean`, streams with an exception mask in
`Model/Faults.lean`. Several threads: `Model/Threads.lean`.
-/

namespace Dkim

/-- src/Validatory.hpp:71, src/Signatory.hpp:46. -/
structure IStream where
  data : Bytes
  pos : Nat := 0
  eof : Bool := false
  fail : Bool := false
  deriving DecidableEq, Repr

namespace IStream

/-- `stream.good()`. src/Canonicalization.cpp:136. -/
def good (s : IStream) : Bool := !s.eof && !s.fail

/-- `stream.clear()`. src/Canonicalization.cpp:131. -/
def clear (s : IStream) : IStream := { s with eof := false, fail := false }

/-- `stream.seekg(off, beg)`: clears eofbit; fails outside `[0, size]`
(string streams; a file stream also allows positions beyond the end, which never occur here).
src/Canonicalization.cpp:132. -/
def seekg (s : IStream) (off : Int) : IStream :=
  let s := { s with eof := false }
  if s.fail then s
  else if 0 ≤ off ∧ off ≤ s.data.length then { s with pos := off.toNat }
  else { s with fail := true }

/-- `stream.tellg()`: the sentry fails (setting failbit) unless the stream is good. src/MailParser.cpp:108. -/
def tellg (s : IStream) : Int × IStream :=
  if s.good then (s.pos, s) else (-1, { s with fail := true })

/-- `stream.read(buf, n)`: the bytes read (`gcount()` many) and the new state. src/Canonicalization.cpp:141-144. -/
def read (s : IStream) (n : Nat) : Bytes × IStream :=
  if !s.good then ([], { s with fail := true })
  else
    let rest := s.data.drop s.pos
    if n ≤ rest.length then (rest.take n, { s with pos := s.pos + n })
    else (rest, { s with pos := s.pos + rest.length, eof := true, fail := true })

/-- Split at the first LF: (bytes before, bytes after) or `none` if there is no LF. src/MailParser.cpp:88. -/
def cutLF : Bytes → Option (Bytes × Bytes)
  | [] => none
  | c :: r => if c = LF then some ([], r) else (cutLF r).map (fun p => (c :: p.1, p.2))

/-- `std::getline(stream, line)`: `none` when the stream converts to false afterwards. src/MailParser.cpp:88. -/
def getline (s : IStream) : Option Bytes × IStream :=
  if !s.good then (none, { s with fail := true })
  else
    let rest := s.data.drop s.pos
    match cutLF rest with
    | some (line, _) => (some line, { s with pos := s.pos + line.length + 1 })
    | none =>
      if rest.isEmpty then (none, { s with eof := true, fail := true })
      else (some rest, { s with pos := s.pos + rest.length, eof := true })

end IStream
end Dkim

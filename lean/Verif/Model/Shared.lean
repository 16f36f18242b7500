import Verif.Model.Validatory
import Verif.Model.Signatory
/-!
# Several objects over one input stream

`Validatory` and `Signatory` keep a reference to the stream they are given (`std::istream& m_file`,
src/Validatory.hpp:72, src/Signatory.hpp:47), so a program may give the same stream to several of them and go
on using it itself.
-/

namespace Dkim

/-- A program's objects: one stream, the `Validatory` objects made over it (message and signature list,
src/Validatory.hpp:72-74) and the `Signatory` objects made over it (message, src/Signatory.hpp:46-47), in
the order of their construction. -/
structure Shared where
  stream : IStream
  vals : List (Message × List Header) := []
  sigs : List Message := []

/-- What a program can do with them. src/Validatory.hpp:43-66, src/Signatory.hpp:41-44. -/
inductive Use (E : Env)
  /-- `stream.clear()` -/
  | clear
  /-- `stream.seekg(off)` -/
  | seek (off : Int)
  /-- `stream.read(buf, n)` -/
  | read (n : Nat)
  /-- `std::getline(stream, line)` -/
  | line
  /-- `Validatory v(stream, type)` -/
  | newValidatory (type : ValidatorType)
  /-- `v.CheckBodyHash(sig)` on the `i`th `Validatory` -/
  | checkBodyHash (i : Nat) (sig : Signature)
  /-- `v.GetSignature(header, sig)` -/
  | getSignature (i : Nat) (now : Int) (h : Header) (st : SigSt)
  /-- `v.CheckSignature(header, sig, pub)` -/
  | checkSignature (i : Nat) (h : Header) (sig : Signature) (pub : PublicKey E)
  /-- `Signatory s(stream)` -/
  | newSignatory
  /-- `s.CreateSignature(options)` on the `j`th `Signatory` -/
  | createSignature (j : Nat) (o : Options E) (clock : Nat → Int)

/-- What the program sees of it. src/Validatory.hpp:43-66, src/Signatory.hpp:41-44. -/
inductive Seen
  /-- nothing (calls on the stream itself, and calls on objects that do not exist) -/
  | nothing
  /-- the result of the constructor: `GetSignatures()` -/
  | list (r : Except Err (List Header))
  /-- normal return or exception, and the `Signature` object filled -/
  | call (r : Except Err Unit) (st : Option SigSt)
  /-- the signature made -/
  | text (r : Except Err Bytes)

/-- The `Validatory` with the stream as it is now. src/Validatory.hpp:71, src/Signatory.hpp:46. -/
def Shared.val (w : Shared) (p : Message × List Header) : Validatory := { file := w.stream, msg := p.1, sigs := p.2 }

/-- One step of the program: the member functions of src/Validatory.cpp and src/Signatory.cpp, reading the shared
stream. -/
def Shared.step {E : Env} (w : Shared) : Use E → Seen × Shared
  | .clear => (.nothing, { w with stream := w.stream.clear })
  | .seek off => (.nothing, { w with stream := w.stream.seekg off })
  | .read n => (.nothing, { w with stream := (w.stream.read n).2 })
  | .line => (.nothing, { w with stream := w.stream.getline.2 })
  | .newValidatory type =>
    match Validatory.mk' w.stream type with
    | .error e => (.list (.error e), w)
    | .ok v => (.list (.ok v.sigs), { w with stream := v.file, vals := w.vals ++ [(v.msg, v.sigs)] })
  | .checkBodyHash i sig =>
    match w.vals[i]? with
    | none => (.nothing, w)
    | some p =>
      match (w.val p).checkBodyHash E sig with
      | (r, v) => (.call r none, { w with stream := v.file })
  | .getSignature i now h st =>
    match w.vals[i]? with
    | none => (.nothing, w)
    | some p =>
      match (w.val p).getSignature E now h st with
      | (r, st', v) => (.call r (some st'), { w with stream := v.file })
  | .checkSignature i h sig pub =>
    match w.vals[i]? with
    | none => (.nothing, w)
    | some p => (.call (Dkim.checkSignature E p.1 h sig pub) none, w)
  | .newSignatory => (.nothing, { w with sigs := w.sigs ++ [{}] })
  | .createSignature j o clock =>
    match w.sigs[j]? with
    | none => (.nothing, w)
    | some m =>
      match Signatory.createSignature E o clock { file := w.stream, msg := m } with
      | (r, sg) => (.text r, { w with stream := sg.file, sigs := w.sigs.set j sg.msg })

/-- The objects after a program. src/Validatory.hpp:71, src/Signatory.hpp:46. -/
def Shared.after {E : Env} (w : Shared) : List (Use E) → Shared
  | [] => w
  | u :: us => (w.step u).2.after us

end Dkim

import Verif.Model.Basic
/-!
# Specification: well-formed DNS answers (RFC 1035)
-/

namespace Dkim.Spec

/-- A domain name on the wire: labels of 1–63 bytes ended by the root or a compression pointer. -/
inductive WireName : Bytes → Prop
  | root : WireName [0]
  | pointer (hi lo : Byte) : 192 ≤ hi → WireName [hi, lo]
  | label (len : Byte) (text rest : Bytes) : 0 < len → len < 64 → text.length = len.toNat → WireName rest →
      WireName (len :: text ++ rest)

/-- A 16-bit number, big endian. -/
def be16 (n : Nat) : Bytes := [UInt8.ofNat (n / 256), UInt8.ofNat (n % 256)]

/-- A question: name, type and class. -/
structure Question where
  name : Bytes
  typeClass : Bytes

/-- A resource record; `mid` is the class and the time to live. -/
structure Record where
  name : Bytes
  type : Nat
  mid : Bytes
  rdata : Bytes

/-- Character-strings on the wire. -/
def charStrings (ss : List Bytes) : Bytes := ss.flatMap (fun s => UInt8.ofNat s.length :: s)

/-- Bytes of a question. -/
def Question.bytes (q : Question) : Bytes := q.name ++ q.typeClass

/-- Bytes of a record. -/
def Record.bytes (r : Record) : Bytes := r.name ++ be16 r.type ++ r.mid ++ be16 r.rdata.length ++ r.rdata

/-- Legal question. -/
def Question.WF (q : Question) : Prop := WireName q.name ∧ q.typeClass.length = 4

/-- Legal record: a TXT record (type 16) carries at least the given character-strings. -/
def Record.WF (r : Record) (strings : List Bytes) : Prop :=
  WireName r.name ∧ r.type < 65536 ∧ r.mid.length = 6 ∧ r.rdata.length < 65536 ∧
  (r.type = 16 → r.rdata = charStrings strings ∧ ∀ s ∈ strings, s.length < 256)

/-- A DNS message: identification and flags (4 bytes), the counts, questions, answers, and whatever follows. -/
def dnsMessage (idFlags : Bytes) (qs : List Question) (rs : List Record) (counts rest : Bytes) : Bytes :=
  idFlags ++ be16 qs.length ++ be16 rs.length ++ counts ++ qs.flatMap Question.bytes ++ rs.flatMap Record.bytes ++ rest

/-- The text of the TXT records, in order. -/
def txtOf (rs : List (Record × List Bytes)) : Bytes :=
  rs.flatMap (fun r => if r.1.type = 16 then r.2.flatten else [])

/-- What the C library promises of `dn_skipname`: it skips exactly a name. -/
def SkipsNames (skip : Bytes → Nat → Option Nat) : Prop :=
  ∀ before name after, WireName name → skip (before ++ name ++ after) before.length = some name.length

end Dkim.Spec

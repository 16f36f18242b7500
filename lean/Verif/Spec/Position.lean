import Verif.Model.Basic
import Verif.Spec.Address
/-!
# What the numbers in an error text point at

A parser's error text may name a byte (`0x%x`) and a position (`position %ld`) of the text that was
being parsed. `Points input r byte pos` says what they must be for the exception of kind `r`.
-/

namespace Dkim.Spec

open Dkim (Byte Bytes)

/-- The byte of `input` printed together with its position: the byte at that position, or `0xff` and
`-1` at the end of the input. `bad` says which bytes are wrong at that place. -/
inductive Names (input : Bytes) (bad : Byte → Prop) : Option Nat → Option Int → Prop
  | byte {i : Nat} {c : Byte} (at_ : input[i]? = some c) (wrong : bad c) :
      Names input bad (some c.toNat) (some (i : Int))
  | atEnd : Names input bad (some 255) (some (-1))

/-- What the error text of exception `r` may print for `input`. -/
inductive Points (input : Bytes) : Dkim.Reason → Option Nat → Option Int → Prop
  /-- "CR without matching LF, 0x.. at position ..": that byte follows a CR and is not LF. -/
  | cr {i : Nat} {c : Byte} (cr : input[i]? = some 13) (at_ : input[i + 1]? = some c) (wrong : c ≠ 10) :
      Points input .crWithoutLf (some c.toNat) (some ((i + 1 : Nat) : Int))
  /-- "CR without matching LF, at the END": the last byte is CR. -/
  | crEnd (last : input.getLast? = some 13) : Points input .crWithoutLf none none
  /-- "Invalid list value (empty), expecting value at position ..": there is a colon. -/
  | emptyList {i : Nat} (at_ : input[i]? = some 58) : Points input .emptyListValue none (some (i : Int))
  /-- "Invalid tag name (empty), expecting name at position ..": there is a byte that cannot start a
  name and is not white space. -/
  | emptyName {i : Nat} {c : Byte} (at_ : input[i]? = some c)
      (notName : ¬ ((65 ≤ c ∧ c ≤ 90) ∨ (97 ≤ c ∧ c ≤ 122) ∨ (48 ≤ c ∧ c ≤ 57) ∨ c = 95))
      (notBlank : c ≠ 32 ∧ c ≠ 9 ∧ c ≠ 13 ∧ c ≠ 10) :
      Points input .emptyTagName none (some (i : Int))
  /-- "Duplicate tag name (..)" prints no number. -/
  | duplicate {name : Bytes} : Points input (.duplicateTag name) none none
  /-- "Invalid tag list; unexpected 0x.., expecting = at position ..". -/
  | expectedEq {b p} (h : Names input (· ≠ 61) b p) : Points input .expectedEq b p
  /-- "Invalid tag value (invalid data), unexpected 0x.. at position ..": never at the end. -/
  | badValue {i : Nat} {c : Byte} (at_ : input[i]? = some c)
      (wrong : (c < 32 ∧ c ≠ 9 ∧ c ≠ 13 ∧ c ≠ 10) ∨ 127 ≤ c) :
      Points input .badTagValue (some c.toNat) (some (i : Int))
  /-- "Quoted-printable decoding failed; unexpected 0x.., expecting HEX at position ..". -/
  | qpHex {b p} (h : Names input (fun c => ¬ ((65 ≤ c ∧ c ≤ 70) ∨ (48 ≤ c ∧ c ≤ 57))) b p) :
      Points input .qpHex b p
  /-- "Quoted-printable decoding failed; unsafe character 0x.. at position ..": never at the
  end; a space or a CR is named when a line break after it is no fold. -/
  | qpUnsafe {i : Nat} {c : Byte} (at_ : input[i]? = some c)
      (wrong : c ≤ 32 ∨ c = 59 ∨ 127 ≤ c) :
      Points input .qpUnsafe (some c.toNat) (some (i : Int))
  /-- These texts print no number. -/
  | plain {r} (h : r = .unclosedString ∨ r = .incompleteEscape ∨ r = .unclosedComment ∨ r = .nulInAddress ∨
      r = .unclosedAddrSpec ∨ r = .missingColon input) : Points input r none none

/-- Address lists: a mailbox that is nothing but a quoted string is read as an address list of its own,
so the numbers may be about the content of that string (which may contain another one). -/
inductive AddrPoints (sc : Bool) : Bytes → Dkim.Reason → Option Nat → Option Int → Prop
  | here {input r b p} (h : Points input r b p) : AddrPoints sc input r b p
  | inside {input r b p} {before content text after : Bytes}
      (at_ : input = before ++ 34 :: text ++ 34 :: after) (q : Quoted sc content text)
      (h : AddrPoints sc content r b p) : AddrPoints sc input r b p

end Dkim.Spec

import Verif.Model.Tokenizer
/-!
# `src/QuotedPrintable.cpp`
-/

namespace Dkim

/-- `[0-9A-F]`, src/QuotedPrintable.cpp:55,64. -/
def isHexDigit (c : Byte) : Bool := (65 ≤ c && c ≤ 70) || (48 ≤ c && c ≤ 57)

/-- Value of a hex digit as computed by `strtol(hex, nullptr, 16)`, src/QuotedPrintable.cpp:73. -/
def hexVal (c : Byte) : Byte := if c ≤ 57 then c - 48 else c - 55

/-- Bytes taken literally, src/QuotedPrintable.cpp:75-77. -/
def isQpLiteral (c : Byte) : Bool :=
  (0x21 ≤ c && c ≤ 0x3A) || c == 0x3C || (0x3E ≤ c && c ≤ 0x7E)

/-- The loop of `QuotedPrintable::Decode`, src/QuotedPrintable.cpp:39-89. -/
def qpLoop (toSpace : Bool) : Nat → Bytes → Except Err Bytes
  | 0, _ => .error .hang
  | n + 1, s =>
    match s with
    | [] => .ok []
    | c :: r =>
      if toSpace ∧ c = 95 then
        match qpLoop toSpace n r with
        | .error e => .error e
        | .ok o => .ok (SP :: o)
      else if c = EQ then
        match r with
        | [] => .error (.p .qpHex)
        | a :: r1 =>
          if isHexDigit a then
            match r1 with
            | [] => .error (.p .qpHex)
            | b :: r2 =>
              if isHexDigit b then
                match qpLoop toSpace n r2 with
                | .error e => .error e
                | .ok o => .ok ((hexVal a * 16 + hexVal b) :: o)
              else .error (.p .qpHex)
          else .error (.p .qpHex)
      else if isQpLiteral c then
        match qpLoop toSpace n r with
        | .error e => .error e
        | .ok o => .ok (c :: o)
      else
        match readFWS (c :: r) with
        | .error e => .error e
        | .ok (ws, r') => if ws.isEmpty then .error (.p .qpUnsafe) else qpLoop toSpace n r'

/-- `QuotedPrintable::Decode(input, convert_to_space)`, src/QuotedPrintable.cpp:34-92. -/
def qpDecode (input : Bytes) (toSpace : Bool := false) : Except Err Bytes :=
  qpLoop toSpace (input.length + 1) input

/-- Entries of `qp_table` equal to 1, src/QuotedPrintable.cpp:99-116: printable ASCII except
`;` and `=`. -/
def qpPlain (c : Byte) : Bool := 0x21 ≤ c && c ≤ 0x7E && c != 0x3B && c != 0x3D

/-- `qp_digits`, src/QuotedPrintable.cpp:127. -/
def hexDigit (n : Byte) : Byte := if n < 10 then 48 + n else 55 + n

/-- `QuotedPrintable::Encode`, src/QuotedPrintable.cpp:97-134. -/
def qpEncode (input : Bytes) : Bytes :=
  input.flatMap (fun c => if qpPlain c then [c] else [EQ, hexDigit (c / 16), hexDigit (c % 16)])

end Dkim

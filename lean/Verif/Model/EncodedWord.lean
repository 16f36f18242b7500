import Verif.Model.QuotedPrintable
import Verif.Model.Env
/-!
# `src/EncodedWord.cpp`
-/

namespace Dkim

/-- The inner whitespace loop, src/EncodedWord.cpp:44-58: WSP is collected in `ws`, CRLF is
dropped; (ws, rest). -/
def ewSpace : Nat → Bytes → Bytes → Except Err (Bytes × Bytes)
  | 0, _, _ => .error .hang
  | n + 1, ws, s =>
    match readWSP s with
    | (w, r) =>
      if !w.isEmpty then ewSpace n (ws ++ w) r
      else
        match readCRLF s with
        | .error e => .error e
        | .ok (t, r2) => if !t.isEmpty then ewSpace n ws r2 else .ok (ws, s)

/-- Reading up to the next `?`, src/EncodedWord.cpp:74-81, 87-94, 100-107: (read, rest);
an empty rest means `fail = true`. -/
def untilQ (s : Bytes) : Bytes × Bytes :=
  match s with
  | [] => ([], [])
  | c :: r => if c = 63 then ([], c :: r) else (c :: (untilQ r).1, (untilQ r).2)

/-- Outcome of scanning an encoded word after its leading `=`. src/EncodedWord.cpp:63-121. -/
structure EwScan where
  /-- encoding and data if the syntax is right, `none` if `fail` -/
  word : Option (Bytes × Bytes)
  buffer : Bytes
  rest : Bytes
  deriving DecidableEq, Repr

/-- The scanner, src/EncodedWord.cpp:63-121; `s` is the stream after `=`. -/
def ewScan (s : Bytes) : EwScan :=
  match s with
  | [] => ⟨none, [EQ], []⟩
  | c0 :: s0 =>
    if c0 ≠ 63 then ⟨none, [EQ], s⟩
    else
      let buf1 := [EQ, 63] ++ (untilQ s0).1
      match (untilQ s0).2 with
      | [] => ⟨none, buf1, []⟩
      | _ :: s1 =>
        let enc := (untilQ s1).1
        let buf2 := buf1 ++ [63] ++ enc
        match (untilQ s1).2 with
        | [] => ⟨none, buf2, []⟩
        | _ :: s2 =>
          let dat := (untilQ s2).1
          let buf3 := buf2 ++ [63] ++ dat
          match (untilQ s2).2 with
          | [] => ⟨none, buf3, []⟩
          | _ :: s3 =>
            match s3 with
            | [] => ⟨none, buf3 ++ [63], []⟩
            | c4 :: s4 =>
              if c4 ≠ EQ then ⟨none, buf3 ++ [63], c4 :: s4⟩
              else
                match s4 with
                | [] => ⟨some (enc, dat), buf3 ++ [63, EQ], []⟩
                | c5 :: s5 =>
                  if c5 ≠ SP ∧ c5 ≠ CR ∧ c5 ≠ LF ∧ c5 ≠ TAB then ⟨none, buf3 ++ [63, EQ], c5 :: s5⟩
                  else ⟨some (enc, dat), buf3 ++ [63, EQ], c5 :: s5⟩

/-- Decoding the data part, src/EncodedWord.cpp:123-138; `none` = `fail`. -/
def ewData (E : Env) (enc dat : Bytes) : Option Bytes :=
  if enc = b!"q" ∨ enc = b!"Q" then
    match qpDecode dat true with
    | .ok o => some o
    | .error _ => none
  else if enc = b!"b" ∨ enc = b!"B" then some (E.b64dec dat)
  else none

/-- The main loop, src/EncodedWord.cpp:42-156 (returns what is appended to `output`). -/
def ewLoop (E : Env) : Nat → Bytes → Bytes → Except Err Bytes
  | 0, _, _ => .error .hang
  | n + 1, ws0, s0 =>
    match ewSpace (s0.length + 1) ws0 s0 with
    | .error e => .error e
    | .ok (ws, s) =>
      match s with
      | [] => .ok []
      | c :: r =>
        if c = EQ then
          let sc := ewScan r
          let out :=
            match sc.word with
            | none => ws ++ sc.buffer
            | some (enc, dat) =>
              match ewData E enc dat with
              | some o => o
              | none => ws ++ sc.buffer
          match ewLoop E n [] sc.rest with
          | .error e => .error e
          | .ok o => .ok (out ++ o)
        else
          match ewLoop E n [] r with
          | .error e => .error e
          | .ok o => .ok (ws ++ [c] ++ o)

/-- `EncodedWord::Decode`, src/EncodedWord.cpp:33-159. -/
def ewDecode (E : Env) (input : Bytes) : Except Err Bytes :=
  match skipFWS (input.length + 1) input with
  | .error e => .error e
  | .ok (_, s) => ewLoop E (s.length + 1) [] s

end Dkim

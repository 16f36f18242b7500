import Verif.Model.Basic
/-!
# `src/Resolver.cpp`

Every read of the answer goes through `rd8`, which yields `Err.ub` outside the answer.
-/

namespace Dkim

/-- Read byte `i` of the answer (`answer[0 .. answer_length)`). src/Resolver.cpp:126-137,147. -/
def rd8 (a : Bytes) (i : Nat) : Except Err Nat :=
  match a[i]? with
  | some b => .ok b.toNat
  | none => .error .ub

/-- `GETSHORT` without the pointer increment: big-endian 16-bit read. src/Resolver.cpp:126-137,147. -/
def rd16 (a : Bytes) (i : Nat) : Except Err Nat :=
  match rd8 a i with
  | .error e => .error e
  | .ok h =>
    match rd8 a (i + 1) with
    | .error e => .error e
    | .ok l => .ok (h * 256 + l)

/-- A 16-bit count in the DNS header. The buffer is 64 KiB and zeroed (src/Resolver.cpp:66-67, the counts: 105, 117), so
the header fields may be read even if the answer is shorter than a header. -/
def hdr16 (a : Bytes) (i : Nat) : Nat := (a.getD i 0).toNat * 256 + (a.getD (i + 1) 0).toNat

/-- glibc's loop behind `dn_skipname(ptr, eom)` (`ns_name_skip`), from position `p`: the end position or
`none` for -1. Reading stops at `eom`; a name that runs exactly up to `eom` is accepted. src/Resolver.cpp:107-109,120. -/
def dnSkip (a : Bytes) : Nat → Nat → Option Nat
  | 0, _ => none
  | n + 1, p =>
    match a[p]? with
    | none => if p > a.length then none else some p
    | some c =>
      if c = 0 then some (p + 1)
      else if c < 64 then dnSkip a n (p + 1 + c.toNat)
      else if c ≥ 192 then (if p + 2 > a.length then none else some (p + 2))
      else none

/-- `dn_skipname` as glibc implements it: number of bytes skipped or `none` for -1. The model of `GetTXT`
takes any implementation `skip`; this is the one used for concrete runs. src/Resolver.cpp:107-109,120. -/
def dnSkipName (a : Bytes) (p : Nat) : Option Nat := (dnSkip a (a.length + 1) p).map (· - p)

/-- The question loop, src/Resolver.cpp:104-113: `left` questions are left at `p`.
Returns (x == qc, answerptr). The call of `dn_skipname` after the last question has no effect. -/
def questionLoop (skip : Bytes → Nat → Option Nat) (a : Bytes) : Nat → Nat → Bool × Nat
  | 0, p => (true, p)
  | left + 1, p =>
    match skip a p with
    | none => (false, p)
    | some s => questionLoop skip a left (p + s + 4)

/-- The loop over the character-strings of a TXT record, src/Resolver.cpp:140-157. -/
def txtLoop (a : Bytes) : Nat → Nat → Nat → Except Err Bytes
  | 0, _, _ => .error .hang
  | n + 1, ptr, left =>
    if left = 0 then .ok []
    else
      match rd8 a ptr with
      | .error e => .error e
      | .ok len =>
        if len ≥ left then .ok []
        else if ptr + 1 + len > a.length then .error .ub   -- result.append reads beyond the answer
        else
          match txtLoop a n (ptr + (len + 1)) (left - (len + 1)) with
          | .error e => .error e
          | .ok r => .ok ((a.drop (ptr + 1)).take len ++ r)

/-- The loop over the answer records, src/Resolver.cpp:115-163: (return value, text appended). -/
def answerLoop (skip : Bytes → Nat → Option Nat) (a : Bytes) : Nat → Nat → Except Err (Bool × Bytes)
  | 0, _ => .ok (true, [])
  | left + 1, p0 =>
    match skip a p0 with
    | none => .ok (true, [])
    | some s =>
      let p := p0 + s
      if p + 10 > a.length then .ok (false, [])
      else
        match rd16 a p with
        | .error e => .error e
        | .ok t =>
          match rd16 a (p + 8) with
          | .error e => .error e
          | .ok s2 =>
            let q := p + 10
            if q + s2 > a.length then .ok (false, [])
            else
              let here : Except Err Bytes := if t = 16 then txtLoop a (s2 + 1) q s2 else .ok []
              match here with
              | .error e => .error e
              | .ok txt =>
                match answerLoop skip a left (q + s2) with
                | .error e => .error e
                | .ok (b, more) => .ok (b, txt ++ more)

/-- What `res_query` can report. src/Resolver.cpp:69-96. -/
inductive DnsReply
  | noData | hostNotFound | noRecovery | tryAgain
  /-- an answer of `answer_length` bytes; `tooLong` when the length exceeds the buffer -/
  | answer (a : Bytes)
  deriving DecidableEq, Repr

/-- `Resolver::GetTXT`, src/Resolver.cpp:64-167: (return value, result string); `skip` is the C library's
`dn_skipname`. -/
def getTXT (skip : Bytes → Nat → Option Nat) (reply : DnsReply) : Except Err (Bool × Bytes) :=
  match reply with
  | .noData => .ok (true, [])
  | .hostNotFound => .ok (true, [])
  | .noRecovery => .ok (true, [])
  | .tryAgain => .ok (false, [])
  | .answer a =>
    if a.length > 65536 then .ok (false, [])
    else
      match questionLoop skip a (hdr16 a 4) 12 with
      | (false, _) => .ok (true, [])
      | (true, p) => answerLoop skip a (hdr16 a 6) p

/-- The resolver used by `GetPublicKey` when no custom one is set, src/Validatory.cpp:100-103: a fresh `Resolver` and
`GetTXT`; `net` is what `res_query` reports for a name (passed as a C string, src/Resolver.cpp:70-73). `GetTXT` never fails
otherwise than by its return value (C49), so the error case cannot occur. -/
def builtinResolver (skip : Bytes → Nat → Option Nat) (net : Bytes → DnsReply) (query : Bytes) : Bool × Bytes :=
  match getTXT skip (net (cstr query)) with
  | .ok r => r
  | .error _ => (false, [])

end Dkim

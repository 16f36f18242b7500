import Lean.Elab.Term
/-!
# Bytes, errors, enumerations

Models: `src/DKIM.hpp`, `src/Exception.hpp`, and the C library character functions the code uses
(`tolower`, `isspace`, in the "C" locale).
-/

namespace Dkim

/-- A `char`. The element type of all texts, e.g. src/Tokenizer.cpp:42. -/
abbrev Byte := UInt8
/-- A `std::string` (bytes, may contain NUL). E.g. src/MailParser.hpp:35-50. -/
abbrev Bytes := List UInt8

/-- `b!"text"` is the explicit list of the UTF-8 bytes of a string literal. -/
macro:max "b!" s:str : term => do
  let elems : Array (Lean.TSyntax `term) :=
    (s.getString.toUTF8.toList.map (fun (b : UInt8) => Lean.Syntax.mkNumLit (toString b.toNat))).toArray
  `(([ $elems,* ] : List UInt8))

/-- src/Tokenizer.cpp:40-57, src/Canonicalization.cpp:144-186. -/
abbrev CR : Byte := 13
/-- src/Tokenizer.cpp:40-57, src/Canonicalization.cpp:144-186. -/
abbrev LF : Byte := 10
/-- src/Tokenizer.cpp:69,83, src/Canonicalization.cpp:144-186. -/
abbrev SP : Byte := 32
/-- src/Tokenizer.cpp:69,83, src/Canonicalization.cpp:144-186. -/
abbrev TAB : Byte := 9
/-- src/Validatory.cpp:235, src/Signatory.cpp:127, src/Canonicalization.cpp:206. -/
abbrev CRLF : Bytes := [CR, LF]
/-- src/MailParser.cpp:35-55, src/Canonicalization.cpp:106, src/Tokenizer.cpp:147-177. -/
abbrev COLON : Byte := 58
/-- src/TagList.cpp:143-186. -/
abbrev SEMI : Byte := 59
/-- src/TagList.cpp:143-186. -/
abbrev EQ : Byte := 61

/-- SP or TAB. Models the test in `READ_WSP`, src/Tokenizer.cpp:69. -/
def isWSP (c : Byte) : Bool := c == SP || c == TAB

/-- SP, TAB, CR or LF. Models the test in `READ_WSP_LOOSE`, src/Tokenizer.cpp:83. -/
def isLoose (c : Byte) : Bool := c == SP || c == TAB || c == CR || c == LF

/-- C `tolower` in the "C" locale (bytes ≥ 128 unchanged; glibc also accepts the negative `char`
values that the C standard leaves undefined).
src/Signature.cpp:77,90,232, src/Validatory.cpp:60,213,221, src/Signatory.cpp:108,122,137, src/Canonicalization.cpp:66. -/
def toLower (c : Byte) : Byte := if 65 ≤ c ∧ c ≤ 90 then c + 32 else c

/-- `transform(s.begin(), s.end(), s.begin(), tolower)`.
src/Signature.cpp:77,90,232, src/Validatory.cpp:60,213,221, src/Signatory.cpp:108,122,137, src/Canonicalization.cpp:66. -/
def lower (s : Bytes) : Bytes := s.map toLower

/-- C `isspace` in the "C" locale. src/Signature.cpp:138,146, src/PublicKey.cpp:114. -/
def isSpace (c : Byte) : Bool := c == 32 || (9 ≤ c && c ≤ 13)

/-- `A-Z a-z 0-9`, as tested in src/TagList.cpp:114-116 and listed in src/Util.cpp:77-80. -/
def isAlnum (c : Byte) : Bool :=
  (65 ≤ c && c ≤ 90) || (97 ≤ c && c ≤ 122) || (48 ≤ c && c ≤ 57)

/-- The digits `0-9`. src/TagList.cpp:114-116, src/QuotedPrintable.cpp:55, and `strtoul`, src/Signature.cpp:210,256. -/
def isDigit (c : Byte) : Bool := 48 ≤ c && c ≤ 57

/-- `std::string::c_str()` seen by a C function: the bytes up to the first NUL.
src/Signature.cpp:195,210,256,295, src/TagList.cpp:136. -/
def cstr (s : Bytes) : Bytes := s.takeWhile (· != 0)

/-- `std::string::erase(pos, n)` for `pos ≤ size` (larger `pos` is handled by the callers). src/Validatory.cpp:246. -/
def eraseAt (s : Bytes) (pos n : Nat) : Bytes := s.take pos ++ s.drop (pos + n)

/-- `DigestAlgorithm`, src/DKIM.hpp:26-29. -/
inductive DigestAlg | sha1 | sha256
  deriving DecidableEq, Repr

/-- `SignatureAlgorithm`, src/DKIM.hpp:30-33. -/
inductive SigAlg | rsa | ed25519
  deriving DecidableEq, Repr

/-- `CanonMode`, src/DKIM.hpp:34-37. -/
inductive CanonMode | simple | relaxed
  deriving DecidableEq, Repr

/-- `AR_CLASS`, src/Exception.hpp:28-36. -/
inductive AR | none | pass | fail | policy | neutral | temperror | permerror
  deriving DecidableEq, Repr

/-- `getAuthenticationResult`, src/Exception.hpp:43-56 and 66-79 (identical in both classes). -/
def AR.text : AR → Bytes
  | .none => b!"none" | .pass => b!"pass" | .fail => b!"fail" | .policy => b!"policy"
  | .neutral => b!"neutral" | .temperror => b!"temperror" | .permerror => b!"permerror"

/-- One enumerator per `throw` site; replaces the message text (the texts are in
`Model/Report`; the positions and offending bytes printed in them are modelled in `Model/StringStream`). -/
inductive Reason
  | crWithoutLf            -- src/Tokenizer.cpp:48,54
  | emptyListValue         -- src/Tokenizer.cpp:168
  | unclosedString | incompleteEscape | unclosedComment -- src/Tokenizer.cpp:204,207,228,233
  | nulInAddress | unclosedAddrSpec      -- src/Tokenizer.cpp:293,318
  | emptyTagName | duplicateTag (name : Bytes) | expectedEq | badTagValue -- src/TagList.cpp:130,135,145,179
  | missingColon (field : Bytes) -- src/Canonicalization.cpp:62,108
  | qpHex | qpUnsafe       -- src/QuotedPrintable.cpp:58,67,83
  | missingD | missingV | badV (v : Bytes) | missingA | badA (v : Bytes) | missingB | missingBH | badC (v : Bytes) | missingH
  | noFrom | missingI | badARC | noAtI | badI (mail dom : Bytes) | lTooLong | lRange | lNegative | lGarbage | badQ (v : Bytes)
  | missingS | expired     -- src/Signature.cpp
  | keyBadV (v : Bytes) | keyEmptyH | keyBadK (v : Bytes) | keyMissingP | keyRevoked | keyBadDER | keyNotRSA | keyBadEd
  | keyEmptyS              -- src/PublicKey.cpp
  | noKey (sel dom : Bytes) | dnsFailed (sel dom : Bytes) | badQueryType      -- src/Validatory.cpp:106,114,120
  | bodyHashMismatch | algNotAllowed | algMismatch | strictDomain | sigMismatch -- src/Validatory.cpp
  | bodyLimitExceeded | noRsaKey | signFailed -- src/Signatory.cpp:80,215,230,245
  | badSelector | badDomain | badPem | badDer | badEdKey | privNotRSA  -- src/SignatoryOptions.cpp
  deriving DecidableEq, Repr

/-- How a call can end other than by returning. -/
inductive Err
  /-- `DKIM::PermanentError`, src/Exception.hpp:37-59. -/
  | perm (r : Reason) (ar : AR)
  /-- `DKIM::TemporaryError`, src/Exception.hpp:60-82. -/
  | temp (r : Reason) (ar : AR)
  /-- `std::out_of_range` escaping from a `std::string` member. -/
  | outOfRange
  /-- undefined behaviour (out-of-bounds read, signed overflow, null key). -/
  | ub
  /-- a loop that does not finish within its fuel. -/
  | hang
  deriving DecidableEq, Repr

/-- `throw DKIM::PermanentError(msg)` with the default class, src/Exception.hpp:39. -/
abbrev Err.p (r : Reason) : Err := .perm r .permerror

/-- Decidable equality on results, so that concrete cases can be evaluated. -/
instance instDecEqExcept {ε α : Type} [DecidableEq ε] [DecidableEq α] :
    DecidableEq (Except ε α) := fun a b =>
  match a, b with
  | .ok x, .ok y => if h : x = y then isTrue (by rw [h]) else isFalse (by intro h'; cases h'; exact h rfl)
  | .error x, .error y => if h : x = y then isTrue (by rw [h]) else isFalse (by intro h'; cases h'; exact h rfl)
  | .ok _, .error _ => isFalse (by intro h; cases h)
  | .error _, .ok _ => isFalse (by intro h; cases h)

end Dkim

import Verif.Model.Tool
/-!
# The texts of exceptions and the bytes the tool prints

`StringFormat` is `vasprintf` (src/Util.cpp:65-75), so a `%s` argument is a C string (cut at NUL). Positions and offending bytes
(`%ld`, `0x%x`) are a parameter, `Num`; `numOf` prints the numbers computed by `Model/StringStream`.
-/

namespace Dkim

/-- The two numbers some texts contain: the byte found (hexadecimal) and its position. An empty position: there is none (end of input).
src/Tokenizer.cpp:48-51, src/TagList.cpp:130-182, src/QuotedPrintable.cpp:58-86. -/
structure Num where
  hex : Bytes := []
  pos : Bytes := []

/-- `%x` of a number, two hexadecimal digits at most: the argument is `peek() & 0xff`.
src/Tokenizer.cpp:49, src/TagList.cpp:146,180, src/QuotedPrintable.cpp:59,68,84. -/
def fmtX (n : Nat) : Bytes :=
  let digit (k : Nat) : Byte := if k < 10 then UInt8.ofNat (48 + k) else UInt8.ofNat (87 + k)
  if n < 16 then [digit n] else [digit (n / 16 % 16), digit (n % 16)]

/-- `%ld` of a position: -1 after the end of the input was reached, else the offset.
src/Tokenizer.cpp:50, src/TagList.cpp:131,147,181, src/QuotedPrintable.cpp:60,69,85. -/
def fmtLd (p : Int) : Bytes := if p < 0 then b!"-" ++ natDec p.natAbs else natDec p.natAbs

/-- The numbers of a parser's exception (byte, position) as printed.
src/Tokenizer.cpp:48-51, src/TagList.cpp:130-182, src/QuotedPrintable.cpp:58-86. -/
def numOf (byte : Option Nat) (pos : Option Int) : Num :=
  { hex := (byte.map fmtX).getD [], pos := (pos.map fmtLd).getD [] }

/-- `what()`: the text given at the `throw` site. -/
def Reason.what (n : Num) : Reason → Bytes
  -- src/Tokenizer.cpp:48-54
  | .crWithoutLf => if n.pos = [] then b!"CR without matching LF, at the END" else b!"CR without matching LF, 0x" ++ n.hex ++ b!" at position " ++ n.pos
  -- src/Tokenizer.cpp:168
  | .emptyListValue => b!"Invalid list value (empty), expecting value at position " ++ n.pos
  -- src/Tokenizer.cpp:204,207,228,233,293,318
  | .unclosedString => b!"unclosed string"
  | .incompleteEscape => b!"incomplete escape sequence"
  | .unclosedComment => b!"unclosed comment"
  | .nulInAddress => b!"NUL character in address field"
  | .unclosedAddrSpec => b!"unclosed < addr-spec >"
  -- src/TagList.cpp:130,135,145,179
  | .emptyTagName => b!"Invalid tag name (empty), expecting name at position " ++ n.pos
  | .duplicateTag name => b!"Duplicate tag name (" ++ cstr name ++ b!")"
  | .expectedEq => b!"Invalid tag list; unexpected 0x" ++ n.hex ++ b!", expecting = at position " ++ n.pos
  | .badTagValue => b!"Invalid tag value (invalid data), unexpected 0x" ++ n.hex ++ b!" at position " ++ n.pos
  -- src/Canonicalization.cpp:62,108
  | .missingColon f => b!"Header field " ++ cstr f ++ b!" is missing the colon separator"
  -- src/QuotedPrintable.cpp:58,67,83
  | .qpHex => b!"Quoted-printable decoding failed; unexpected 0x" ++ n.hex ++ b!", expecting HEX at position " ++ n.pos
  | .qpUnsafe => b!"Quoted-printable decoding failed; unsafe character 0x" ++ n.hex ++ b!" at position " ++ n.pos
  -- src/Signature.cpp:88-296
  | .missingD => b!"Missing domain of the signing entity (d)"
  | .missingV => b!"Missing version (v)"
  | .badV v => b!"Unsupported version " ++ cstr v ++ b!" (v supports 1)"
  | .missingA => b!"Missing algorithm (a)"
  | .badA v => b!"Unsupported signature algorithm " ++ cstr v ++ b!" (a supports rsa-sha1, rsa-sha256 and ed25519-sha256)"
  | .missingB => b!"Missing header signature (b)"
  | .missingBH => b!"Missing body hash (bh)"
  | .badC v => b!"Unsupported canonicalization type " ++ cstr v ++ b!" (c supports simple, relaxed)"
  | .missingH => b!"Missing signed header fields (h)"
  | .noFrom => b!"From: header must be included in signature"
  | .missingI => b!"Missing ARC instance (i)"
  | .badARC => b!"ARC instance (i) out of range 1-50"
  | .noAtI => b!"Missing a local-part (i)"
  | .badI m d => b!"Domain " ++ cstr m ++ b!" is not a (sub)domain of " ++ cstr d ++ b!" (i does not match d)"
  | .lTooLong => b!"Invalid body signed length; exceeds 76 digits (l)"
  | .lRange => b!"Invalid body signed length; exceeds available storage size of unsigned long (l)"
  | .lNegative => b!"Invalid body signed length; must be a positive number (l)"
  | .lGarbage => b!"Invalid body signed length; failed numeric parsing (l)"
  | .badQ v => b!"Unsupported query method " ++ cstr v ++ b!" (q supports dns/txt)"
  | .missingS => b!"Missing query selector (s)"
  | .expired => b!"Signature has expired (x)"
  -- src/PublicKey.cpp:66-156
  | .keyBadV v => b!"Unsupported version " ++ cstr v ++ b!" (v supports DKIM1)"
  | .keyEmptyH => b!"Acceptable hash algorithms is empty (h)"
  | .keyBadK v => b!"Unsupported key type " ++ cstr v ++ b!" (k supports rsa and ed25519)"
  | .keyMissingP => b!"Missing public key (p)"
  | .keyRevoked => b!"Public key is revoked (p)"
  | .keyBadDER => b!"Public key could not be loaded (invalid DER data)"
  | .keyNotRSA => b!"Public key could not be loaded (key type must be RSA/RSA2)"
  | .keyBadEd => b!"Public ed25519 key could not be loaded"
  | .keyEmptyS => b!"Service type is empty (s)"
  -- src/Validatory.cpp:106,114,120,163,179,182,188,270,278
  | .noKey s d => b!"No key for signature " ++ cstr s ++ b!"._domainkey." ++ cstr d
  | .dnsFailed s d => b!"DNS query failed for " ++ cstr s ++ b!"._domainkey." ++ cstr d
  | .badQueryType => b!"Unsupported query type " ++ n.pos
  | .bodyHashMismatch => b!"Body hash did not verify"
  | .algNotAllowed => b!"Algorithm is not allowed"
  | .algMismatch => b!"Signature algorithm type mismatch"
  | .strictDomain => b!"Domain must match sub-domain (flag s)"
  | .sigMismatch => b!"Signature did not verify"
  -- src/Signatory.cpp:80,215,230,245
  | .bodyLimitExceeded => b!"Body sign limit exceed the size of the canonicalized message length"
  | .noRsaKey => b!"No RSA key provided"
  | .signFailed => b!"Message could not be signed"
  -- src/SignatoryOptions.cpp:106-181
  | .badSelector => b!"Invalid selector (s=)"
  | .badDomain => b!"Invalid domain (d=)"
  | .badPem => b!"RSA key could not be loaded from PEM"
  | .badDer => b!"RSA key could not be loaded from DER"
  | .badEdKey => b!"ED25519 key could not be loaded as Base64"
  | .privNotRSA => b!"Private key could not be loaded (key type must be RSA/RSA2)"

namespace Tool

/-- The end of a line of the report, tools/src/main.cpp:184-196. -/
def Verdict.text (n : Num) : Verdict → Bytes
  | .ok => b!" OK\n"
  | .temperr a r => b!"(" ++ a.text ++ b!") TEMPERR:" ++ cstr (r.what n) ++ b!"\n"
  | .soft a r => b!"(" ++ a.text ++ b!") SOFT:" ++ cstr (r.what n) ++ b!"\n"
  | .perm a r => b!"(" ++ a.text ++ b!") = " ++ cstr (r.what n) ++ b!"\n"

/-- What `printf` writes for a line, tools/src/main.cpp:184,186,190,193. -/
def Line.text (n : Num) (l : Line) : Bytes :=
  b!"[" ++ l.file ++ b!"][" ++ l.domain ++ b!"][" ++ l.selector ++ b!"]" ++ l.verdict.text n

/-- Everything written to stdout in a run: the k-th line with its numbers. tools/src/main.cpp:166-197. -/
def reportText (num : Nat → Num) : Nat → List Line → Bytes
  | _, [] => []
  | k, l :: ls => l.text (num k) ++ reportText num (k + 1) ls

end Tool
end Dkim

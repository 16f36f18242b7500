import Verif.Model.Report
/-!
# Specification: the texts by which the causes of an exception can be told apart
-/

namespace Dkim.Spec

/-- How the texts for each cause begin and end; the causes are numbered in the order of `Reason`. Whatever stands in between (names
and numbers taken from the message) may be anything. -/
def causes : List (Bytes × Bytes) :=
  [ (b!"CR without matching LF", b!""), (b!"Invalid list value (empty)", b!""), (b!"unclosed string", b!""),
    (b!"incomplete escape sequence", b!""), (b!"unclosed comment", b!""), (b!"NUL character in address field", b!""),
    (b!"unclosed < addr-spec >", b!""), (b!"Invalid tag name (empty)", b!""), (b!"Duplicate tag name (", b!""),
    (b!"Invalid tag list; unexpected 0x", b!""), (b!"Invalid tag value (invalid data)", b!""), (b!"Header field ", b!""),
    (b!"Quoted-printable decoding failed; unexpected 0x", b!""), (b!"Quoted-printable decoding failed; unsafe character 0x", b!""),
    (b!"Missing domain of the signing entity (d)", b!""), (b!"Missing version (v)", b!""),
    (b!"Unsupported version ", b!" (v supports 1)"), (b!"Missing algorithm (a)", b!""),
    (b!"Unsupported signature algorithm ", b!""), (b!"Missing header signature (b)", b!""), (b!"Missing body hash (bh)", b!""),
    (b!"Unsupported canonicalization type ", b!""), (b!"Missing signed header fields (h)", b!""),
    (b!"From: header must be included in signature", b!""), (b!"Missing ARC instance (i)", b!""),
    (b!"ARC instance (i) out of range 1-50", b!""), (b!"Missing a local-part (i)", b!""),
    (b!"Domain ", b!" (i does not match d)"), (b!"Invalid body signed length; exceeds 76 digits", b!""),
    (b!"Invalid body signed length; exceeds available storage", b!""), (b!"Invalid body signed length; must be a positive number", b!""),
    (b!"Invalid body signed length; failed numeric parsing", b!""), (b!"Unsupported query method ", b!""),
    (b!"Missing query selector (s)", b!""), (b!"Signature has expired (x)", b!""),
    (b!"Unsupported version ", b!" (v supports DKIM1)"), (b!"Acceptable hash algorithms is empty (h)", b!""),
    (b!"Unsupported key type ", b!""), (b!"Missing public key (p)", b!""), (b!"Public key is revoked (p)", b!""),
    (b!"Public key could not be loaded (invalid DER data)", b!""), (b!"Public key could not be loaded (key type", b!""),
    (b!"Public ed25519 key could not be loaded", b!""), (b!"Service type is empty (s)", b!""), (b!"No key for signature ", b!""),
    (b!"DNS query failed for ", b!""), (b!"Unsupported query type ", b!""), (b!"Body hash did not verify", b!""),
    (b!"Algorithm is not allowed", b!""), (b!"Signature algorithm type mismatch", b!""), (b!"Domain must match sub-domain", b!" (flag s)"),
    (b!"Signature did not verify", b!""), (b!"Body sign limit exceed", b!""), (b!"No RSA key provided", b!""),
    (b!"Message could not be signed", b!""), (b!"Invalid selector (s=)", b!""), (b!"Invalid domain (d=)", b!""),
    (b!"RSA key could not be loaded from PEM", b!""), (b!"RSA key could not be loaded from DER", b!""),
    (b!"ED25519 key could not be loaded as Base64", b!""), (b!"Private key could not be loaded (key type", b!"") ]

/-- The text begins and ends like that. -/
def Bears (t : Bytes) (p : Bytes × Bytes) : Prop := p.1 <+: t ∧ p.2 <:+ t

/-- No text is of two kinds: different beginnings, or different endings. -/
def Apart (p q : Bytes × Bytes) : Bool :=
  (!p.1.isPrefixOf q.1 && !q.1.isPrefixOf p.1) || (!p.2.isSuffixOf q.2 && !q.2.isSuffixOf p.2)

end Dkim.Spec

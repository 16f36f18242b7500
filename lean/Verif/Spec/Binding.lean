import Verif.Spec.SigHeader
/-!
# Specification: what a signature header claims

Used by C56: two signature headers make the same claims when everything that decides what is covered
(algorithms, canonicalizations, body hash, body length) is equal and every tag other than b= has the same
value up to white space.
-/

namespace Dkim.Spec

/-- A text without its SP, TAB, CR and LF. -/
def compact (t : Bytes) : Bytes := t.filter (fun c => !isLoose c)

/-- Two parsed signature headers claim the same. -/
structure SameClaims (s s' : Signature) : Prop where
  alg : s.alg = s'.alg
  digest : s.digest = s'.digest
  canonHeader : s.canonHeader = s'.canonHeader
  canonBody : s.canonBody = s'.canonBody
  bodyHash : s.bh = s'.bh
  limited : s.bodySizeLimit = s'.bodySizeLimit
  limit : s.bodySize = s'.bodySize
  tags : ∀ n, n ≠ b!"b" → (tagVal s.tags n).map compact = (tagVal s'.tags n).map compact
  domain : compact s.domain = compact s'.domain
  selector : compact s.selector = compact s'.selector

end Dkim.Spec

import Verif.Spec.Dns
import Verif.Spec.RoundTrip
import Verif.Model.Resolver
/-!
# Specification: a key record published in the DNS
-/

namespace Dkim.Spec

variable {E : Env}

/-- The reply is a well-formed answer of at most 64 KiB whose TXT records, in order, carry these texts, each cut into
character-strings in any way; other records, questions and sections are arbitrary. -/
inductive Answers : DnsReply → List Bytes → Prop
  | mk (idFlags counts rest) (qs : List Question) (rs : List (Record × List Bytes)) : idFlags.length = 4 → counts.length = 4 →
      (∀ q ∈ qs, q.WF) → (∀ r ∈ rs, r.1.WF r.2) → qs.length < 65536 → rs.length < 65536 →
      (dnsMessage idFlags qs (rs.map Prod.fst) counts rest).length ≤ 65536 →
      Answers (.answer (dnsMessage idFlags qs (rs.map Prod.fst) counts rest))
        ((rs.filter (fun r => r.1.type = 16)).map (fun r => r.2.flatten))

/-- The name system holds, for this signature, one TXT record with a key that fits and may be used. -/
structure KeyInDns (o : Options E) (net : Bytes → DnsReply) (s : SigOpts E) (txt : Bytes) (k : PublicKey E) : Prop where
  record : Answers (net (s.selector ++ b!"._domainkey." ++ lower s.domain)) [txt]
  nonempty : txt ≠ []
  parsed : PublicKey.parse txt ({} : PublicKey E) = .ok () k
  pair : KeyPair o s k
  hash : k.digests = [] ∨ o.digest ∈ k.digests
  strict : o.arcInstance = 0 → b!"s" ∈ k.flags → ∃ loc, SignedIdentity o s loc (lower s.domain)

end Dkim.Spec

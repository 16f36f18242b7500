import Verif.Proofs.PublicKey
import Verif.Model.Validatory
import Verif.Tests.Samples
/-!
# Properties C31–C34, C42: key records

Spec: `Verif/Spec/KeyRecord.lean`.
-/

namespace Dkim
open Spec

variable {E : Env}

/-- C31: a fresh object accepts a TXT record iff it is a tag list with distinct names whose tags are
legal (`LegalKey` lists every requirement, in particular on v, k and p). -/
theorem C31_accepts_iff (txt : Bytes) :
    (∃ k, PublicKey.parse txt ({} : PublicKey E) = .ok () k) ↔
      ∃ es k, TagText 0 txt es ∧ (es.map Prod.fst).Nodup ∧ LegalKey E (tagVal es) k := by
  constructor
  · rintro ⟨k, hk⟩
    obtain ⟨es, h1, h2, _, h4, _⟩ := (keyParse_ok_iff txt k).1 hk
    exact ⟨es, k, h1, h2, h4⟩
  · rintro ⟨es, k, h1, h2, h3⟩
    obtain ⟨L1, L2, L3, L4, L5, L6⟩ := h3
    have key : ∀ (ds : List DigestAlg), HashTag (tagVal es b!"h") (fun d => d ∈ ds) →
        (∀ v names, tagVal es b!"h" = some v → valueList v = .ok names → ds = names.filterMap digestOf) →
        PublicKey.parse txt ({} : PublicKey E) = .ok () { k with tags := es, digests := ds } := by
      intro ds hd1 hd2
      exact (keyParse_ok_iff txt _).2 ⟨es, h1, h2, rfl, ⟨L1, hd1, L3, L4, L5, L6⟩, hd2⟩
    generalize (fun d => d ∈ k.digests) = P at L2
    cases hh : tagVal es b!"h" with
    | none =>
      refine ⟨_, key [] ?_ ?_⟩
      · rw [hh]
        have : (fun d => d ∈ ([] : List DigestAlg)) = fun _ => False := by funext d; simp
        rw [this]; exact .absent
      · intro v names hv; rw [hh] at hv; cases hv
    | some v =>
      rw [hh] at L2
      cases L2 with
      | present _ names hne hvl =>
        refine ⟨_, key (names.filterMap digestOf) ?_ ?_⟩
        · rw [hh]
          have : (fun d => d ∈ names.filterMap digestOf) = fun d => digestName d ∈ names := by
            funext d; exact propext (mem_digests names d)
          rw [this]; exact .present v names hne hvl
        · intro v' names' hv' hvl'
          rw [hh] at hv'; cases hv'; rw [hvl] at hvl'; cases hvl'; rfl

/-- C31: what an accepted record looks like and what the getters return afterwards. -/
theorem C31_accepted (txt : Bytes) (k : PublicKey E) (hk : PublicKey.parse txt ({} : PublicKey E) = .ok () k) :
    ∃ es, TagText 0 txt es ∧ (es.map Prod.fst).Nodup ∧ LegalKey E (tagVal es) k := by
  obtain ⟨es, h1, h2, _, h4, _⟩ := (keyParse_ok_iff txt k).1 hk
  exact ⟨es, h1, h2, h4⟩

/-- C31: revoked keys (empty p=) and records without p= are rejected, on any object. -/
theorem C31_revoked (txt : Bytes) (es : List (Bytes × TagEntry)) (ht : TagText 0 txt es)
    (hp : tagVal es b!"p" = none ∨ tagVal es b!"p" = some []) :
    ∃ r k', PublicKey.parse txt ({} : PublicKey E) = .error (.perm r .permerror) k' := by
  cases h : PublicKey.parse txt ({} : PublicKey E) with
  | error e k' =>
    obtain ⟨r, rfl⟩ := keyParse_perm txt _ _ _ h
    exact ⟨r, k', rfl⟩
  | ok u k =>
    exfalso
    obtain ⟨es', h1, h2, _, L, _⟩ := (keyParse_ok_iff txt k).1 h
    have hes : es' = es := by
      have h3 := (C11_parse_iff txt [] es').2 ⟨es', h1, h2, by simp, by simp⟩
      rcases tagLoop_text ht (txt.length + 1) (by omega) txt.length (by omega) [] with ⟨_, _, h4⟩ | ⟨_, _, m', h4⟩
      · have : (EStateM.Result.ok () es' : EStateM.Result Err TagList Unit) = .ok () ([] ++ es) := h3.symm.trans h4
        simpa using this
      · have : (EStateM.Result.ok () es' : EStateM.Result Err TagList Unit) = .error _ m' := h3.symm.trans h4
        cases this
    subst hes
    obtain ⟨p, hp1, hp2, _⟩ := L.key
    rcases hp with hp | hp
    · rw [hp] at hp1; cases hp1
    · rw [hp] at hp1; cases hp1; exact hp2 rfl

/-- C31: `Parse` fails only with permanent errors, on any object. -/
theorem C31_fails_permanently (txt : Bytes) (k k' : PublicKey E) (e : Err)
    (h : PublicKey.parse txt k = .error e k') : ∃ r, e = .perm r .permerror :=
  keyParse_perm txt _ _ _ h

/-- Key type, service count, hashes and flags after parsing in the toy environment. -/
def Spec.keyView (r : EStateM.Result Err (PublicKey toyEnv) Unit) : Option (SigAlg × Nat × List DigestAlg × List Bytes) :=
  match r with
  | .ok () k => some (k.alg, k.serviceEmail, k.digests, k.flags)
  | .error _ _ => none

example : keyView (PublicKey.parse b!"v=DKIM1; h=sha256:sha512; p=Bw==; s=email; t=y:s" {}) =
    some (.rsa, 1, [.sha256], [b!"y", b!"s"]) := by decide +kernel
example : keyView (PublicKey.parse Samples.edRec {}) = some (.ed25519, 0, [], []) := by decide +kernel
example : keyView (PublicKey.parse b!"v=DKIM1; p=" {}) = none ∧ keyView (PublicKey.parse b!"v=DKIM2; p=Bw==" {}) = none ∧
    keyView (PublicKey.parse b!"k=dsa; p=Bw==" {}) = none ∧ keyView (PublicKey.parse b!"k=ed25519; p=Bw==" {}) = none := by
  decide +kernel

/-! ## C32–C34: restrictions in the key record -/

theorem checkSignature_ok_sanity {msg : Message} {h : Header} {sig : Signature} {pub : PublicKey E}
    (hc : checkSignature E msg h sig pub = .ok ()) : sanityCheck sig pub = .ok () := by
  unfold checkSignature at hc
  cases hs : sanityCheck sig pub with
  | error e => rw [hs] at hc; cases hc
  | ok u => rfl

theorem sanityCheck_ok {sig : Signature} {pub : PublicKey E} :
    sanityCheck sig pub = .ok () ↔ (pub.digests = [] ∨ sig.digest ∈ pub.digests) ∧ sig.alg = pub.alg ∧
      (sig.arc = false → b!"s" ∈ pub.flags → sig.domain = sig.mailDomain) := by
  unfold sanityCheck
  constructor
  · intro h
    split at h
    · cases h
    · rename_i h1
      split at h
      · cases h
      · rename_i h2
        split at h
        · cases h
        · rename_i h3
          refine ⟨?_, by simpa using h2, ?_⟩
          · by_cases hd : pub.digests = []
            · exact Or.inl hd
            · refine Or.inr ?_
              have : 0 < pub.digests.length := List.length_pos_iff.2 hd
              simpa [this] using h1
          · intro ha hf
            simpa [ha, hf] using h3
  · rintro ⟨h1, h2, h3⟩
    rw [if_neg, if_neg, if_neg]
    · rintro ⟨ha, hf, hne⟩
      exact hne (h3 (by simpa using ha) (by simpa using hf))
    · simpa using h2
    · rintro ⟨hl, hc⟩
      rcases h1 with h1 | h1
      · rw [h1] at hl; simp at hl
      · simp [h1] at hc

/-- C32 (everything except hash lists in which no algorithm is known): a successful check means the
key type matches k=, and the signature's hash is listed in h= if h= lists any hash the library
knows. -/
theorem C32_algorithms_partial (txt : Bytes) (k : PublicKey E) (msg : Message) (h : Header) (sig : Signature)
    (hk : PublicKey.parse txt ({} : PublicKey E) = .ok () k) (hc : checkSignature E msg h sig k = .ok ()) :
    ∃ es, TagText 0 txt es ∧ KeyType (tagVal es b!"k") sig.alg ∧
      ∀ v names, tagVal es b!"h" = some v → valueList v = .ok names → (∃ d, digestName d ∈ names) →
        digestName sig.digest ∈ names := by
  obtain ⟨es, h1, h2, _, L, hd⟩ := (keyParse_ok_iff txt k).1 hk
  obtain ⟨s1, s2, _⟩ := sanityCheck_ok.1 (checkSignature_ok_sanity hc)
  refine ⟨es, h1, s2 ▸ L.keyType, ?_⟩
  rintro v names hv hvl ⟨d, hdn⟩
  rw [hd v names hv hvl] at s1
  rcases s1 with s1 | s1
  · have := (mem_digests names d).2 hdn
    rw [s1] at this
    cases this
  · exact (mem_digests names _).1 s1

/-- C32 is false of the code in general: a key restricted to a hash the library does not know is
used with SHA-256 all the same. -/
theorem C32_unknown_hash_witness :
    Samples.verify b!"h=sha512; p=Bw==" (Samples.signed Samples.rsaOpts Samples.message) = some (.ok ()) := by
  decide +kernel
example : Samples.verify b!"h=sha1; p=Bw==" (Samples.signed Samples.rsaOpts Samples.message) =
    some (.error (.p .algNotAllowed)) := by decide +kernel

/-- C33 is false of the code: a key restricted to another service is accepted for mail. -/
theorem C33_other_service_witness :
    Samples.verify b!"s=tlsrpt; p=Bw==" (Samples.signed Samples.rsaOpts Samples.message) = some (.ok ()) := by
  decide +kernel

/-- C33: in fact the service types recorded in the key have no influence on the check at all. -/
theorem C33_service_ignored (msg : Message) (h : Header) (sig : Signature) (k : PublicKey E) (n : Nat) :
    checkSignature E msg h sig { k with serviceEmail := n } = checkSignature E msg h sig k := rfl

/-- C33 (the part that holds): what can be learnt from the key object: an empty s= is rejected, and
afterwards the list of service types is non-empty exactly if s= lists `email` and not `*`. -/
theorem C33_recorded_partial (txt : Bytes) (k : PublicKey E)
    (hk : PublicKey.parse txt ({} : PublicKey E) = .ok () k) :
    ∃ es, TagText 0 txt es ∧ tagVal es b!"s" ≠ some [] ∧
      (k.serviceEmail ≠ 0 ↔ ∃ v names, tagVal es b!"s" = some v ∧ valueList v = .ok names ∧
        b!"email" ∈ names ∧ b!"*" ∉ names) := by
  obtain ⟨es, h1, h2, _, L, hd⟩ := (keyParse_ok_iff txt k).1 hk
  refine ⟨es, h1, ?_⟩
  have hs := L.service
  generalize tagVal es b!"s" = s at hs
  generalize k.serviceEmail = n at hs
  cases hs with
  | absent => simp
  | any v names hne hvl hm =>
    refine ⟨by simpa using hne, by simp, ?_⟩
    rintro ⟨v', names', hv, hvl', _, hno⟩
    cases hv; rw [hvl] at hvl'; cases hvl'; exact absurd hm hno
  | listed v names hne hvl hm =>
    refine ⟨by simpa using hne, ?_⟩
    constructor
    · intro hc
      exact ⟨v, names, rfl, hvl, List.count_pos_iff.1 (Nat.pos_of_ne_zero hc), hm⟩
    · rintro ⟨v', names', hv, hvl', hin, _⟩
      cases hv; rw [hvl] at hvl'; cases hvl'
      exact Nat.ne_of_gt (List.count_pos_iff.2 hin)

/-- C34: with the flag `s` in t=, a DKIM signature is only accepted if the identity's domain is the
signing domain itself. -/
theorem C34_strict (txt : Bytes) (k : PublicKey E) (msg : Message) (h : Header) (sig : Signature)
    (hk : PublicKey.parse txt ({} : PublicKey E) = .ok () k) (hc : checkSignature E msg h sig k = .ok ())
    (ha : sig.arc = false) :
    ∃ es, TagText 0 txt es ∧ ∀ v names, tagVal es b!"t" = some v → valueList v = .ok names →
      b!"s" ∈ names → sig.mailDomain = sig.domain := by
  obtain ⟨es, h1, h2, _, L, hd⟩ := (keyParse_ok_iff txt k).1 hk
  obtain ⟨_, _, s3⟩ := sanityCheck_ok.1 (checkSignature_ok_sanity hc)
  refine ⟨es, h1, ?_⟩
  intro v names hv hvl hin
  have hf := L.flags
  rw [hv] at hf
  generalize hfl : k.flags = fl at hf
  cases hf with
  | present _ _ hvl' =>
    rw [hvl] at hvl'; cases hvl'
    exact (s3 ha (hfl ▸ hin)).symm

/-- C34: and such a signature is rejected with a permanent error before anything is hashed. -/
theorem C34_rejects (msg : Message) (h : Header) (sig : Signature) (k : PublicKey E) (hf : b!"s" ∈ k.flags)
    (ha : sig.arc = false) (hd : sig.mailDomain ≠ sig.domain) :
    ∃ r, checkSignature E msg h sig k = .error (.perm r .permerror) := by
  have hne : sanityCheck sig k ≠ .ok () := by
    intro hs
    exact hd (((sanityCheck_ok.1 hs).2.2 ha hf).symm)
  unfold checkSignature
  unfold sanityCheck at *
  split
  · rename_i e he
    split at he
    · cases he; exact ⟨_, rfl⟩
    · split at he
      · cases he; exact ⟨_, rfl⟩
      · split at he
        · cases he; exact ⟨_, rfl⟩
        · cases he
  · rename_i hs
    exact absurd hs hne

/-- Options that sign with an identity in a subdomain. -/
def Samples.subOpts : Options toyEnv := { Samples.rsaOpts with identity := b!"u@x.d.e" }
example : Samples.verify b!"t=s; p=Bw==" (Samples.signed Samples.subOpts Samples.message) =
    some (.error (.p .strictDomain)) := by decide +kernel
example : Samples.verify b!"t=y; p=Bw==" (Samples.signed Samples.subOpts Samples.message) = some (.ok ()) := by
  decide +kernel
example : Samples.verify b!"t=s; p=Bw==" (Samples.signed Samples.rsaOpts Samples.message) = some (.ok ()) := by
  decide +kernel

/-! ## C42: key lookup -/

/-- C42: the outcome of `GetPublicKey` on a fresh key object, for every resolver. -/
theorem C42_lookup (resolver : Bytes → Bool × Bytes) (sig : Signature) (k0 : PublicKey E) :
    let q := resolver (sig.selector ++ b!"._domainkey." ++ sig.domain)
    ((∃ r a k, getPublicKey resolver sig k0 = .error (.temp r a) k) ↔ q.1 = false) ∧
    (q.1 = false → ∃ r k, getPublicKey resolver sig k0 = .error (.temp r .temperror) k) ∧
    (q.1 = true → q.2 = [] → ∃ r k, getPublicKey resolver sig k0 = .error (.perm r .permerror) k) ∧
    (q.1 = true → q.2 ≠ [] → getPublicKey resolver sig k0 = PublicKey.parse q.2 k0) ∧
    (∀ e k, q.1 = true → getPublicKey resolver sig k0 = .error e k → ∃ r, e = .perm r .permerror) := by
  have hq : keyQuery sig = sig.selector ++ b!"._domainkey." ++ sig.domain := rfl
  simp only
  unfold getPublicKey
  rw [hq]
  generalize resolver (sig.selector ++ b!"._domainkey." ++ sig.domain) = q
  obtain ⟨ok, txt⟩ := q
  cases ok with
  | false =>
    simp only [Bool.false_eq_true, if_false, es_throw]
    simp
  | true =>
    simp only [if_true]
    cases txt with
    | nil => simp [es_throw]
    | cons c t =>
      simp only [List.isEmpty_cons, Bool.false_eq_true, if_false]
      refine ⟨⟨?_, by simp⟩, by simp, by simp, by simp, ?_⟩
      · rintro ⟨r, a, k, h⟩
        obtain ⟨r', h'⟩ := keyParse_perm _ _ _ _ h
        cases h'
      · intro e k _ h
        exact keyParse_perm _ _ _ _ h

/-- C42: the name queried is selector, `._domainkey.`, domain; nothing else of the resolver matters. -/
theorem C42_query_name (r1 r2 : Bytes → Bool × Bytes) (sig : Signature) (k0 : PublicKey E)
    (h : r1 (sig.selector ++ b!"._domainkey." ++ sig.domain) = r2 (sig.selector ++ b!"._domainkey." ++ sig.domain)) :
    getPublicKey r1 sig k0 = getPublicKey r2 sig k0 := by
  unfold getPublicKey keyQuery
  rw [h]

end Dkim

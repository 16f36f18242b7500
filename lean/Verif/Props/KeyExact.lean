import Verif.Props.Verdict
/-!
# Property C32: exactly when the restrictions of a key record apply
-/

namespace Dkim
open Spec
variable {E : Env}

/-- The record names, in h=, a hash the library knows, but not this one. -/
def Spec.HashForbidden (h : Option Bytes) (d : DigestAlg) : Prop :=
  ∃ v names, h = some v ∧ ListText v names ∧ (∃ d', digestName d' ∈ names) ∧ digestName d ∉ names

/-- C32: for every key record and signature: if h= names a known hash but not that of the signature, the signature is rejected for that reason;
otherwise, if the key type (k=, by default RSA) is not that of the signature, it is rejected for that reason; otherwise neither restriction has
any effect. -/
theorem C32_exact (txt : Bytes) (k : PublicKey E) (msg : Message) (h : Header) (sig : Signature)
    (hk : PublicKey.parse txt ({} : PublicKey E) = .ok () k) :
    ∃ es, TagText 0 txt es ∧
      (HashForbidden (tagVal es b!"h") sig.digest → checkSignature E msg h sig k = .error (.p .algNotAllowed)) ∧
      (¬ HashForbidden (tagVal es b!"h") sig.digest → ¬ KeyType (tagVal es b!"k") sig.alg →
        checkSignature E msg h sig k = .error (.p .algMismatch)) ∧
      (¬ HashForbidden (tagVal es b!"h") sig.digest → KeyType (tagVal es b!"k") sig.alg →
        checkSignature E msg h sig k = checkSignature E msg h sig { k with digests := [], alg := sig.alg }) := by
  obtain ⟨es, h1, h2, _, L, hd⟩ := (keyParse_ok_iff txt k).1 hk
  refine ⟨es, h1, ?_⟩
  have hf : HashForbidden (tagVal es b!"h") sig.digest ↔ k.digests ≠ [] ∧ sig.digest ∉ k.digests := by
    constructor
    · rintro ⟨v, names, hv, hl, ⟨d', hd'⟩, hn⟩
      have e := hd v names hv ((C67_list_iff _ _).2 hl)
      rw [e]
      refine ⟨fun h0 => ?_, fun h0 => hn ((mem_digests names _).1 h0)⟩
      have := (mem_digests names d').2 hd'
      rw [h0] at this; cases this
    · rintro ⟨hne, hn⟩
      have hs := L.hashes
      cases ht : tagVal es b!"h" with
      | none =>
        rw [ht] at hs
        exfalso
        obtain ⟨x, hx⟩ := List.exists_mem_of_ne_nil _ hne
        generalize hP : (fun d => d ∈ k.digests) = P at hs
        cases hs
        have := congrFun hP x
        exact this ▸ hx
      | some v =>
        have : ∃ names, valueList v = .ok names := by
          rw [ht] at hs
          generalize (fun d => d ∈ k.digests) = P at hs
          cases hs with
          | present _ names _ hv => exact ⟨names, hv⟩
        obtain ⟨names, hv⟩ := this
        have e := hd v names ht hv
        refine ⟨v, names, rfl, (C67_list_iff _ _).1 hv, ?_, fun h0 => hn (by rw [e]; exact (mem_digests names _).2 h0)⟩
        obtain ⟨x, hx⟩ := List.exists_mem_of_ne_nil _ hne
        rw [e] at hx
        exact ⟨x, (mem_digests names x).1 hx⟩
  have ha : KeyType (tagVal es b!"k") sig.alg ↔ sig.alg = k.alg := by
    have hkt := L.keyType
    constructor
    · intro h0
      generalize tagVal es b!"k" = t at h0 hkt
      generalize sig.alg = a at h0 ⊢
      generalize k.alg = b at hkt ⊢
      cases h0 <;> cases hkt <;> rfl
    · intro h0; rw [h0]; exact hkt
  refine ⟨?_, ?_, ?_⟩
  · intro hF
    obtain ⟨g1, g2⟩ := hf.1 hF
    have : 0 < k.digests.length := List.length_pos_iff.2 g1
    unfold checkSignature sanityCheck
    rw [if_pos ⟨this, by simpa using g2⟩]
  · intro hF hT
    have hF' : ¬ (k.digests.length > 0 ∧ (!k.digests.contains sig.digest) = true) := by
      rintro ⟨g1, g2⟩
      exact hF (hf.2 ⟨List.length_pos_iff.1 g1, by simpa using g2⟩)
    unfold checkSignature sanityCheck
    rw [if_neg hF', if_pos (fun e => hT (ha.2 e))]
  · intro hF hT
    have hF' : ¬ (k.digests.length > 0 ∧ (!k.digests.contains sig.digest) = true) := by
      rintro ⟨g1, g2⟩
      exact hF (hf.2 ⟨List.length_pos_iff.1 g1, by simpa using g2⟩)
    have e := ha.1 hT
    have hs : sanityCheck sig k = sanityCheck sig { k with digests := [], alg := sig.alg } := by
      unfold sanityCheck
      rw [if_neg hF', if_neg (fun h0 => h0 e)]
      simp
    unfold checkSignature
    rw [hs]
    rfl

/-- Each of the three cases occurs. -/
theorem key_exact_example : HashForbidden (some b!"sha1") .sha256 ∧ ¬ HashForbidden (some b!"sha512") .sha256 ∧
    KeyType (some b!"ed25519") .ed25519 ∧ ¬ KeyType (some b!"ed25519") .rsa := by
  refine ⟨⟨b!"sha1", [b!"sha1"], rfl, (C67_list_iff _ _).1 (by decide +kernel), ⟨.sha1, by decide⟩, by decide⟩, ?_, .ed, ?_⟩
  · rintro ⟨v, names, hv, hl, ⟨d, hd⟩, _⟩
    cases hv
    have : valueList b!"sha512" = .ok [b!"sha512"] := by decide +kernel
    rw [(C67_list_iff _ _).2 hl] at this
    cases this
    cases d <;> simp [digestName] at hd <;> revert hd <;> decide
  · intro h
    generalize hs : some b!"ed25519" = s at h
    cases h <;> exact absurd hs (by decide)

end Dkim

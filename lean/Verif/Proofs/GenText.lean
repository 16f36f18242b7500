import Verif.Proofs.RoundTrip
import Verif.Spec.SigText
/-!
# Proofs: the text `CreateSignature` returns
-/

namespace Dkim
open Spec

variable {E : Env}

theorem signDigest_by {o : Options E} {s : SigOpts E} {md sgn : Bytes} (h : signDigest E s o.digest md = .ok sgn) :
    SignedBy E o s md sgn := by
  unfold signDigest at h
  cases ha : s.alg with
  | rsa =>
    rw [ha] at h
    simp only at h
    cases hk : s.rsa with
    | none => rw [hk] at h; cases h
    | some k =>
      rw [hk] at h
      simp only at h
      cases hs : E.rsaSign k o.digest md with
      | none => rw [hs] at h; cases h
      | some x => rw [hs] at h; cases h; exact .rsa k ha hk hs
  | ed25519 =>
    rw [ha] at h
    simp only [readBuf] at h
    by_cases hl : 64 ≤ s.ed.length + 1
    · rw [if_pos hl] at h
      simp only at h
      cases hs : E.edSign ((s.ed ++ [0]).take 64) md with
      | none => rw [hs] at h; cases h
      | some x => rw [hs] at h; cases h; exact .ed ha hl hs
    · rw [if_neg hl] at h; cases h

theorem foldedList_items (g n : Bytes) (items : List Item) (hg : IsFold g)
    (hi : ∀ i ∈ items, (i.pre = [] ∨ i.pre = foldWS) ∧ i.post = []) :
    FoldedList (n :: items.map Item.val) (g ++ joinColon (n :: items.map Item.text)) := by
  induction items generalizing g n with
  | nil => exact .one g n hg
  | cons i items ih =>
    have h1 := hi i (by simp)
    have := ih i.pre i.val h1.1 (fun j hj => hi j (by simp [hj]))
    have e : i.pre ++ joinColon (i.val :: items.map Item.text) = joinColon (i.text :: items.map Item.text) := by
      rw [joinColon_flatMap, joinColon_flatMap, Item.text, h1.2]; simp
    rw [e] at this
    have := FoldedList.cons g n i.val (items.map Item.val) _ hg this
    simpa [joinColon] using this

theorem foldH_folded (names : List Bytes) :
    ∃ h, FoldedList names h ∧ (foldH true b!"\th=" names).1 ++ (foldH true b!"\th=" names).2 = b!"\th=" ++ h := by
  cases names with
  | nil => exact ⟨[], .nil, rfl⟩
  | cons n ns =>
    obtain ⟨pre, items, h1, h2, h3, h4⟩ := foldH_first b!"\th=" n ns
    refine ⟨_, ?_, h4.trans (List.append_assoc ..)⟩
    rw [← h1]
    exact foldedList_items pre n items h3 h2

theorem algText_name (a : SigAlg) (d : DigestAlg) : algText a d = algName a d := by cases a <;> cases d <;> rfl
theorem canonText_name (m : CanonMode) : m.text = canonName m := by cases m <;> rfl

theorem sigTimestamp_sign {o : Options E} (h : o.timestampSign = true) (now : Int) : sigTimestamp o now = signTime o now := by
  unfold sigTimestamp signTime
  rw [if_pos h]
  by_cases h1 : o.timestamp = -1 <;> simp [h, h1]

theorem sigTimes_tags {o : Options E} {now : Int} {times : Bytes} (h : sigTimes o now = .ok times) : TimeTags o now times := by
  obtain ⟨h1, h2⟩ := sigTimes_eq h
  refine ⟨fmtLu (signTime o now), fmtLu (expiryTime o now), ?_, fmtLu_decimal _, fmtLu_decimal _⟩
  rw [h1]
  congr 1
  · by_cases ht : o.timestampSign = true
    · rw [sigTimestamp_sign ht]
    · rw [if_neg ht, if_neg ht]
  · by_cases hx : o.expirationSign = true
    · rw [(expOf_expiry (h2 hx)).1]
    · rw [if_neg hx, if_neg hx]

theorem identityLength (o : Options E) : IdentityLength o
    ((if o.identity.isEmpty then [] else b!"; i=" ++ qpEncode o.identity) ++
     (if o.bodySignLength then b!"; l=" ++ fmtLu o.bodyLength else [])) := by
  refine ⟨fmtLu o.bodyLength, ?_, ?_⟩
  · congr 1
    cases o.identity <;> simp
  · have := fmtLu_decimal o.bodyLength
    have e : (((o.bodyLength : Nat) : Int) % 2 ^ 64).toNat = o.bodyLength % 2 ^ 64 := by omega
    rw [e] at this
    exact this

theorem openingTag (o : Options E) : ∃ op, OpeningTag o op ∧
    sigPrefix o = op ++ b!"; a=" ++ algName o.first.alg o.digest ++ b!"; c=" ++ canonName o.canonHead ++ b!"/" ++
      canonName o.canonBody ++ b!";" := by
  unfold sigPrefix
  rw [algText_name, canonText_name, canonText_name]
  by_cases h : o.arcInstance = 0
  · refine ⟨_, .dkim h, ?_⟩
    rw [if_neg (by simp [h])]
    simp
  · refine ⟨_, .arc (fmtLu o.arcInstance) h ?_, ?_⟩
    · have := fmtLu_decimal o.arcInstance
      have e : (((o.arcInstance : Nat) : Int) % 2 ^ 64).toNat = (o.arcInstance % 2 ^ 64 : Nat) := by omega
      rw [e] at this
      exact this
    · rw [if_pos h]

/-- One field: text, digest input and signature. -/
theorem oneSignature_text {o : Options E} {s : SigOpts E} {now : Int} {hashed bh t : Bytes} {names : List Bytes}
    (h : oneSignature E o s now hashed names bh = .ok t) :
    ∃ head t2 sgn, FieldText o s now o.first.alg names bh sgn head t ∧ filterHeader o.canonHead head = .ok t2 ∧
      SignedBy E o s (E.hash o.digest (hashed ++ t2)) sgn := by
  obtain ⟨times, text, t2, sgn, c, cs, h1, h2, h3, h4, h5, h6, h7, h8, h9⟩ := oneSignature_ok h
  obtain ⟨op, hop, ep⟩ := openingTag o
  obtain ⟨hv, hh, eh⟩ := foldH_folded names
  refine ⟨text, t2, sgn, ⟨op, times, _, hv, joinLines (c :: cs.map (b!"\t " ++ ·)), ?_, h9, hop, sigTimes_tags h1,
    identityLength o, hh, c, cs, (base64_eq sgn).trans h5.symm, rfl⟩, h3, signDigest_by h4⟩
  rw [h2, ep]
  unfold sigDomainLine sigHLines
  rw [eh, qpEncode_cstr, base64_eq]
  simp [CRLF, CR, LF]

end Dkim

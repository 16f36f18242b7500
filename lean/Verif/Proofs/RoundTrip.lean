import Verif.Spec.RoundTrip
import Verif.Proofs.SigTags
import Verif.Proofs.SigLines
import Verif.Proofs.Prepend
import Verif.Props.VerifyBody
/-!
# Proofs: a generated field verifies
-/

namespace Dkim
open Spec

variable {E : Env}

theorem sigExpiration_eq (o : Options E) (now : Int) : sigExpiration o now =
    if -(2 ^ 63) ≤ expiryTime o now ∧ expiryTime o now < 2 ^ 63 then .ok (expiryTime o now) else .error .ub := by
  have e : (if o.expirationAbsolute = true then 0 else
      (if sigTimestamp o now = -1 then now else sigTimestamp o now)) + o.expiration = expiryTime o now := by
    unfold expiryTime signTime sigTimestamp
    by_cases ha : o.expirationAbsolute = true <;> by_cases ht : o.timestampSign = true <;>
      by_cases h1 : o.timestamp = -1 <;> by_cases h2 : now = -1 <;> simp_all
  unfold sigExpiration
  simp only
  rw [e]

theorem expOf_expiry {o : Options E} {now : Int} (h : sigExpiration o now = .ok (expOf o now)) :
    expOf o now = expiryTime o now ∧ expOf o now < 2 ^ 63 ∧ -(2 ^ 63) ≤ expOf o now := by
  rw [sigExpiration_eq] at h
  by_cases hb : -(2 ^ 63) ≤ expiryTime o now ∧ expiryTime o now < 2 ^ 63
  · rw [if_pos hb] at h
    simp only [Except.ok.injEq] at h
    rw [← h]
    exact ⟨rfl, hb.2, hb.1⟩
  · rw [if_neg hb] at h; cases h

theorem sigFieldName_colon (o : Options E) : ∀ c ∈ sigFieldName o, c ≠ COLON := by
  unfold sigFieldName; split <;> decide
theorem sigFieldName_trim (o : Options E) : trimWSP (sigFieldName o) = sigFieldName o := by
  unfold sigFieldName; split <;> decide
theorem sigFieldName_lower (o : Options E) :
    lower (sigFieldName o) = if o.arcInstance ≠ 0 then b!"arc-message-signature" else b!"dkim-signature" := by
  unfold sigFieldName; split <;> decide
theorem sigFieldName_arc (o : Options E) : isArcName (sigFieldName o) = decide (o.arcInstance ≠ 0) := by
  show decide (lower (sigFieldName o) = b!"arc-message-signature") = _
  rw [sigFieldName_lower]
  by_cases h : o.arcInstance ≠ 0
  · rw [if_pos h]; simp [h]
  · rw [if_neg h]; simp only [h, decide_false, decide_eq_false_iff_not]; decide

/-- The generated field as the parser sees it. -/
def genHeader (o : Options E) (t : Bytes) : Header :=
  { name := sigFieldName o, header := t, valueOffset := (sigFieldName o).length + 1 }

theorem findIdx_name (n rest : Bytes) (h : ∀ c ∈ n, c ≠ COLON) : (n ++ COLON :: rest).findIdx? (· == COLON) = some n.length := by
  induction n with
  | nil => simp [List.findIdx?_cons]
  | cons c n ih =>
    rw [List.cons_append, List.findIdx?_cons, ih (fun x hx => h x (by simp [hx]))]
    simp [h c (by simp)]

theorem mkField_gen (o : Options E) (g : List Bytes) (rest : Bytes)
    (h : joinLines g = sigFieldName o ++ COLON :: rest) : mkField g = genHeader o (joinLines g) := by
  unfold mkField genHeader
  rw [h, findIdx_name _ _ (sigFieldName_colon o)]
  simp [sigFieldName_trim]

theorem algText_tag {sa : SigAlg} {da : DigestAlg} (h : sa = .ed25519 → da = .sha256) : AlgTag (algText sa da) sa da := by
  cases sa with
  | rsa => cases da with
    | sha1 => exact .rsa1
    | sha256 => exact .rsa256
  | ed25519 =>
    rw [h rfl]
    exact .ed

theorem canonText_tag (m n : CanonMode) : CanonTag (some (m.text ++ b!"/" ++ n.text)) m n := by
  have := CanonTag.both m n
  cases m <;> cases n <;> exact this

/-- What the `Signature` object holds after reading a generated field. -/
def genSig (o : Options E) (s : SigOpts E) (names : List Bytes) (bh sgn : Bytes) (es : TagList) (loc dom : Bytes) : Signature :=
  { tags := es, arc := decide (o.arcInstance ≠ 0), digest := o.digest, alg := o.first.alg, b := sgn, bh := bh
    canonHeader := o.canonHead, canonBody := o.canonBody, domain := lower s.domain, headers := names
    mailLocal := loc, mailDomain := dom, bodySize := if o.bodySignLength then o.bodyLength else 0
    bodySizeLimit := o.bodySignLength, selector := s.selector, arcInstance := o.arcInstance }

theorem gen_legal (hB : E.B64Law) {o : Options E} {s : SigOpts E} {clk now : Int} {names : List Bytes} {bh sgn : Bytes}
    {es : TagList} {loc dom : Bytes} (G : GenTags o s clk names bh sgn (tagVal es)) (hs : sgn ≠ [])
    (hfrom : b!"from" ∈ names) (harc : o.arcInstance ≤ 50) (hid : SignedIdentity o s loc dom)
    (hl : o.bodySignLength = true → o.bodyLength < 2 ^ 63) (ha : o.first.alg = .ed25519 → o.digest = .sha256)
    (hx : o.expirationSign = true → sigExpiration o clk = .ok (expOf o clk))
    (hexp : o.expirationSign = true → 0 ≤ now ∧ now ≤ expiryTime o clk) :
    Legal E (decide (o.arcInstance ≠ 0)) now (tagVal es) (genSig o s names bh sgn es loc dom) := by
  refine ⟨rfl, ?_, ⟨_, G.domain, rfl⟩, G.selector, ⟨_, G.algorithm, algText_tag ha⟩, ?_, ?_, ?_, G.headers, ?_, ?_, ?_, ?_,
    .inl G.query, ?_⟩
  · intro h; exact G.version (by simpa using h)
  · obtain ⟨bv, h1, h2⟩ := G.signature
    refine ⟨bv, h1, ?_, ?_⟩
    · rintro rfl
      exact b64Encode_ne hs h2.symm
    · show sgn = E.b64dec (stripSpace bv)
      rw [h2, hB]
  · refine ⟨_, G.bodyHash, ?_⟩
    show bh = E.b64dec (stripSpace (b64Encode bh))
    have : stripSpace (b64Encode bh) = b64Encode bh := by
      unfold stripSpace
      rw [List.filter_eq_self]
      intro c hc
      rw [val_not_space (b64_val hc)]; rfl
    rw [this, hB]
  · rw [G.canon]; exact canonText_tag _ _
  · exact ⟨_, hfrom, by decide⟩
  · intro h
    have h0 : o.arcInstance = 0 := by simpa using h
    refine ⟨?_, h0⟩
    rw [G.identity h0]
    generalize hS : genSig o s names bh sgn es loc dom = S
    have e1 : S.domain = lower s.domain := by rw [← hS]; rfl
    have e2 : S.mailLocal = loc := by rw [← hS]; rfl
    have e3 : S.mailDomain = dom := by rw [← hS]; rfl
    rw [e1, e2, e3]
    cases hid with
    | arc hh _ => exact absurd h0 hh
    | domain _ hi => rw [hi]; exact .absent
    | user _ dm _ hi hat hin =>
      rw [hi]
      have : (loc ++ 64 :: dm).isEmpty = false := by simp
      rw [this]
      exact .present _ loc dm (C16_decode_encode _) hat hin
  · intro h
    have h0 : o.arcInstance ≠ 0 := by simpa using h
    refine ⟨⟨_, G.instance_ h0, ?_, ?_, harc⟩, ?_⟩
    · refine ⟨_, _, uLong_iff.2 (strtoul_decimal (n := o.arcInstance) (by omega) (fmtLu_nat (by omega)))⟩
    · show 1 ≤ o.arcInstance
      omega
    · cases hid with
      | arc => exact ⟨rfl, rfl⟩
      | domain hh _ => exact absurd hh h0
      | user _ _ hh => exact absurd hh h0
  · rw [G.length]
    cases hb : o.bodySignLength with
    | false => simp only [genSig, hb]; exact .absent
    | true =>
      simp only [genSig, hb, if_true]
      have := hl hb
      refine .present _ _ ?_ (uLong_iff.2 (strtoul_decimal (by omega) (fmtLu_nat (by omega)))) this
      have := fmtLu_length o.bodyLength
      omega
  · intro x hxv
    rw [G.expires] at hxv
    split at hxv
    · rename_i he
      cases hxv
      obtain ⟨k1, k2, k3⟩ := expOf_expiry (hx he)
      obtain ⟨n0, n1⟩ := hexp he
      rw [← k1] at n1
      rw [sLong_value, strtol_decimal (fmtLu_nonneg (by omega) (by omega)), if_pos (by omega)]
      simp only
      omega
    · cases hxv

theorem offsetToSize_small {n : Nat} (h : n < 2 ^ 31) : offsetToSize (n : Int) = some n := by
  unfold offsetToSize
  have : ((n : Int) % 2 ^ 32) = n := by
    apply Int.emod_eq_of_lt <;> omega
  simp only [this]
  rw [if_pos (by omega)]
  rfl

theorem stripB_of {h : Header} {sig : Signature} {bv : Bytes} {off : Int} {n : Nat}
    (hg : sig.tags.getTag b!"b" = some ⟨bv, off⟩) (ho : offsetToSize off = some n)
    (hle : n ≤ (h.header.drop h.valueOffset).length) :
    stripB h sig = .ok (h.header.take h.valueOffset ++ eraseAt (h.header.drop h.valueOffset) n bv.length) := by
  unfold stripB
  rw [hg]
  simp only [ho]
  rw [if_neg (by omega)]

theorem gen_stripB {o : Options E} {before bv : Bytes} {es : TagList} (sig : Signature) (ht : sig.tags = es)
    (hnd : (es.map Prod.fst).Nodup) (hm : (b!"b", (⟨bv, before.length⟩ : TagEntry)) ∈ es) (hlen : before.length < 2 ^ 31) :
    stripB (genHeader o (sigFieldName o ++ COLON :: (before ++ bv))) sig = .ok (sigFieldName o ++ COLON :: before) := by
  have hg := (getTag_eq_some_iff hnd _ _).2 hm
  have hoff := offsetToSize_small hlen
  rw [← ht] at hg
  have hh : ∀ t : Bytes, (genHeader o t).header = t := fun _ => rfl
  have hv : ∀ t : Bytes, (genHeader o t).valueOffset = (sigFieldName o).length + 1 := fun _ => rfl
  have e1 : (sigFieldName o ++ COLON :: (before ++ bv)).drop ((sigFieldName o).length + 1) = before ++ bv := by
    rw [List.drop_append]; simp
  have e2 : (sigFieldName o ++ COLON :: (before ++ bv)).take ((sigFieldName o).length + 1) = sigFieldName o ++ [COLON] := by
    rw [List.take_append, List.take_of_length_le (Nat.le_succ _)]; simp
  rw [stripB_of hg hoff (by rw [hh, hv, e1]; simp), hh, hv, e1, e2]
  unfold eraseAt
  simp

/-- A key pair: what was signed is accepted. -/
theorem gen_accepts {o : Options E} {s : SigOpts E} {k : PublicKey E} {md sgn : Bytes} (hk : KeyPair o s k)
    (hs : signDigest E s o.digest md = .ok sgn) (sig : Signature) (ha : sig.alg = s.alg) (hd : sig.digest = o.digest)
    (hb : sig.b = sgn) : sgn ≠ [] ∧ PrimitiveAccepts E sig k md ∧ sig.alg = k.alg := by
  unfold signDigest at hs
  cases hk with
  | rsa priv pub h1 h2 h3 h4 h5 =>
    rw [h1, h2] at hs
    simp only at hs
    cases hg : E.rsaSign priv o.digest md with
    | none => rw [hg] at hs; cases hs
    | some sg =>
      rw [hg] at hs; cases hs
      obtain ⟨p1, p2⟩ := h5 _ _ hg
      exact ⟨p1, .rsa pub (ha.trans h1) h4 (by rw [hd, hb]; exact p2), by rw [ha, h1, h3]⟩
  | ed h1 h2 h3 h4 h5 =>
    rw [h1] at hs
    simp only at hs
    rw [readBuf_ok.2 ⟨by omega, rfl⟩] at hs
    have e : (s.ed ++ [0]).take 64 = s.ed := by rw [← h2]; simp
    rw [e] at hs
    simp only at hs
    cases hg : E.edSign s.ed md with
    | none => rw [hg] at hs; cases hs
    | some sg =>
      rw [hg] at hs; cases hs
      obtain ⟨p1, p2⟩ := h5 _ _ hg
      refine ⟨?_, .ed (ha.trans h1) (by rw [hb]; omega) (by omega) ?_, by rw [ha, h1, h3]⟩
      · rintro rfl; simp at p1
      · have e1 : (k.ed ++ [0]).take 32 = k.ed := by rw [← h4]; simp
        have e2 : (sig.b ++ [0]).take 64 = sgn := by rw [hb, ← p1]; simp
        rw [e1, e2]; exact p2

theorem split_at {a b x y : Bytes} (ha : (64 : Byte) ∉ a) (hb : (64 : Byte) ∉ b) (h : a ++ 64 :: x = b ++ 64 :: y) :
    a = b ∧ x = y := by
  induction a generalizing b with
  | nil =>
    cases b with
    | nil => simpa using h
    | cons c b => simp at h; simp [h.1] at hb
  | cons c a ih =>
    cases b with
    | nil => simp at h; simp [h.1] at ha
    | cons e b =>
      simp only [List.cons_append, List.cons.injEq] at h
      simp only [List.mem_cons, not_or] at ha hb
      obtain ⟨rfl, h2⟩ := ih ha.2 hb.2 h.2
      exact ⟨by rw [h.1], h2⟩

/-- The verification of one generated field. -/
theorem gen_verifies (hB : E.B64Law) {o : Options E} {s : SigOpts E} {clk now : Int} {hs : List Header} {cs : List Bytes}
    {bh t loc dom : Bytes} {v : Validatory} (hbh : bh = E.hash o.digest (cap o.bodySignLength o.bodyLength
      (Spec.canonBody o.canonBody (bodyPart v.file.data v.msg.bodyOffset))))
    (names : List Bytes)
    (hone : oneSignature E o s clk (lines cs) names bh = .ok t)
    (hcs : CanonAll o.canonHead (signedFields o.headers hs) cs)
    (hsel : selected v.msg.headers names = signedFields o.headers hs)
    (hv : ValidOffset v.file v.msg.bodyOffset)
    (hn : ∀ n ∈ names, IsFieldName n)
    (hfrom : b!"from" ∈ names)
    (hdom : UnsetOrDomain s.domain ∧ UnsetOrDomain s.selector)
    (harc : o.arcInstance ≤ 50) (hid : SignedIdentity o s loc dom)
    (hl : o.bodySignLength = true → o.bodyLength < 2 ^ 63) (hal : s.alg = o.first.alg)
    (ha : o.first.alg = .ed25519 → o.digest = .sha256)
    (hexp : o.expirationSign = true → 0 ≤ now ∧ now ≤ expiryTime o clk)
    (resolver : Bytes → Bool × Bytes) (k : PublicKey E) (hk : Published o resolver s k) (hlen : t.length < 2 ^ 31)
    (er : Bool) (her : er = true → o.bodySignLength = false) :
    ∃ st pub v', v.verifyOne E now resolver (genHeader o t) er = (.ok (), st, pub, v') ∧
      ReadsBack o s names st.sig := by
  obtain ⟨before, bv, t2, sgn, es, h1, h2, rfl, h4, h5, G, h7, h8, h9⟩ := oneSignature_tags hone
    (List.ne_nil_of_mem hfrom) hn
    (fun c hc => letDig_val (C24_no_injection _ hdom.1 c hc)) (fun c hc => letDig_val (C24_no_injection _ hdom.2 c hc))
    (by
      intro h0
      cases hid with
      | arc _ hh => exact hh
      | domain hh => exact absurd hh h0
      | user _ _ hh => exact absurd hh h0)
  obtain ⟨hne, hacc, hka⟩ := gen_accepts hk.pair h2 (genSig o s names bh sgn es loc dom) hal.symm rfl rfl
  obtain ⟨_, hmem⟩ := h9 hne
  have hbl : before.length < 2 ^ 31 := by simp at hlen; omega
  -- parse
  have hparse : Signature.parse E now (genHeader o (sigFieldName o ++ COLON :: (before ++ bv))) { erange := er } =
      .ok () ⟨genSig o s names bh sgn es loc dom, er || xRange es⟩ := by
    refine (parse_ok_iff _ _ _ _ _).2 ⟨es, ?_, h5, rfl, ?_, ?_, rfl⟩
    · have : valueText (genHeader o (sigFieldName o ++ COLON :: (before ++ bv))) = before ++ bv := by
        unfold valueText genHeader
        simp only
        rw [List.drop_append]; simp
      rw [this]; exact h4
    · have : isArcName (genHeader o (sigFieldName o ++ COLON :: (before ++ bv))).name = decide (o.arcInstance ≠ 0) :=
        sigFieldName_arc o
      rw [this]
      exact gen_legal hB G hne hfrom harc hid hl ha h8 hexp
    · intro he
      rw [G.length, her he]; rfl
  -- body
  obtain ⟨s', d', hc⟩ := checkBodyHash_eq (E := E) v hv (genSig o s names bh sgn es loc dom)
  have hcap : hashedBody (genSig o s names bh sgn es loc dom) v =
      cap o.bodySignLength o.bodyLength (Spec.canonBody o.canonBody (bodyPart v.file.data v.msg.bodyOffset)) := by
    unfold hashedBody
    simp only [genSig]
    cases o.bodySignLength <;> rfl
  rw [hcap] at hc
  have hbh' : (genSig o s names bh sgn es loc dom).bh = E.hash (genSig o s names bh sgn es loc dom).digest
      (cap o.bodySignLength o.bodyLength (Spec.canonBody o.canonBody (bodyPart v.file.data v.msg.bodyOffset))) := hbh
  rw [if_pos hbh'] at hc
  -- key
  obtain ⟨txt, q1, q2, q3⟩ := hk.record
  rw [Spec.lower_eq] at q1
  have hkey : getPublicKey resolver (genSig o s names bh sgn es loc dom) ({} : PublicKey E) = .ok () k := by
    unfold getPublicKey
    have : keyQuery (genSig o s names bh sgn es loc dom) = s.selector ++ b!"._domainkey." ++ lower s.domain := rfl
    rw [this, q1]
    simp only [if_true]
    have : txt.isEmpty = false := by cases txt with | nil => exact absurd rfl q2 | cons => rfl
    rw [this]
    exact q3
  have hchk : checkSignature E v.msg (genHeader o (sigFieldName o ++ COLON :: (before ++ bv)))
      (genSig o s names bh sgn es loc dom) k = .ok () := by
    refine (C36_success_iff _ _ _ _).2 ⟨⟨hk.hash, hka, ?_⟩, lines cs ++ t2, ?_, hacc⟩
    · intro harc hflag
      have h0 : o.arcInstance = 0 := by simpa [genSig] using harc
      obtain ⟨loc', hid'⟩ := hk.strict h0 hflag
      show Spec.lower s.domain = dom
      generalize hD : Spec.lower s.domain = D at hid'
      cases hid' with
      | arc hh => exact absurd h0 hh
      | domain _ hi =>
        cases hid with
        | arc hh => exact absurd h0 hh
        | domain => rfl
        | user _ _ _ hi2 => rw [hi] at hi2; simp at hi2
      | user _ dm _ hi hat _ =>
        cases hid with
        | arc hh => exact absurd h0 hh
        | domain _ hi2 => rw [hi] at hi2; simp at hi2
        | user _ dm2 _ hi2 hat2 _ =>
          rw [hi] at hi2
          rw [(split_at hat hat2 hi2).2]
    · refine (headerHashInput_ok _ _ _ _).2 ⟨cs, _, t2, ?_, gen_stripB _ rfl h5 hmem hbl, h1, rfl⟩
      show CanonAll o.canonHead (selected v.msg.headers names) cs
      rw [hsel]; exact hcs
  refine ⟨⟨genSig o s names bh sgn es loc dom, er || xRange es⟩, k, { v with file := s' }, ?_,
    ⟨by rw [Spec.lower_eq]; rfl, rfl, hid, rfl, rfl, hal.symm, rfl, rfl, rfl, fun hh => by simp [genSig, hh], by simp [genSig], rfl⟩⟩
  unfold Validatory.verifyOne Validatory.getSignature
  rw [hparse]
  simp only [hc, hkey, hchk]

end Dkim

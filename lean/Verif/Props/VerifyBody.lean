import Verif.Props.Verify
/-!
# Properties C39–C41, C43, C54: body hash, histories, discovery, memory safety, unambiguity
-/

namespace Dkim
open Spec

variable {E : Env}

/-! ## C39, C40 -/

/-- What is known about a `Validatory` built from the text `d`. -/
structure Spec.Built (d : Bytes) (v : Validatory) : Prop where
  data : v.file.data = d
  off : ValidOffset v.file v.msg.bodyOffset

theorem mk'_built (d : Bytes) (type : ValidatorType) (v : Validatory) (h : Validatory.mk' (freshStream d) type = .ok v) :
    Built d v ∧ ∃ s', Message.parseAll {} (freshStream d) = .ok (v.msg, s') ∧ v.file = s' := by
  unfold Validatory.mk' at h
  cases hp : Message.parseAll {} (freshStream d) with
  | error e => rw [hp] at h; cases h
  | ok r =>
    obtain ⟨m, s'⟩ := r
    rw [hp] at h
    cases h
    obtain ⟨m2, s2, ls, h1, h2, h3, h4⟩ := C20_parse d
    rw [hp] at h1
    cases h1
    refine ⟨⟨h4, ?_⟩, s', rfl, rfl⟩
    rcases C20_body_offset d m s' hp with ⟨n, hn, hle, _⟩ | ⟨hn, _⟩
    · right
      simp only [h4, hn]
      omega
    · left; exact hn

/-- The bytes whose digest is compared with bh=. -/
def Spec.hashedBody (sig : Signature) (v : Validatory) : Bytes :=
  cap sig.bodySizeLimit sig.bodySize (Spec.canonBody sig.canonBody (bodyPart v.file.data v.msg.bodyOffset))

theorem checkBodyHash_eq (v : Validatory) (hoff : ValidOffset v.file v.msg.bodyOffset) (sig : Signature) :
    ∃ s', s'.data = v.file.data ∧ v.checkBodyHash E sig =
      (if sig.bh = E.hash sig.digest (hashedBody sig v) then .ok () else .error (.perm .bodyHashMismatch .fail),
        { v with file := s' }) := by
  obtain ⟨calls, s', h1, h2, h3⟩ := canonBodyBlk_spec 8096 (by decide) v.file sig.canonBody v.msg.bodyOffset
    sig.bodySizeLimit sig.bodySize hoff
  refine ⟨s', h2, ?_⟩
  unfold Validatory.checkBodyHash Dkim.canonBody
  rw [h1]
  simp only [h3]
  unfold hashedBody
  split <;> rfl

/-- C39: the body hash check accepts iff bh= is the digest of the canonical body (cut at l=). -/
theorem C39_accepts_iff (d : Bytes) (type : ValidatorType) (v : Validatory)
    (hv : Validatory.mk' (freshStream d) type = .ok v) (sig : Signature) :
    (v.checkBodyHash E sig).1 = .ok () ↔ sig.bh = E.hash sig.digest
      (cap sig.bodySizeLimit sig.bodySize (Spec.canonBody sig.canonBody (bodyPart d v.msg.bodyOffset))) := by
  obtain ⟨hb, _⟩ := mk'_built d type v hv
  obtain ⟨s', _, h⟩ := checkBodyHash_eq (E := E) v hb.off sig
  rw [h]
  unfold hashedBody
  rw [hb.data]
  split <;> simp_all

/-- A collision of the digest function. -/
def Spec.Collision (E : Env) (da : DigestAlg) (x y : Bytes) : Prop := x ≠ y ∧ E.hash da x = E.hash da y

/-- C39: two messages accepted for the same signature have the same canonical body up to l=, or
their canonical bodies are a collision. -/
theorem C39_two_messages (d d' : Bytes) (type type' : ValidatorType) (v v' : Validatory)
    (hv : Validatory.mk' (freshStream d) type = .ok v) (hv' : Validatory.mk' (freshStream d') type' = .ok v')
    (sig : Signature) (h : (v.checkBodyHash E sig).1 = .ok ()) (h' : (v'.checkBodyHash E sig).1 = .ok ()) :
    let x := cap sig.bodySizeLimit sig.bodySize (Spec.canonBody sig.canonBody (bodyPart d v.msg.bodyOffset))
    let y := cap sig.bodySizeLimit sig.bodySize (Spec.canonBody sig.canonBody (bodyPart d' v'.msg.bodyOffset))
    x = y ∨ Collision E sig.digest x y := by
  rw [C39_accepts_iff d type v hv sig] at h
  rw [C39_accepts_iff d' type' v' hv' sig] at h'
  simp only
  by_cases hxy : cap sig.bodySizeLimit sig.bodySize (Spec.canonBody sig.canonBody (bodyPart d v.msg.bodyOffset)) =
      cap sig.bodySizeLimit sig.bodySize (Spec.canonBody sig.canonBody (bodyPart d' v'.msg.bodyOffset))
  · exact Or.inl hxy
  · exact Or.inr ⟨hxy, h.symm.trans h'⟩

theorem equiv_of_canon {mode : CanonMode} {a b : Bytes} (h : Spec.canonBody mode a = Spec.canonBody mode b) :
    BodyEquiv mode a b := by
  have key : ∀ x : Bytes, bodyBytes mode x false 0 = .ok (Spec.canonBody mode x, true) := by
    intro x
    rw [bodyBytes_eq]
    rfl
  rw [C04_body_equiv_iff, key, key, h]

/-- C39: without l=, a body that was changed in any way other than the immaterial ones (`BodyEquiv`)
is rejected, unless it is a collision. -/
theorem C39_tampering (d d' : Bytes) (type type' : ValidatorType) (v v' : Validatory)
    (hv : Validatory.mk' (freshStream d) type = .ok v) (hv' : Validatory.mk' (freshStream d') type' = .ok v')
    (sig : Signature) (hl : sig.bodySizeLimit = false) (h : (v.checkBodyHash E sig).1 = .ok ())
    (h' : (v'.checkBodyHash E sig).1 = .ok ()) :
    BodyEquiv sig.canonBody (bodyPart d v.msg.bodyOffset) (bodyPart d' v'.msg.bodyOffset) ∨
    ∃ x y, Collision E sig.digest x y := by
  rcases C39_two_messages d d' type type' v v' hv hv' sig h h' with h | h
  · rw [hl] at h
    exact Or.inl (equiv_of_canon h)
  · exact Or.inr ⟨_, _, h⟩

/-- C39 (converse): immaterial changes of the body are never noticed. -/
theorem C39_immaterial (d d' : Bytes) (type type' : ValidatorType) (v v' : Validatory)
    (hv : Validatory.mk' (freshStream d) type = .ok v) (hv' : Validatory.mk' (freshStream d') type' = .ok v')
    (sig : Signature) (hq : BodyEquiv sig.canonBody (bodyPart d v.msg.bodyOffset) (bodyPart d' v'.msg.bodyOffset)) :
    (v.checkBodyHash E sig).1 = .ok () ↔ (v'.checkBodyHash E sig).1 = .ok () := by
  rw [C39_accepts_iff d type v hv sig, C39_accepts_iff d' type' v' hv' sig]
  have key : ∀ x : Bytes, bodyBytes sig.canonBody x false 0 = .ok (Spec.canonBody sig.canonBody x, true) := by
    intro x
    rw [bodyBytes_eq]
    rfl
  have := (C04_body_equiv_iff _ _ _).1 hq
  rw [key, key] at this
  simp only [Except.ok.injEq, Prod.mk.injEq, and_true] at this
  rw [this]

/-- The calls one can make on a `Validatory`. -/
inductive Spec.Check (E : Env)
  | bodyHash (sig : Signature)
  | getSignature (now : Int) (h : Header) (st : SigSt)
  | signature (h : Header) (sig : Signature) (pub : PublicKey E)

/-- Result of one call (and the signature object it filled, if any) and the `Validatory` after it. -/
def Spec.Check.run (v : Validatory) : Check E → (Except Err Unit × Option SigSt) × Validatory
  | .bodyHash sig => (((v.checkBodyHash E sig).1, none), (v.checkBodyHash E sig).2)
  | .getSignature now h st =>
    (((v.getSignature E now h st).1, some (v.getSignature E now h st).2.1), (v.getSignature E now h st).2.2)
  | .signature h sig pub => ((checkSignature E v.msg h sig pub, none), v)

/-- Results of a history of calls. -/
def Spec.Check.history (v : Validatory) : List (Check E) → List (Except Err Unit × Option SigSt)
  | [] => []
  | c :: cs => (c.run v).1 :: history (c.run v).2 cs

/-- Two states that differ only in the position and flags of the stream. -/
def Spec.SameMessage (v w : Validatory) : Prop :=
  v.file.data = w.file.data ∧ v.msg = w.msg ∧ v.sigs = w.sigs ∧ ValidOffset v.file v.msg.bodyOffset

theorem checkBodyHash_same {v w : Validatory} (h : SameMessage v w) (sig : Signature) :
    (v.checkBodyHash E sig).1 = (w.checkBodyHash E sig).1 ∧ SameMessage (v.checkBodyHash E sig).2 w := by
  obtain ⟨h1, h2, h3, h4⟩ := h
  have h4' : ValidOffset w.file w.msg.bodyOffset := by unfold ValidOffset at *; rw [← h1, ← h2]; exact h4
  obtain ⟨s1, d1, e1⟩ := checkBodyHash_eq (E := E) v h4 sig
  obtain ⟨s2, d2, e2⟩ := checkBodyHash_eq (E := E) w h4' sig
  have hb : hashedBody sig v = hashedBody sig w := by unfold hashedBody; rw [h1, h2]
  rw [e1, e2, hb]
  refine ⟨rfl, d1.trans h1, h2, h3, ?_⟩
  unfold ValidOffset at *
  simp only [d1]
  exact h4

theorem run_same {v w : Validatory} (h : SameMessage v w) (c : Check E) :
    (c.run v).1 = (c.run w).1 ∧ SameMessage (c.run v).2 w := by
  cases c with
  | bodyHash sig =>
    obtain ⟨e1, e2⟩ := checkBodyHash_same (E := E) h sig
    exact ⟨by simp only [Check.run]; rw [e1], e2⟩
  | getSignature now hd st =>
    simp only [Check.run, Validatory.getSignature]
    cases hp : Signature.parse E now hd st with
    | error e st' => exact ⟨rfl, h⟩
    | ok u st' =>
      obtain ⟨e1, e2⟩ := checkBodyHash_same (E := E) h st'.sig
      exact ⟨by simp only [e1], e2⟩
  | signature hd sig pub =>
    unfold Check.run
    exact ⟨by rw [h.2.1], h⟩

/-- C40: in every history of calls each result is what the same call gives on the freshly
constructed object. -/
theorem C40_order_irrelevant (d : Bytes) (type : ValidatorType) (v : Validatory)
    (hv : Validatory.mk' (freshStream d) type = .ok v) (cs : List (Check E)) :
    Check.history v cs = cs.map (fun c => (c.run v).1) := by
  have hb := (mk'_built d type v hv).1
  have main : ∀ (cs : List (Check E)) (w : Validatory), SameMessage w v →
      Check.history w cs = cs.map (fun c => (c.run v).1) := by
    intro cs
    induction cs with
    | nil => intros; rfl
    | cons c cs ih =>
      intro w hw
      obtain ⟨e1, e2⟩ := run_same hw c
      unfold Check.history
      rw [e1, ih _ e2]
      rfl
  exact main cs v ⟨rfl, rfl, rfl, hb.off⟩

/-! ## C41: discovery -/

/-- The name of the signature fields looked for. -/
def Spec.wantedName : ValidatorType → Option Bytes
  | .dkim => some b!"DKIM-Signature"
  | .arc => some b!"ARC-Message-Signature"
  | .none => none

/-- C41: the constructor never fails, and lists exactly the fields with the wanted name (compared
without case), in message order. -/
theorem C41_discovery (d : Bytes) (type : ValidatorType) :
    ∃ v ls off, Validatory.mk' (freshStream d) type = .ok v ∧ HeadText 0 d ls off ∧
      v.sigs = ((groupLines ls).map mkField).filter
        (fun f => match wantedName type with | some n => decide (Spec.lower f.name = Spec.lower n) | none => false) := by
  obtain ⟨m, s', ls, h1, h2, h3, h4⟩ := C20_parse d
  refine ⟨{ file := s', msg := m, sigs := m.headers.filter (isSigHeader type) }, ls, m.bodyOffset, ?_, h2, ?_⟩
  · unfold Validatory.mk'
    rw [h1]
  · simp only [h3]
    congr 1
    funext f
    cases type <;> rfl

example : (match Validatory.mk' (freshStream b!"DKIM-SIGNATURE: a\r\nX: y\r\nDKIM-Signature : b\r\n c\r\n\r\n") .dkim with
    | .ok v => v.sigs.map Header.header | .error _ => []) = [b!"DKIM-SIGNATURE: a", b!"DKIM-Signature : b\r\n c"] := by
  decide +kernel

/-! ## C43: memory safety of verification -/

/-- C43 is false of the code: an Ed25519 signature with too little data makes the verifier read
beyond the end of the string. -/
theorem C43_short_signature_witness :
    Samples.verify Samples.edRec
      b!"DKIM-Signature: v=1; a=ed25519-sha256; d=d.e; s=s; h=from;\r\n bh=Ag0K; b=AAAA\r\nFrom: a\r\n\r\n" =
      some (.error .ub) := by decide +kernel

/-- C43 (all other cases): whatever the message, the key record and the resolver, verification with
fresh objects ends normally or with a library exception; the exceptions are the Ed25519 case above
and headers of 2 GiB and more (`std::out_of_range`). -/
theorem C43_memory_safe_partial (now : Int) (resolver : Bytes → Bool × Bytes) (d : Bytes) (type : ValidatorType)
    (v : Validatory) (hv : Validatory.mk' (freshStream d) type = .ok v) (h : Header) (er : Bool) (e : Err)
    (he : (v.verifyOne E now resolver h er).1 = .error e) :
    (∃ r a, e = .perm r a) ∨ (∃ r a, e = .temp r a) ∨ (e = .outOfRange ∧ 2 ^ 31 ≤ h.header.length) ∨
    (e = .ub ∧ (v.verifyOne E now resolver h er).2.1.sig.alg = .ed25519 ∧
      (v.verifyOne E now resolver h er).2.1.sig.b.length < 63) := by
  have hb := (mk'_built d type v hv).1
  unfold Validatory.verifyOne Validatory.getSignature at *
  cases hp : Signature.parse E now h { erange := er } with
  | error e1 st =>
    simp only [hp] at he ⊢
    cases he
    obtain ⟨r, rfl⟩ := C25_fails_permanently E now h _ _ _ hp
    exact Or.inl ⟨r, _, rfl⟩
  | ok u st =>
    simp only [hp] at he ⊢
    obtain ⟨s', _, hcb⟩ := checkBodyHash_eq (E := E) v hb.off st.sig
    rw [hcb] at he ⊢
    by_cases hbh : st.sig.bh = E.hash st.sig.digest (hashedBody st.sig v)
    · rw [if_pos hbh] at he ⊢
      simp only at he ⊢
      cases hk : getPublicKey resolver st.sig ({} : PublicKey E) with
      | error e1 pub =>
        rw [hk] at he
        simp only at he
        cases he
        have hc := C42_lookup resolver st.sig ({} : PublicKey E)
        simp only at hc
        cases hq : (resolver (st.sig.selector ++ b!"._domainkey." ++ st.sig.domain)).1 with
        | false =>
          obtain ⟨r, k, hh⟩ := hc.2.1 hq
          rw [hk] at hh; cases hh
          exact Or.inr (Or.inl ⟨r, _, rfl⟩)
        | true =>
          obtain ⟨r, rfl⟩ := hc.2.2.2.2 _ _ hq hk
          exact Or.inl ⟨r, _, rfl⟩
      | ok u2 pub =>
        rw [hk] at he
        simp only at he ⊢
        -- the key was parsed from the record
        have hkp : ∃ txt, PublicKey.parse txt ({} : PublicKey E) = .ok () pub := by
          unfold getPublicKey at hk
          generalize resolver (keyQuery st.sig) = q at hk
          obtain ⟨ok, txt⟩ := q
          cases ok with
          | false => simp [es_throw] at hk
          | true =>
            simp only [if_true] at hk
            cases htx : txt.isEmpty with
            | true => rw [htx] at hk; simp [es_throw] at hk
            | false => rw [htx] at hk; exact ⟨txt, hk⟩
        obtain ⟨txt, hkp⟩ := hkp
        obtain ⟨es, _, _, LK⟩ := C31_accepted txt pub hkp
        obtain ⟨ses, t1, t2, t3, L, _⟩ := (parse_ok_iff E now h er st).1 hp
        unfold checkSignature at he
        cases hs : sanityCheck st.sig pub with
        | error e1 =>
          rw [hs] at he; cases he
          unfold sanityCheck at hs
          split at hs
          · cases hs; exact Or.inl ⟨_, _, rfl⟩
          · split at hs
            · cases hs; exact Or.inl ⟨_, _, rfl⟩
            · split at hs
              · cases hs; exact Or.inl ⟨_, _, rfl⟩
              · cases hs
        | ok u3 =>
          rw [hs] at he
          simp only at he
          have halg := (sanityCheck_ok.1 hs).2.1
          cases hi : headerHashInput v.msg h st.sig with
          | error e1 =>
            rw [hi] at he; cases he
            unfold headerHashInput at hi
            have p1 := headLoop_perm st.sig.canonHeader (HeaderCache.fill v.msg.headers) st.sig.headers
            cases h1 : headLoop st.sig.canonHeader (HeaderCache.fill v.msg.headers) st.sig.headers with
            | error e =>
              rw [h1] at hi; cases hi
              obtain ⟨r', rfl⟩ := p1 _ h1
              exact Or.inl ⟨_, _, rfl⟩
            | ok x =>
              rw [h1] at hi
              simp only at hi
              cases h2 : stripB h st.sig with
              | error e =>
                rw [h2] at hi; cases hi
                by_cases hlen : h.header.length < 2 ^ 31
                · obtain ⟨_, _, _, _, _, _, _, h4⟩ := stripB_parsed now h er st hp hlen
                  rw [h4] at h2; cases h2
                · refine Or.inr (Or.inr (Or.inl ⟨?_, by omega⟩))
                  unfold stripB at h2
                  obtain ⟨bval, hbv, _⟩ := L.signature
                  obtain ⟨t, ht, _⟩ := tagVal_some.1 hbv
                  rw [t3, ht] at h2
                  simp only at h2
                  split at h2
                  · cases h2; rfl
                  · split at h2
                    · cases h2; rfl
                    · cases h2
              | ok t =>
                rw [h2] at hi
                simp only at hi
                have p3 := filterHeader_perm st.sig.canonHeader t
                cases h3 : filterHeader st.sig.canonHeader t with
                | error e =>
                  rw [h3] at hi; cases hi
                  obtain ⟨r', rfl⟩ := p3 _ h3
                  exact Or.inl ⟨_, _, rfl⟩
                | ok c => rw [h3] at hi; cases hi
          | ok input =>
            rw [hi] at he
            simp only at he
            obtain ⟨p, _, _, hkd⟩ := LK.key
            unfold verifyDigest at he
            cases ha : st.sig.alg with
            | rsa =>
              rw [ha] at he
              simp only at he
              rw [← halg, ha] at hkd
              generalize hr : pub.rsa = rk at hkd he
              generalize pub.ed = pe at hkd
              cases hkd with
              | rsa _ key _ =>
                simp only at he
                split at he
                · cases he
                · cases he; exact Or.inl ⟨_, _, rfl⟩
            | ed25519 =>
              rw [ha] at he
              simp only at he
              cases h1 : readBuf st.sig.b 64 with
              | error e1 =>
                rw [h1] at he; cases he
                refine Or.inr (Or.inr (Or.inr ?_))
                unfold readBuf at h1
                split at h1
                · cases h1
                · cases h1; exact ⟨rfl, rfl, by omega⟩
              | ok s =>
                rw [h1] at he
                simp only at he
                have hlen : pub.ed.length = 32 := by
                  rw [← halg, ha] at hkd
                  generalize pub.ed = pe at hkd
                  generalize pub.rsa = pr at hkd
                  cases hkd with
                  | ed _ hl => exact hl
                rw [readBuf_ok.2 ⟨by omega, rfl⟩] at he
                simp only at he
                split at he
                · cases he
                · cases he; exact Or.inl ⟨_, _, rfl⟩
    · rw [if_neg hbh] at he
      simp only at he
      cases he
      exact Or.inl ⟨_, _, rfl⟩

/-- C39 applies: two messages whose bodies differ in trailing empty lines pass the same body hash check. -/
example : ∃ v v', Validatory.mk' (freshStream b!"A: b\r\n\r\nHi\r\n") .dkim = .ok v ∧
    Validatory.mk' (freshStream b!"C: d\r\n\r\nHi\r\n\r\n\r\n") .arc = .ok v' ∧
    (v.checkBodyHash toyEnv { bh := 2 :: b!"Hi\r\n" }).1 = .ok () ∧ (v'.checkBodyHash toyEnv { bh := 2 :: b!"Hi\r\n" }).1 = .ok () ∧
    (BodyEquiv .simple (bodyPart b!"A: b\r\n\r\nHi\r\n" v.msg.bodyOffset) (bodyPart b!"C: d\r\n\r\nHi\r\n\r\n\r\n" v'.msg.bodyOffset) ∨
      ∃ x y, Collision toyEnv .sha256 x y) := by
  obtain ⟨v, h1, h2⟩ := ok_of (Validatory.mk' (freshStream b!"A: b\r\n\r\nHi\r\n") .dkim)
    (fun v => decide ((v.checkBodyHash toyEnv { bh := 2 :: b!"Hi\r\n" }).1 = .ok ())) (by decide +kernel)
  obtain ⟨v', h1', h2'⟩ := ok_of (Validatory.mk' (freshStream b!"C: d\r\n\r\nHi\r\n\r\n\r\n") .arc)
    (fun v => decide ((v.checkBodyHash toyEnv { bh := 2 :: b!"Hi\r\n" }).1 = .ok ())) (by decide +kernel)
  have h2 := of_decide_eq_true h2
  have h2' := of_decide_eq_true h2'
  exact ⟨v, v', h1, h1', h2, h2', C39_tampering _ _ _ _ v v' h1 h1' { bh := 2 :: b!"Hi\r\n" } rfl h2 h2'⟩

/-- C40 applies: a history of three calls. -/
example : ∃ v, Validatory.mk' (freshStream (Samples.signed Samples.rsaOpts Samples.message)) .dkim = .ok v ∧ ∀ a b c : Check toyEnv,
    Check.history v [a, b, c] = [(a.run v).1, (b.run v).1, (c.run v).1] := by
  obtain ⟨v, _, _, h, _⟩ := C41_discovery (Samples.signed Samples.rsaOpts Samples.message) .dkim
  exact ⟨v, h, fun a b c => C40_order_irrelevant _ _ v h [a, b, c]⟩

end Dkim

import Verif.Proofs.DigestFaults
import Verif.Props.VerifyBody
import Verif.Tests.Samples
/-!
# C101: digest functions that fail

The property is false: no return value of a digest function is looked at. `C101_unavailable_witness`: where a digest is not
available, every message with a well-formed signature that names it runs into undefined behaviour.
`C101_lost_update_witness`: a message whose body was replaced is accepted when the update with the new text fails. Proved is
what exactly happens for every pattern of failures (`C101_body_exact`, `C101_signature_exact`), and that as long as no update
fails a call never returns a wrong result (`C101_check_partial`, `C101_sign_partial`).
-/

namespace Dkim
open Spec

variable {E : Env}

/-- C101, exactly, for the body hash: the body is hashed in pieces, and what is compared is the digest of those pieces whose
update succeeded, if creation, initialization and the final call succeeded. Otherwise the behaviour is undefined. -/
theorem C101_body_exact (d : Bytes) (type : ValidatorType) (v : Validatory) (hv : Validatory.mk' (freshStream d) type = .ok v)
    (sig : Signature) :
    ∃ pieces : List Bytes,
      pieces.flatten = cap sig.bodySizeLimit sig.bodySize (Spec.canonBody sig.canonBody (bodyPart d v.msg.bodyOffset)) ∧
      ∀ (L : DigestLib) (k : Nat), (Dig.checkBodyHash E L v sig k).1 =
        match lossyDigest E L k sig.digest pieces with
        | none => .error .ub
        | some md => if sig.bh = md then .ok () else .error (.perm .bodyHashMismatch .fail) := by
  obtain ⟨hb, _⟩ := mk'_built d type v hv
  obtain ⟨calls, s', h1, h2, h3⟩ := canonBodyBlk_spec 8096 (by decide) v.file sig.canonBody v.msg.bodyOffset
    sig.bodySizeLimit sig.bodySize hb.off
  rw [hb.data] at h3
  refine ⟨calls, h3, fun L k => ?_⟩
  have h1' : Dkim.canonBody v.file sig.canonBody v.msg.bodyOffset sig.bodySizeLimit sig.bodySize = _ := h1
  unfold Dig.checkBodyHash
  rw [Dig.start_run]
  cases hc : L.create k with
  | false =>
    have : lossyDigest E L k sig.digest calls = none := by
      unfold lossyDigest; rw [if_neg]; simp [hc]
    rw [this]
    rfl
  | true =>
    obtain ⟨n, hr⟩ := Dig.digest_run E L sig.digest calls k hc
    simp only [if_true]
    rw [h1']
    simp only
    rw [hr]
    cases lossyDigest E L k sig.digest calls with
    | none => rfl
    | some md =>
      simp only
      split <;> rfl

/-- C101, exactly, for the signature: the header fields and the signature field are hashed in pieces, and what is verified is
the digest of those pieces whose update succeeded. An exception that the check throws for other reasons is thrown, unless
undefined behaviour comes first. -/
theorem C101_signature_exact (msg : Message) (h : Header) (sig : Signature) (pub : PublicKey E) :
    (∀ e, headerHashInput msg h sig = .error e → ∀ (L : DigestLib) (k : Nat),
      ending (Dig.checkSignature E L msg h sig pub k) =
        match sanityCheck sig pub with
        | .error e' => .error e'
        | .ok () => if L.create k then .error e else .error .ub) ∧
    (∀ input, headerHashInput msg h sig = .ok input → ∃ pieces : List Bytes, pieces.flatten = input ∧
      ∀ (L : DigestLib) (k : Nat), ending (Dig.checkSignature E L msg h sig pub k) =
        match sanityCheck sig pub with
        | .error e' => .error e'
        | .ok () =>
          match lossyDigest E L k sig.digest pieces with
          | none => .error .ub
          | some md => verifyDigest E sig pub md) := by
  have hflat := Dig.headPieces_flatten sig.canonHeader sig.headers (HeaderCache.fill msg.headers)
  -- the part after the sanity check
  have hrun : ∀ (L : DigestLib) (k : Nat), ending (Dig.checkSignature E L msg h sig pub k) =
      match sanityCheck sig pub with
      | .error e' => .error e'
      | .ok () => ending ((do
          let c ← Dig.start L sig.digest
          let c ← Dig.headLoop L sig.canonHeader c (HeaderCache.fill msg.headers) sig.headers
          let t ← Dig.liftX (stripB h sig)
          let t ← Dig.liftX (filterHeader sig.canonHeader t)
          let c ← Dig.update L c t
          let md ← Dig.final E L c
          Dig.liftX (verifyDigest E sig pub md) : DigM Unit) k) := by
    intro L k
    unfold Dig.checkSignature
    rw [es_bind]
    cases sanityCheck sig pub with
    | error e => rfl
    | ok u => rfl
  have hnull : ∀ L : DigestLib, ∀ k, (if L.init k then DigestCtx.ready sig.digest [] else .blank) ≠ .null := by
    intro L k; split <;> simp
  constructor
  · intro e he L k
    rw [hrun]
    cases sanityCheck sig pub with
    | error e => rfl
    | ok u =>
      dsimp only
      rw [es_bind, Dig.start_run]
      cases hc : L.create k with
      | false => rfl
      | true =>
        simp only [if_true]
        rw [esBind_ok, es_bind]
        have hl := Dig.headLoop_run L sig.canonHeader sig.headers _ (HeaderCache.fill msg.headers) (k + 2) (hnull L (k + 1))
        unfold headerHashInput at he
        rw [hflat] at he
        cases hp : Dig.headPieces sig.canonHeader (HeaderCache.fill msg.headers) sig.headers with
        | error e' =>
          rw [hp] at he hl
          obtain ⟨n, hn⟩ := hl
          rw [hn, esBind_error]
          simpa [ending] using he
        | ok ps =>
          rw [hp] at he hl
          dsimp only at hl he
          rw [hl]
          obtain ⟨c', n, hf⟩ : ∃ c' n, Dig.feed L (if L.init (k + 1) then .ready sig.digest [] else .blank) ps (k + 2) = .ok c' n := by
            split
            · exact ⟨_, _, Dig.feed_ready ..⟩
            · exact ⟨_, _, Dig.feed_blank ..⟩
          rw [hf, esBind_ok, es_bind]
          cases hs : stripB h sig with
          | error e' => rw [hs] at he; simpa [ending, Dig.liftX, esBind] using he
          | ok t =>
            rw [hs] at he
            dsimp only at he
            have : Dig.liftX (Except.ok t : Except Err Bytes) n = .ok t n := rfl
            rw [this, esBind_ok, es_bind]
            cases hfl : filterHeader sig.canonHeader t with
            | error e' => rw [hfl] at he; simpa [ending, Dig.liftX, esBind] using he
            | ok x => rw [hfl] at he; cases he
  · intro input he
    unfold headerHashInput at he
    rw [hflat] at he
    cases hp : Dig.headPieces sig.canonHeader (HeaderCache.fill msg.headers) sig.headers with
    | error e' => rw [hp] at he; cases he
    | ok ps =>
      rw [hp] at he
      dsimp only at he
      cases hs : stripB h sig with
      | error e' => rw [hs] at he; cases he
      | ok t =>
        rw [hs] at he
        dsimp only at he
        cases hfl : filterHeader sig.canonHeader t with
        | error e' => rw [hfl] at he; cases he
        | ok x =>
          rw [hfl] at he
          cases he
          refine ⟨ps ++ [x], by simp, fun L k => ?_⟩
          rw [hrun]
          cases sanityCheck sig pub with
          | error e => rfl
          | ok u =>
            dsimp only
            rw [es_bind, Dig.start_run]
            cases hc : L.create k with
            | false =>
              have : lossyDigest E L k sig.digest (ps ++ [x]) = none := by
                unfold lossyDigest; rw [if_neg]; simp [hc]
              rw [this]
              rfl
            | true =>
              simp only [if_true]
              rw [esBind_ok, es_bind]
              have hl := Dig.headLoop_run L sig.canonHeader sig.headers _ (HeaderCache.fill msg.headers) (k + 2) (hnull L (k + 1))
              rw [hp] at hl
              dsimp only at hl
              rw [hl]
              have hx : ∀ n, Dig.liftX (Except.ok t : Except Err Bytes) n = .ok t n := fun _ => rfl
              have hy : ∀ n, Dig.liftX (Except.ok x : Except Err Bytes) n = .ok x n := fun _ => rfl
              unfold lossyDigest
              cases hi : L.init (k + 1) with
              | false =>
                simp only [Bool.false_eq_true, if_false, false_and, and_false]
                rw [Dig.feed_blank, esBind_ok, es_bind, hs, hx, esBind_ok, es_bind, hfl, hy, esBind_ok, es_bind,
                  Dig.update_blank, esBind_ok, es_bind, Dig.final_blank]
                rfl
              | true =>
                simp only [if_true]
                rw [Dig.feed_ready, esBind_ok, es_bind, hs, hx, esBind_ok, es_bind, hfl, hy, esBind_ok, es_bind,
                  Dig.update_ready, esBind_ok, es_bind, Dig.final_ready]
                rw [show k + 2 + (ps ++ [x]).length = k + 2 + ps.length + 1 by simp [Nat.add_assoc]]
                cases hf : L.final (k + 2 + ps.length + 1) with
                | false =>
                  simp only [Bool.false_eq_true, if_false, and_false]
                  rfl
                | true =>
                  simp only [if_true, and_self, hc]
                  rw [esBind_ok, Dig.kept_append]
                  have hz : ((Spec.kept L.update (k + 2) ps ++ Spec.kept L.update (k + 2 + ps.length) [x]).flatten) =
                      (if L.update (k + 2 + ps.length) = true then [] ++ (Spec.kept L.update (k + 2) ps).flatten ++ x
                        else [] ++ (Spec.kept L.update (k + 2) ps).flatten) := by
                    simp only [Spec.kept]
                    split <;> simp
                  rw [hz]
                  unfold Dig.liftX
                  cases verifyDigest E sig pub _ <;> rfl

theorem lossyDigest_exact {L : DigestLib} (hu : NoUpdateFails L) (k : Nat) (da : DigestAlg) (pieces : List Bytes) :
    lossyDigest E L k da pieces = some (E.hash da pieces.flatten) ∨
    (lossyDigest E L k da pieces = none ∧ ¬ Faultless L) := by
  unfold lossyDigest
  rw [Dig.kept_all hu]
  split
  · exact Or.inl rfl
  · rename_i h
    exact Or.inr ⟨rfl, fun hf => h ⟨(hf _).1, (hf _).2.1, (hf _).2.2.2.2⟩⟩

/-- C101 (part): as long as no update fails, `GetSignature` and `CheckSignature` end as they should or with undefined behaviour,
and the latter only if some call fails. -/
theorem C101_check_partial (L : DigestLib) (hu : NoUpdateFails L) (k : Nat) :
    (∀ (d : Bytes) (type : ValidatorType) (v : Validatory), Validatory.mk' (freshStream d) type = .ok v →
      ∀ (now : Int) (h : Header) (st : SigSt),
        (Dig.getSignature E L now v h st k).1 = (v.getSignature E now h st).1 ∨
        ((Dig.getSignature E L now v h st k).1 = .error .ub ∧ ¬ Faultless L)) ∧
    (∀ (msg : Message) (h : Header) (sig : Signature) (pub : PublicKey E),
      ending (Dig.checkSignature E L msg h sig pub k) = checkSignature E msg h sig pub ∨
      (ending (Dig.checkSignature E L msg h sig pub k) = .error .ub ∧ ¬ Faultless L)) := by
  constructor
  · intro d type v hv now h st
    unfold Dig.getSignature Validatory.getSignature
    cases Signature.parse E now h st with
    | error e st' => exact Or.inl rfl
    | ok u st' =>
      obtain ⟨pieces, h1, h2⟩ := C101_body_exact (E := E) d type v hv st'.sig
      have h3 := h2 L k
      obtain ⟨hb, _⟩ := mk'_built d type v hv
      obtain ⟨s', _, h4⟩ := checkBodyHash_eq (E := E) v hb.off st'.sig
      have h5 := congrArg Prod.fst h4
      dsimp only at h5
      unfold hashedBody at h5
      rw [hb.data, ← h1] at h5
      show (Dig.checkBodyHash E L v st'.sig k).1 = (v.checkBodyHash E st'.sig).1 ∨
        ((Dig.checkBodyHash E L v st'.sig k).1 = .error .ub ∧ _)
      rw [h3, h5]
      rcases lossyDigest_exact (E := E) hu k st'.sig.digest pieces with h6 | ⟨h6, h7⟩
      · rw [h6]; exact Or.inl rfl
      · rw [h6]; exact Or.inr ⟨rfl, h7⟩
  · intro msg h sig pub
    obtain ⟨h1, h2⟩ := C101_signature_exact msg h sig pub
    unfold checkSignature
    cases hin : headerHashInput msg h sig with
    | error e =>
      rw [h1 e hin L k]
      cases sanityCheck sig pub with
      | error e => exact Or.inl rfl
      | ok u =>
        dsimp only
        cases hc : L.create k with
        | true => exact Or.inl rfl
        | false => exact Or.inr ⟨rfl, fun hf => by rw [(hf k).1] at hc; cases hc⟩
    | ok input =>
      obtain ⟨pieces, h3, h4⟩ := h2 input hin
      rw [h4 L k]
      cases sanityCheck sig pub with
      | error e => exact Or.inl rfl
      | ok u =>
        dsimp only
        rcases lossyDigest_exact (E := E) hu k sig.digest pieces with h6 | ⟨h6, h7⟩
        · rw [h6, h3]; exact Or.inl rfl
        · rw [h6]; exact Or.inr ⟨rfl, h7⟩

/-- C101 (part): as long as no update fails, `CreateSignature` ends as it should or with undefined behaviour, and the latter only
if some call fails. -/
theorem C101_sign_partial (L : DigestLib) (hu : NoUpdateFails L) (k : Nat) (o : Options E) (clock : Nat → Int) (sg : Signatory) :
    Dig.createSignature E L o clock sg k = Signatory.createSignature E o clock sg ∨
    ((Dig.createSignature E L o clock sg k).1 = .error .ub ∧ ¬ Faultless L) := by
  unfold Dig.createSignature Signatory.createSignature
  cases sg.msg.parseAll sg.file with
  | error e => exact Or.inl rfl
  | ok q =>
    obtain ⟨msg, s1⟩ := q
    dsimp only
    rcases Dig.start_leads L o.digest k with ⟨c, n, hs, hc⟩ | ⟨⟨n, hs⟩, hf⟩
    · rw [hs]
      dsimp only
      cases canonBody s1 o.canonBody msg.bodyOffset o.bodySignLength o.bodyLength with
      | error e => exact Or.inl rfl
      | ok q =>
        obtain ⟨⟨calls, ok⟩, s2⟩ := q
        dsimp only
        have key : Dig.Near L (do
            let body ← Dig.feed L c calls
            Dig.liftX (if !ok then .error (.p .bodyLimitExceeded) else .ok ())
            let bh ← Dig.final E L body
            let head ← Dig.start L o.digest
            let (head, names) ← Dig.signLoop L o.canonHead o.headers head msg.headers.reverse
            Dig.allSignatures E L o clock head (names ++ o.oversign.map lower) bh 0 [] o.signatures.reverse : DigM Bytes)
            (if !ok then .error (.p .bodyLimitExceeded) else
              match signLoop o.canonHead o.headers msg.headers.reverse with
              | .error e => .error e
              | .ok (hashed, names) =>
                allSignatures E o clock hashed (names ++ o.oversign.map lower) (E.hash o.digest calls.flatten) 0 []
                  o.signatures.reverse) := by
          refine Dig.Near.of_leads (Dig.feed_leads hu hc calls) fun body hbody => ?_
          refine Dig.Near.bind (Dig.Near.liftX _ _) ?_
          cases ok with
          | false => rfl
          | true =>
            show Dig.Near L _ _
            refine Dig.Near.bind (Dig.final_near E hbody) ?_
            show Dig.Near L _ _
            refine Dig.Near.of_leads (Dig.start_leads L o.digest) fun head hhead => ?_
            intro j
            have hl := Dig.signLoop_near hu o.canonHead o.headers o.digest msg.headers.reverse head [] hhead j
            rw [es_bind]
            simp only [Bool.not_true, Bool.false_eq_true, if_false]
            cases hq : signLoop o.canonHead o.headers msg.headers.reverse with
            | error e =>
              rw [hq] at hl
              obtain ⟨n', e'⟩ := hl
              rw [e', esBind_error]
              exact Or.inl rfl
            | ok q =>
              obtain ⟨hashed, names⟩ := q
              rw [hq] at hl
              obtain ⟨c', n', e', hc'⟩ := hl
              rw [e', esBind_ok]
              exact Dig.allSignatures_near hu o clock hc' _ _ _ 0 [] n'
        have := key n
        cases ok with
        | false =>
          simp only [Bool.not_false, if_true] at this ⊢
          rcases this with this | ⟨this, hf⟩
          · left
            split
            · rename_i e _ he
              rw [he] at this
              simp only [ending, Except.error.injEq] at this
              rw [this]
            · rename_i a _ he
              rw [he] at this
              cases this
          · right
            refine ⟨?_, hf⟩
            split
            · rename_i e _ he
              rw [he] at this
              simp only [ending, Except.error.injEq] at this
              rw [this]
            · rename_i a _ he
              rw [he] at this
              cases this
        | true =>
          simp only [Bool.not_true, Bool.false_eq_true, if_false] at this ⊢
          rcases this with this | ⟨this, hf⟩
          · left
            split
            · rename_i e _ he
              rw [he] at this
              simp only [ending] at this
              cases hq : signLoop o.canonHead o.headers msg.headers.reverse with
              | error e => rw [hq] at this; simp only at this ⊢; rw [← this]
              | ok q => rw [hq] at this; simp only at this ⊢; rw [← this]
            · rename_i a _ he
              rw [he] at this
              simp only [ending] at this
              cases hq : signLoop o.canonHead o.headers msg.headers.reverse with
              | error e => rw [hq] at this; cases this
              | ok q => rw [hq] at this; simp only at this ⊢; rw [← this]
          · right
            refine ⟨?_, hf⟩
            split
            · rename_i e _ he
              rw [he] at this
              simp only [ending, Except.error.injEq] at this
              rw [this]
            · rename_i a _ he
              rw [he] at this
              cases this
    · rw [hs]
      exact Or.inr ⟨rfl, hf⟩

/-- C101: whatever fails, a body hash that is accepted is the digest of some of the pieces of the body, and a signature that is
accepted verifies for the digest of some of the pieces of the header. -/
theorem C101_accept (L : DigestLib) (k : Nat) :
    (∀ (d : Bytes) (type : ValidatorType) (v : Validatory), Validatory.mk' (freshStream d) type = .ok v →
      ∀ sig : Signature, (Dig.checkBodyHash E L v sig k).1 = .ok () → ∃ pieces some_ : List Bytes,
        pieces.flatten = cap sig.bodySizeLimit sig.bodySize (Spec.canonBody sig.canonBody (bodyPart d v.msg.bodyOffset)) ∧
        some_.Sublist pieces ∧ sig.bh = E.hash sig.digest some_.flatten) ∧
    (∀ (msg : Message) (h : Header) (sig : Signature) (pub : PublicKey E),
      ending (Dig.checkSignature E L msg h sig pub k) = .ok () → ∃ pieces some_ : List Bytes,
        headerHashInput msg h sig = .ok pieces.flatten ∧ some_.Sublist pieces ∧
        verifyDigest E sig pub (E.hash sig.digest some_.flatten) = .ok ()) := by
  constructor
  · intro d type v hv sig h
    obtain ⟨pieces, h1, h2⟩ := C101_body_exact (E := E) d type v hv sig
    rw [h2] at h
    refine ⟨pieces, Spec.kept L.update (k + 2) pieces, h1, Dig.kept_sublist _ _ _, ?_⟩
    unfold lossyDigest at h
    split at h
    · cases h
    · rename_i md hmd
      split at hmd
      · cases hmd
        split at h
        · assumption
        · cases h
      · cases hmd
  · intro msg h sig pub ha
    obtain ⟨h1, h2⟩ := C101_signature_exact msg h sig pub
    cases hin : headerHashInput msg h sig with
    | error e =>
      rw [h1 e hin L k] at ha
      split at ha
      · cases ha
      · split at ha <;> cases ha
    | ok input =>
      obtain ⟨pieces, h3, h4⟩ := h2 input hin
      rw [h4 L k] at ha
      refine ⟨pieces, Spec.kept L.update (k + 2) pieces, by rw [h3], Dig.kept_sublist _ _ _, ?_⟩
      split at ha
      · cases ha
      · split at ha
        · cases ha
        · rename_i md hmd
          unfold lossyDigest at hmd
          split at hmd
          · cases hmd; exact ha
          · cases hmd

/-- C101 is false: where the digest is not available (initialization always fails), `GetSignature` has undefined behaviour for
every message and every signature that can be parsed, instead of throwing. -/
theorem C101_unavailable_witness (L : DigestLib) (hi : ∀ k, L.init k = false) (k : Nat) (d : Bytes) (type : ValidatorType)
    (v : Validatory) (hv : Validatory.mk' (freshStream d) type = .ok v) (now : Int) (h : Header) (st st' : SigSt)
    (hp : Signature.parse E now h st = .ok () st') :
    (Dig.getSignature E L now v h st k).1 = .error .ub := by
  unfold Dig.getSignature
  rw [hp]
  obtain ⟨pieces, _, h2⟩ := C101_body_exact (E := E) d type v hv st'.sig
  show (Dig.checkBodyHash E L v st'.sig k).1 = _
  rw [h2]
  unfold lossyDigest
  rw [hi, if_neg (by simp)]

namespace Samples

/-- The sample message without a body, signed; then a body is put below it. -/
def emptySigned : Bytes := signed rsaOpts b!"From: a@b.c\r\n\r\n"
def replaced : Bytes := emptySigned ++ b!"Pay me\r\n"

/-- Verification of the first signature with digest functions that may fail. -/
def verifyFaulty (L : DigestLib) (rec msg : Bytes) : Option (Except Err Unit) :=
  match Validatory.mk' { data := msg } .dkim with
  | .error _ => none
  | .ok v =>
    match v.sigs with
    | [] => none
    | h :: _ =>
      match Dig.getSignature toyEnv L 0 v h {} 0 with
      | (.error e, _, _) => some (.error e)
      | (.ok (), st, v') =>
        match getPublicKey (E := toyEnv) (fun _ => (true, rec)) st.sig {} with
        | .error e _ => some (.error e)
        | .ok () pub => some (ending (Dig.checkSignature toyEnv L v'.msg h st.sig pub 5))

end Samples

/-- C101 is false: a message whose body was replaced is rejected, but accepted if the update with the new text fails. -/
theorem C101_lost_update_witness :
    Samples.verify Samples.rsaRec Samples.emptySigned = some (.ok ()) ∧
    Samples.verify Samples.rsaRec Samples.replaced = some (.error (.perm .bodyHashMismatch .fail)) ∧
    Samples.verifyFaulty {} Samples.rsaRec Samples.replaced = some (.error (.perm .bodyHashMismatch .fail)) ∧
    Samples.verifyFaulty { update := fun k => k ≠ 2 } Samples.rsaRec Samples.replaced = some (.ok ()) := by
  refine ⟨by decide +kernel, by decide +kernel, by decide +kernel, by decide +kernel⟩

/-! Not vacuous: libraries with and without faults; a run where the last call fails. -/
example : NoUpdateFails {} ∧ Faultless {} := ⟨fun _ => rfl, fun _ => ⟨rfl, rfl, rfl, rfl, rfl⟩⟩
example : NoUpdateFails { final := fun _ => false } ∧ ¬ Faultless { final := fun _ => false } :=
  ⟨fun _ => rfl, fun h => by have := (h 0).2.2.2.2; simp at this⟩
example : Samples.verifyFaulty { final := fun _ => false } Samples.rsaRec Samples.emptySigned = some (.error .ub) := by
  decide +kernel
example : (Dig.createSignature toyEnv { copy := fun _ => false } Samples.rsaOpts (fun _ => 0)
    { file := { data := Samples.message } } 0).1 = .error .ub := by decide +kernel
example : (Dig.createSignature toyEnv {} Samples.rsaOpts (fun _ => 0) { file := { data := Samples.message } } 0).1 =
    Samples.sign Samples.rsaOpts Samples.message := by decide +kernel

end Dkim

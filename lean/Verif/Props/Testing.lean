import Verif.Props.Verdict
import Verif.Props.Tool
/-!
# Property C76: the testing flag

Spec: `Verif/Spec/Verdict.lean`.
-/

namespace Dkim
open Spec

variable {E : Env}

/-- The run leaves the flags as they are, however it ends. -/
def Spec.KeepsFlags {α : Type} (m : KeyM E α) : Prop := ∀ k, (esState (m k)).flags = k.flags

theorem keeps_bind {α β : Type} {m : KeyM E α} {f : α → KeyM E β} (hm : KeepsFlags m) (hf : ∀ a, KeepsFlags (f a)) :
    KeepsFlags (m >>= f) := by
  intro k
  rw [es_bind]
  have := hm k
  cases h : m k with
  | ok a k' => rw [h] at this; exact (hf a k').trans this
  | error e k' => rw [h] at this; exact this

theorem keeps_pure {α : Type} (a : α) : KeepsFlags (pure a : KeyM E α) := fun _ => rfl
theorem keeps_throw {α : Type} (e : Err) : KeepsFlags (throw e : KeyM E α) := fun _ => rfl
theorem keeps_get : KeepsFlags (get : KeyM E (PublicKey E)) := fun _ => rfl
theorem keeps_modify (f : PublicKey E → PublicKey E) (h : ∀ k, (f k).flags = k.flags) : KeepsFlags (modify f : KeyM E PUnit) := h
theorem keeps_liftE {α : Type} (x : Except Err α) : KeepsFlags (liftE x : KeyM E α) := by
  intro k; cases x <;> rfl
theorem keeps_tag (n : Bytes) : KeepsFlags (keyTag n : KeyM E (Option TagEntry)) := fun _ => rfl
theorem keeps_tagList (txt : Bytes) : KeepsFlags (keyTagList txt : KeyM E Unit) := by
  intro k; unfold keyTagList; split <;> rfl

theorem keeps_V : KeepsFlags (keyV : KeyM E Unit) := by
  unfold keyV
  refine keeps_bind (keeps_tag _) (fun a => ?_)
  split
  · exact keeps_pure _
  · split
    · exact keeps_throw _
    · exact keeps_pure _

theorem keeps_H : KeepsFlags (keyH : KeyM E Unit) := by
  unfold keyH
  refine keeps_bind (keeps_tag _) (fun a => ?_)
  split
  · exact keeps_pure _
  · split
    · exact keeps_bind (keeps_throw _) (fun _ => keeps_bind (keeps_liftE _) (fun _ => keeps_modify _ (fun _ => rfl)))
    · exact keeps_bind (keeps_liftE _) (fun _ => keeps_modify _ (fun _ => rfl))

theorem keeps_K : KeepsFlags (keyK : KeyM E Unit) := by
  unfold keyK
  refine keeps_bind (keeps_tag _) (fun a => ?_)
  split
  · exact keeps_pure _
  · split
    · exact keeps_modify _ (fun _ => rfl)
    · split
      · exact keeps_modify _ (fun _ => rfl)
      · exact keeps_throw _

theorem keeps_P : KeepsFlags (keyP : KeyM E Unit) := by
  unfold keyP
  refine keeps_bind (keeps_tag _) (fun a => ?_)
  split
  · exact keeps_throw _
  · rename_i p
    have rest : KeepsFlags (do
        let dat := E.b64dec (stripSpace p.value)
        match (← get).alg with
        | .rsa =>
          match E.d2iPubkey dat with
          | none => throw (.p .keyBadDER)
          | some none => throw (.p .keyNotRSA)
          | some (some key) => modify ({ · with rsa := some key })
        | .ed25519 =>
          if dat.length ≠ 32 then throw (.p .keyBadEd)
          modify ({ · with ed := dat }) : KeyM E Unit) := by
      refine keeps_bind keeps_get (fun k => ?_)
      split
      · split
        · exact keeps_throw _
        · exact keeps_throw _
        · exact keeps_modify _ (fun _ => rfl)
      · split
        · exact keeps_bind (keeps_throw _) (fun _ => keeps_modify _ (fun _ => rfl))
        · exact keeps_modify _ (fun _ => rfl)
    split
    · exact keeps_bind (keeps_throw _) (fun _ => rest)
    · exact rest

theorem keeps_S : KeepsFlags (keyS : KeyM E Unit) := by
  unfold keyS
  refine keeps_bind (keeps_tag _) (fun a => ?_)
  split
  · exact keeps_pure _
  · split
    · exact keeps_bind (keeps_throw _) (fun _ => keeps_bind (keeps_liftE _) (fun _ => keeps_modify _ (fun _ => rfl)))
    · exact keeps_bind (keeps_liftE _) (fun _ => keeps_modify _ (fun _ => rfl))

theorem keyT_error (k k' : PublicKey E) (e : Err) (h : keyT k = .error e k') : k'.flags = k.flags := by
  unfold keyT at h
  rw [es_bind] at h
  cases ht : (keyTag b!"t" : KeyM E (Option TagEntry)) k with
  | error e2 k2 => cases ht
  | ok a k2 =>
    have h2 : k2 = k := by cases ht; rfl
    subst h2
    rw [ht, esBind_ok] at h
    cases a with
    | none => cases h
    | some t =>
      simp only at h
      rw [es_bind] at h
      cases hv : valueList t.value with
      | ok fl => rw [hv] at h; cases h
      | error e3 => rw [hv] at h; cases h; rfl

/-- A key record that is not accepted leaves no flags behind. -/
theorem keyParse_error_flags (txt : Bytes) (k : PublicKey E) (e : Err)
    (h : PublicKey.parse txt ({} : PublicKey E) = .error e k) : k.flags = [] := by
  have step : ∀ {m : KeyM E Unit} {f : Unit → KeyM E Unit} {k0 : PublicKey E}, KeepsFlags m → k0.flags = [] →
      (m >>= f) k0 = .error e k → k.flags = [] ∨ ∃ k1, k1.flags = [] ∧ f () k1 = .error e k := by
    intro m f k0 hm h0 hb
    rw [es_bind] at hb
    have := hm k0
    cases hmk : m k0 with
    | ok a k1 => rw [hmk] at hb this; exact .inr ⟨k1, by rw [← h0]; exact this, hb⟩
    | error e1 k1 => rw [hmk] at hb this; cases hb; exact .inl (by rw [← h0]; exact this)
  unfold PublicKey.parse at h
  rcases step (keeps_tagList txt) rfl h with h | ⟨k1, g1, h⟩; · exact h
  rcases step keeps_V g1 h with h | ⟨k2, g2, h⟩; · exact h
  rcases step keeps_H g2 h with h | ⟨k3, g3, h⟩; · exact h
  rcases step keeps_K g3 h with h | ⟨k4, g4, h⟩; · exact h
  rcases step keeps_P g4 h with h | ⟨k5, g5, h⟩; · exact h
  rcases step keeps_S g5 h with h | ⟨k6, g6, h⟩; · exact h
  rw [keyT_error k6 k e h, g6]

theorem softFail_iff (k : PublicKey E) : k.softFail = true ↔ b!"y" ∈ k.flags := by
  unfold PublicKey.softFail; simp

/-- The key object after the verification of one signature field. -/
theorem verifyOne_key {d : Bytes} {type : ValidatorType} {v : Validatory} (hv : Validatory.mk' (freshStream d) type = .ok v)
    {h : Header} {now : Int} {er : Bool} {resolver : Bytes → Bool × Bytes} {es : List (Bytes × TagEntry)} {s : Signature}
    (ha : Acceptable E now er h es s) (hb : BodyMatches E d s) :
    (v.verifyOne E now resolver h er).2.2.1 = esState (getPublicKey resolver { s with tags := es } ({} : PublicKey E)) := by
  have hp := acceptable_iff.1 ha
  have hc0 := (bodyMatches_iff hv).1 hb
  unfold Validatory.verifyOne Validatory.getSignature
  rw [hp]
  simp only
  obtain ⟨s', _, hc⟩ := checkBodyHash_eq (E := E) v (mk'_built d type v hv).1.off { s with tags := es }
  obtain ⟨s2, _, hc2⟩ := checkBodyHash_eq (E := E) v (mk'_built d type v hv).1.off s
  rw [hc2] at hc0
  have hbd : hashedBody { s with tags := es } v = hashedBody s v := rfl
  rw [hc]
  simp only [hbd] at hc0 ⊢
  by_cases hx : s.bh = E.hash s.digest (hashedBody s v)
  · rw [if_pos hx]
    simp only
    cases getPublicKey resolver { s with tags := es } ({} : PublicKey E) <;> rfl
  · rw [if_neg hx] at hc0; cases hc0

/-- C76: after a verification, `SoftFail()` is true exactly if the signature field was acceptable, the body hash matched, and the key
record was found and lists `y` in t=. -/
theorem C76_testing (d : Bytes) (type : ValidatorType) (v : Validatory) (hv : Validatory.mk' (freshStream d) type = .ok v)
    (h : Header) (now : Int) (er : Bool) (resolver : Bytes → Bool × Bytes) :
    (v.verifyOne E now resolver h er).2.2.1.softFail = true ↔
      ∃ es s k, Acceptable E now er h es s ∧ BodyMatches E d s ∧ (answer resolver s).1 = true ∧ KeyFound E resolver s k ∧
        b!"y" ∈ k.flags := by
  rw [softFail_iff]
  constructor
  · intro hy
    cases hp : Signature.parse E now h { erange := er } with
    | error e st =>
      exfalso
      unfold Validatory.verifyOne Validatory.getSignature at hy
      rw [hp] at hy
      cases hy
    | ok u st =>
      obtain ⟨es, g1, g2, g3, g4, g5, _⟩ := (parse_ok_iff E now h er st).1 hp
      have ha : Acceptable E now er h es st.sig := ⟨g1, g2, claims_iff.2 g4, g5⟩
      by_cases hb : BodyMatches E d st.sig
      · rw [verifyOne_key hv ha hb] at hy
        obtain ⟨c1, c2, c3, c4, c5⟩ := C42_lookup resolver { st.sig with tags := es } ({} : PublicKey E)
        have hq : resolver (st.sig.selector ++ b!"._domainkey." ++ st.sig.domain) = answer resolver st.sig := rfl
        simp only [hq] at c2 c3 c4
        have hfl : ∀ e k, getPublicKey resolver { st.sig with tags := es } ({} : PublicKey E) = .error e k → k.flags = [] := by
          intro e k hk
          have hkq : keyQuery { st.sig with tags := es } = st.sig.selector ++ b!"._domainkey." ++ st.sig.domain := rfl
          unfold getPublicKey at hk
          rw [hkq, hq] at hk
          generalize answer resolver st.sig = a at hk
          obtain ⟨b, txt⟩ := a
          cases b with
          | false => cases hk; rfl
          | true =>
            cases txt with
            | nil => cases hk; rfl
            | cons c t => exact keyParse_error_flags _ _ _ hk
        cases hk : getPublicKey resolver { st.sig with tags := es } ({} : PublicKey E) with
        | error e k => rw [hk, esState_error, hfl e k hk] at hy; cases hy
        | ok u k =>
          rw [hk] at hy
          cases ha1 : (answer resolver st.sig).1 with
          | false => obtain ⟨r, k', hx⟩ := c2 ha1; rw [hk] at hx; cases hx
          | true =>
            rcases getPublicKey_answer (E := E) (es := es) ha1 with ⟨k', q1, kes, q2⟩ | ⟨_, r, k', q2⟩
            · rw [hk] at q2; cases q2
              exact ⟨es, st.sig, k', ha, hb, ha1, q1, hy⟩
            · rw [hk] at q2; cases q2
      · exfalso
        have hs := verifyOne_stage (resolver := resolver) hv ha
        have hp' := acceptable_iff.1 ha
        have hc0 := fun hx => hb ((bodyMatches_iff hv).2 hx)
        unfold Validatory.verifyOne Validatory.getSignature at hy
        rw [hp'] at hy
        simp only at hy
        obtain ⟨s', _, hc⟩ := checkBodyHash_eq (E := E) v (mk'_built d type v hv).1.off { st.sig with tags := es }
        obtain ⟨s2, _, hc2⟩ := checkBodyHash_eq (E := E) v (mk'_built d type v hv).1.off st.sig
        rw [hc2] at hc0
        have hbd : hashedBody { st.sig with tags := es } v = hashedBody st.sig v := rfl
        rw [hc] at hy
        simp only [hbd] at hc0 hy
        by_cases hx : st.sig.bh = E.hash st.sig.digest (hashedBody st.sig v)
        · rw [if_pos hx] at hc0; exact hc0 rfl
        · rw [if_neg hx] at hy; cases hy
  · rintro ⟨es, s, k, ha, hb, h1, h2, hy⟩
    rw [verifyOne_key hv ha hb]
    rcases getPublicKey_answer (E := E) (es := es) h1 with ⟨k', q1, kes, q2⟩ | ⟨q1, _⟩
    · rw [q2]
      obtain ⟨kes', hk⟩ := keyFound_iff.1 h2
      obtain ⟨kes2, hk2⟩ := keyFound_iff.1 q1
      rw [hk] at hk2
      cases k; cases k'
      simp only [EStateM.Result.ok.injEq, PublicKey.mk.injEq, true_and] at hk2
      obtain ⟨_, rfl, rfl, rfl, rfl, rfl, rfl⟩ := hk2
      exact hy
    · exact absurd ⟨k, h2⟩ q1

/-- The line printed for a message signed by the sample, with something appended to its body, and a given key record. -/
def Samples.report (rec extra : Bytes) : Option (Except Err Unit × Bool) :=
  match Validatory.mk' (freshStream (Samples.signed Samples.rsaOpts Samples.message ++ extra)) .dkim with
  | .error _ => none
  | .ok v =>
    match v.sigs with
    | [] => none
    | h :: _ =>
      match v.verifyOne toyEnv 0 (fun _ => (true, rec)) h false with
      | (r, _, pub, _) => some (r, pub.softFail)

/-- Both cases occur: a testing key and another; a wrong key with the flag. -/
example : Samples.report b!"t=y; p=Bw==" [] = some (.ok (), true) ∧ Samples.report b!"t=s; p=Bw==" [] = some (.ok (), false) ∧
    Samples.report b!"t=s:y; p=CA==" [] = some (.error (.perm .sigMismatch .fail), true) := by decide +kernel

/-- Finding: the key is looked up after the body hash is compared, so a changed body counts as a failure of the signature although the
signer's key says that it is only testing. -/
theorem C76_body_witness : Samples.report b!"t=y; p=Bw==" b!"x" = some (.error (.perm .bodyHashMismatch .fail), false) := by decide +kernel

end Dkim

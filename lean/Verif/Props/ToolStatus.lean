import Verif.Props.ToolSign
import Verif.Props.Repeat
/-!
# Property C60: the exit status of the signing tool
-/

namespace Dkim
open Spec

variable {E : Env}

theorem setPrivateKey_fresh (hseed : ∀ x, (E.edSeed x).length = 64) (k : Bytes) (a : SigAlg) :
    (∃ s, SigOpts.setPrivateKey k ({ alg := a } : SigOpts E) = .ok () s ∧ s.alg = a ∧ (a = .ed25519 → s.ed.length = 64) ∧ (a = .rsa → s.ed = [])) ∨
    ∃ r s, SigOpts.setPrivateKey k ({ alg := a } : SigOpts E) = .error (.p r) s := by
  unfold SigOpts.setPrivateKey
  rw [es_bind, es_get, esBind_ok]
  cases a with
  | rsa =>
    simp only
    split
    · cases E.pemPriv k with
      | none => exact .inr ⟨_, _, rfl⟩
      | some r =>
        cases r with
        | none => exact .inr ⟨_, _, rfl⟩
        | some r => exact .inl ⟨_, rfl, rfl, by simp, fun _ => rfl⟩
    · rw [es_bind, es_modify, esBind_ok]
      cases E.derPriv (E.b64dec k) with
      | none => exact .inr ⟨_, _, rfl⟩
      | some r => exact .inl ⟨_, rfl, rfl, by simp, fun _ => rfl⟩
  | ed25519 =>
    simp only
    split
    · rename_i h; exact .inl ⟨_, rfl, rfl, fun _ => h, by simp⟩
    · split
      · exact .inl ⟨_, rfl, rfl, fun _ => hseed _, by simp⟩
      · split
        · rename_i h; exact .inl ⟨_, rfl, rfl, fun _ => h, by simp⟩
        · split
          · exact .inl ⟨_, rfl, rfl, fun _ => hseed _, by simp⟩
          · exact .inr ⟨_, _, rfl⟩

theorem setAll_error (hseed : ∀ x, (E.edSeed x).length = 64) (c : Tool.Config) (key : Bytes) (e : Err)
    (h : Tool.setAll ({} : Options E) (Tool.setters c key) = .error e) : ∃ r, e = .p r := by
  unfold Tool.setters at h
  simp only [Tool.setAll, OptOp.run, runFirst, SigOp.run, SigOpts.setAlg] at h
  have hm : (modify (fun s : SigOpts E => { s with alg := if c.keytype = b!"ed25519" then .ed25519 else .rsa }) :
      EStateM Err (SigOpts E) Unit) {} = .ok () { alg := toolAlg c } := rfl
  rw [hm] at h
  simp only at h
  rcases setPrivateKey_fresh hseed key (toolAlg c) with ⟨s, hk, _⟩ | ⟨r, s, hk⟩
  · rw [hk] at h
    simp only at h
    by_cases h1 : IsDomain c.domain
    · rw [show SigOpts.setDomain c.domain s = .ok () { s with domain := c.domain } from ((C24_set_or_throw s c.domain).1 h1).1] at h
      simp only at h
      by_cases h2 : IsDomain c.selector
      · rw [show SigOpts.setSelector c.selector { s with domain := c.domain } = .ok () { s with domain := c.domain, selector := c.selector }
          from ((C24_set_or_throw _ c.selector).1 h2).2] at h
        simp at h
      · rw [show SigOpts.setSelector c.selector { s with domain := c.domain } = .error (.p .badSelector) { s with domain := c.domain }
          from ((C24_set_or_throw _ c.selector).2 h2).2] at h
        cases h
        exact ⟨_, rfl⟩
    · rw [show SigOpts.setDomain c.domain s = .error (.p .badDomain) s from ((C24_set_or_throw s c.domain).2 h1).1] at h
      cases h
      exact ⟨_, rfl⟩
  · rw [hk] at h
    cases h
    exact ⟨r, rfl⟩

/-- C60: the signing tool never crashes. Whatever files, key and settings it is given: it prints a signature and ends with status 0, or prints
nothing and ends with status 1 (the clock is within the range of the type and libsodium makes keys of 64 bytes). -/
theorem C60_status (hseed : ∀ x, (E.edSeed x).length = 64) (clock : Nat → Int) (hclock : ∀ k, -(2 ^ 63) ≤ clock k ∧ clock k < 2 ^ 63 - 1)
    (fs : Bytes → Option Bytes) (c : Tool.Config) (file : Bytes) :
    (∃ H, Tool.sign E clock fs c file = (H ++ CRLF, .exit 0)) ∨ Tool.sign E clock fs c file = ([], .exit 1) := by
  rcases C60_output (E := E) clock fs c file with ⟨key, s, H, h1, h2, h3, h4, h5, h6⟩ | ⟨hno, o, ho, hs⟩
  · exact .inl ⟨H, h6⟩
  · right
    unfold Tool.sign at hs ⊢
    cases hk : fs c.keyfile with
    | none => rfl
    | some key =>
      rw [hk] at hs
      simp only at hs ⊢
      cases hset : Tool.setAll ({} : Options E) (Tool.setters c key) with
      | error e =>
        obtain ⟨r, rfl⟩ := setAll_error hseed c key e hset
        rfl
      | ok op =>
        simp only
        obtain ⟨h1, h2, s, h3, rfl⟩ := (setAll_setters c key op).1 hset
        rw [createSignature_file]
        obtain ⟨s', k1, k2, k3, k4⟩ : ∃ s', SigOpts.setPrivateKey key ({ alg := toolAlg c } : SigOpts E) = .ok () s' ∧ s'.alg = toolAlg c ∧
            (toolAlg c = .ed25519 → s'.ed.length = 64) ∧ (toolAlg c = .rsa → s'.ed = []) := by
          rcases setPrivateKey_fresh hseed key (toolAlg c) with h | ⟨r, s', h⟩
          · exact h
          · rw [h] at h3; cases h3
        rw [h3] at k1
        cases k1
        have hsig : ∀ x ∈ (toolOptions c s).signatures, x.ed = s.ed ∧ x.alg = s.alg := by
          intro x hx
          have : x = { s with domain := c.domain, selector := c.selector } := by simpa [Options.signatures, toolOptions] using hx
          subst this
          exact ⟨rfl, rfl⟩
        have := C52_clean_failure_partial (E := E) (signedText fs file) [] (toolOptions c s) ?_ clock ?_ ?_
        · rcases this with ⟨H, hH⟩ | ⟨r, hr⟩
          · exact absurd hH (hno key s H hk h1 h2 h3)
          · have hr : (Signatory.createSignature E (toolOptions c s) clock { file := freshStream (signedText fs file) }).1 = .error (.p r) := hr
            rw [hr]
            rfl
        · intro x hx
          rw [(hsig x hx).1]
          cases ha : toolAlg c with
          | rsa => exact .inl (k4 ha)
          | ed25519 => exact .inr (k3 ha)
        · intro x hx
          rw [(hsig x hx).1, (hsig x hx).2, k2]
          intro ha h0
          have := k3 ha
          rw [h0] at this
          cases this
        · intro _ k
          have := hclock k
          have e : expiryTime (toolOptions c s) (clock k) = clock k + 1 := by simp [expiryTime, signTime, toolOptions]
          rw [e]
          omega

/-- Both happen. -/
example : ∃ H, Tool.sign toyEnv (fun _ => 0) (fun f => if f = b!"k" then some b!"-----x" else some Samples.message)
    { selector := b!"s", domain := b!"d.e", keyfile := b!"k" } b!"m" = (H ++ CRLF, .exit 0) := by
  rcases C60_status (E := toyEnv) (by intro x; simp [toyEnv, fit]) (fun _ => 0) (by intro k; decide)
    (fun f => if f = b!"k" then some b!"-----x" else some Samples.message) { selector := b!"s", domain := b!"d.e", keyfile := b!"k" } b!"m" with h | h
  · exact h
  · exact absurd h (by decide +kernel)

example : Tool.sign toyEnv (fun _ => 0) (fun f => if f = b!"k" then some b!"-----x" else some Samples.message)
    { selector := b!"s", domain := b!"d..e", keyfile := b!"k" } b!"m" = ([], .exit 1) := by decide +kernel

end Dkim

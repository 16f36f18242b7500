import Verif.Proofs.WordSize
import Verif.Proofs.GenText
import Verif.Tests.Samples
import Verif.Props.Message
import Verif.Props.TagList
import Verif.Props.RfcSound
import Verif.Spec.Threads
/-!
# C103: the size of `long`

Spec: `Verif/Spec/WordSize.lean`.
-/

namespace Dkim
open Spec

variable {E : Env}

/-- C103, reading (the claim itself is false, see the witnesses): with `long`s of 32 to 64 bits, `GetSignature` reads a
field with the tags `es` (no negative numbers) exactly if it does with 64-bit `long`s, the length can be stored,
and an expiration time that cannot be stored is not yet compared with a clock that has passed the last time that can;
and then the object holds the same values. The errno it leaves says ERANGE if the time could not be stored. -/
theorem C103_read_partial (w : Nat) (h32 : 32 ≤ w) (h64 : w ≤ 64) (now : Int) (h0 : 0 ≤ now) (h : Header) (e0 : Bool)
    (es : List (Bytes × TagEntry)) (ht : TagText 0 (valueText h) es) (hnd : (es.map Prod.fst).Nodup)
    (hm : NoMinus (isArcName h.name) (tagVal es)) (st' : SigSt) :
    Word.parse w E now h { erange := e0 } = .ok () st' ↔
      (∃ st, Signature.parse E now h { erange := e0 } = .ok () st ∧ st'.sig = st.sig) ∧ LongFits w now (tagVal es) ∧
        (st'.erange = true ↔ e0 = true ∨ ExpiryOut w (tagVal es)) := by
  rw [word_parse_ok w h32 h64 E now h0 h e0 es ht hnd hm st', ← wxRange_iff]
  constructor
  · rintro ⟨st, h1, h2, h3, h4⟩
    exact ⟨⟨st, h1, h3⟩, h2, by rw [h4]; simp⟩
  · rintro ⟨⟨st, h1, h3⟩, h2, h4⟩
    exact ⟨st, h1, h2, h3, by rw [Bool.eq_iff_iff, h4]; simp⟩

/-- C103, for every field: programs with `long`s of `w` and of 64 bits both read it, and read the same, exactly if the
64-bit program does, no number in l= (i= of an ARC field) is negative, and the numbers fit. -/
theorem C103_agree_partial (w : Nat) (h32 : 32 ≤ w) (h64 : w < 64) (now : Int) (h0 : 0 ≤ now) (h : Header) (e0 : Bool)
    (es : List (Bytes × TagEntry)) (ht : TagText 0 (valueText h) es) (hnd : (es.map Prod.fst).Nodup) (s : Signature) :
    ((∃ e, Signature.parse E now h { erange := e0 } = .ok () ⟨s, e⟩) ∧ (∃ e, Word.parse w E now h { erange := e0 } = .ok () ⟨s, e⟩)) ↔
      (∃ e, Signature.parse E now h { erange := e0 } = .ok () ⟨s, e⟩) ∧ NoMinus (isArcName h.name) (tagVal es) ∧
        LongFits w now (tagVal es) := by
  constructor
  · rintro ⟨⟨e, h1⟩, ⟨e', h2⟩⟩
    have hm := word_negative w h32 h64 E now h e0 es ht hnd _ _ h1 h2
    exact ⟨⟨e, h1⟩, hm, ((C103_read_partial w h32 (Nat.le_of_lt h64) now h0 h e0 es ht hnd hm _).1 h2).2.1⟩
  · rintro ⟨⟨e, h1⟩, hm, hf⟩
    refine ⟨⟨e, h1⟩, e0 || wxRange w es, ?_⟩
    exact (word_parse_ok w h32 (Nat.le_of_lt h64) E now h0 h e0 es ht hnd hm _).2 ⟨_, h1, hf, rfl, rfl⟩

/-- C103: a field with a negative number in l= (i= of an ARC field) is rejected by one of the two programs. -/
theorem C103_negative_rejected (w : Nat) (h32 : 32 ≤ w) (h64 : w < 64) (now : Int) (h : Header) (e0 : Bool)
    (es : List (Bytes × TagEntry)) (ht : TagText 0 (valueText h) es) (hnd : (es.map Prod.fst).Nodup)
    (hm : ¬ NoMinus (isArcName h.name) (tagVal es)) :
    (∀ st, Signature.parse E now h { erange := e0 } ≠ .ok () st) ∨ ∀ st, Word.parse w E now h { erange := e0 } ≠ .ok () st := by
  by_cases hs : ∃ st, Signature.parse E now h { erange := e0 } = .ok () st
  · obtain ⟨st, h1⟩ := hs
    exact .inr fun st' h2 => hm (word_negative w h32 h64 E now h e0 es ht hnd st st' h1 h2)
  · exact .inl fun st h1 => hs ⟨st, h1⟩

/-- C103, verdicts: a field with the tags `es` (no negative numbers) verifies with `w`-bit `long`s exactly if it
does with 64-bit `long`s and its numbers fit. -/
theorem C103_verdict_partial (w : Nat) (h32 : 32 ≤ w) (h64 : w ≤ 64) (now : Int) (h0 : 0 ≤ now) (v : Validatory) (h : Header)
    (e0 : Bool) (resolver : Bytes → Bool × Bytes)
    (es : List (Bytes × TagEntry)) (ht : TagText 0 (valueText h) es) (hnd : (es.map Prod.fst).Nodup)
    (hm : NoMinus (isArcName h.name) (tagVal es)) :
    (Word.verifyOne w E now resolver v h e0).1 = .ok () ↔
      (v.verifyOne E now resolver h e0).1 = .ok () ∧ LongFits w now (tagVal es) := by
  -- both go on alike from the same object
  have go : ∀ st st' : SigSt, st'.sig = st.sig →
      Signature.parse E now h { erange := e0 } = .ok () st → Word.parse w E now h { erange := e0 } = .ok () st' →
      (Word.verifyOne w E now resolver v h e0).1 = (v.verifyOne E now resolver h e0).1 := by
    intro st st' e h1 h2
    unfold Word.verifyOne Validatory.verifyOne Word.getSignature Validatory.getSignature
    rw [h1, h2]
    simp only [e]
    generalize v.checkBodyHash E st.sig = r
    obtain ⟨r1, r2⟩ := r
    cases r1 with
    | error e => rfl
    | ok u =>
      simp only [e]
      cases getPublicKey resolver st.sig ({} : PublicKey E) <;> rfl
  constructor
  · intro hw
    have : ∃ st', Word.parse w E now h { erange := e0 } = .ok () st' := by
      cases hp : Word.parse w E now h { erange := e0 } with
      | ok u st => exact ⟨st, rfl⟩
      | error e st =>
        unfold Word.verifyOne Word.getSignature at hw
        rw [hp] at hw
        cases hw
    obtain ⟨st', hp⟩ := this
    obtain ⟨⟨st, h1, h3⟩, h2, _⟩ := (C103_read_partial w h32 h64 now h0 h e0 es ht hnd hm st').1 hp
    rw [go st st' h3 h1 hp] at hw
    exact ⟨hw, h2⟩
  · rintro ⟨hv, hf⟩
    have : ∃ st, Signature.parse E now h { erange := e0 } = .ok () st := by
      cases hp : Signature.parse E now h { erange := e0 } with
      | ok u st => exact ⟨st, rfl⟩
      | error e st =>
        unfold Validatory.verifyOne Validatory.getSignature at hv
        rw [hp] at hv
        cases hv
    obtain ⟨st, hp⟩ := this
    have hw := (word_parse_ok w h32 h64 E now h0 h e0 es ht hnd hm ⟨st.sig, e0 || wxRange w es⟩).2 ⟨st, hp, hf, rfl, rfl⟩
    rw [go st ⟨st.sig, e0 || wxRange w es⟩ rfl hp hw]
    exact hv

namespace Samples

/-- A field with a length and a time of the year 2100. -/
def wordField : Header :=
  mkField [b!"DKIM-Signature: v=1; a=rsa-sha256; d=d.e; s=s; h=from; bh=AA==; b=AA==; l=2; x=4102444800"]

/-- Its tags. -/
def wordTags : List (Bytes × TagEntry) :=
  match TagList.parse (valueText wordField) [] with
  | .ok _ m => m
  | .error _ _ => []

end Samples

/-- C103: a concrete field that meets the hypotheses, before 2038 also `LongFits`, and whose time cannot be stored. -/
example : TagText 0 (valueText Samples.wordField) Samples.wordTags ∧ (Samples.wordTags.map Prod.fst).Nodup ∧
    NoMinus (isArcName Samples.wordField.name) (tagVal Samples.wordTags) ∧ LongFits 32 1700000000 (tagVal Samples.wordTags) ∧
    ¬ LongFits 32 (2 ^ 31) (tagVal Samples.wordTags) ∧ ExpiryOut 32 (tagVal Samples.wordTags) := by
  have hl : tagVal Samples.wordTags b!"l" = some b!"2" := by decide +kernel
  have hx : tagVal Samples.wordTags b!"x" = some b!"4102444800" := by decide +kernel
  have nl : ∀ neg m rest, Number b!"2" neg m rest → (false, 2, []) = (neg, m, rest) := by
    intro neg m rest h
    have e : scanNum b!"2" = some (false, 2, []) := by decide +kernel
    rw [scanNum_iff.2 h] at e
    cases e; rfl
  have ex : scanNum b!"4102444800" = some (false, 4102444800, []) := by decide +kernel
  have hp : TagList.parse (valueText Samples.wordField) [] = .ok () Samples.wordTags := by
    have : (match TagList.parse (valueText Samples.wordField) [] with | .ok _ _ => true | .error _ _ => false) = true := by
      decide +kernel
    unfold Samples.wordTags
    split at this
    · rename_i u m e
      rw [e]
    · cases this
  obtain ⟨es, h1, h2, -, h3⟩ := (C11_parse_iff _ _ _).1 hp
  rw [List.nil_append] at h3
  rw [← h3] at h1 h2
  refine ⟨h1, h2, ⟨?_, ?_⟩, ⟨?_, ?_⟩, ?_, ⟨_, _, _, hx, .inl ⟨scanNum_iff.1 ex, by decide⟩⟩⟩
  · intro v hv m rest hn
    rw [hl] at hv
    cases hv
    cases nl _ _ _ hn
  · intro ha
    exact absurd ha (by decide +kernel)
  · intro v hv m rest hn
    rw [hl] at hv
    cases hv
    cases nl _ _ _ hn
    decide
  · intro v hv m rest hn _
    decide
  · intro h
    exact absurd (h.2 _ hx _ _ (scanNum_iff.1 ex) (by decide)) (by decide)

/-- C103, where no number is large: the whole outcome of verifying a field is the same - verdict, error, values, key,
errno and `Validatory` -, also for fields that are rejected. -/
theorem C103_small_partial (w : Nat) (h32 : 32 ≤ w) (h64 : w ≤ 64) (now : Int) (v : Validatory) (h : Header) (e0 : Bool)
    (resolver : Bytes → Bool × Bytes)
    (hs : ∀ es, TagText 0 (valueText h) es → (es.map Prod.fst).Nodup → SmallNumbers w (isArcName h.name) (tagVal es)) :
    Word.verifyOne w E now resolver v h e0 = v.verifyOne E now resolver h e0 := by
  unfold Word.verifyOne Validatory.verifyOne Word.getSignature Validatory.getSignature
  rw [word_parse_small w h32 h64 E now h e0 hs]
  cases Signature.parse E now h { erange := e0 } with
  | error e st => rfl
  | ok u st =>
    simp only []
    generalize v.checkBodyHash E st.sig = r
    obtain ⟨r1, r2⟩ := r
    cases r1 with
    | error e => rfl
    | ok u =>
      simp only []
      cases getPublicKey resolver st.sig ({} : PublicKey E) <;> rfl

/-- C103, for all the fields of a message: where no number is large the verdicts are the same. -/
theorem C103_message_partial (w : Nat) (h32 : 32 ≤ w) (h64 : w ≤ 64) (now : Int) (v : Validatory) (hs : List Header) (e0 : Bool)
    (resolver : Bytes → Bool × Bytes)
    (hsm : ∀ h ∈ hs, ∀ es, TagText 0 (valueText h) es → (es.map Prod.fst).Nodup → SmallNumbers w (isArcName h.name) (tagVal es)) :
    Spec.inTurn (Word.verifyOne w E now resolver) v e0 hs = Spec.inTurn (fun v => v.verifyOne E now resolver) v e0 hs := by
  induction hs generalizing v e0 with
  | nil => rfl
  | cons h hs ih =>
    unfold Spec.inTurn
    rw [C103_small_partial w h32 h64 now v h e0 resolver (hsm h (by simp))]
    simp only []
    rw [ih _ _ (fun h' hm => hsm h' (by simp [hm]))]

/-- C103: a field with small numbers, and one (of the year 2100) without. -/
example : (∀ es, TagText 0 (valueText (mkField [b!"DKIM-Signature: l=2; x=2000000000"])) es → (es.map Prod.fst).Nodup →
      SmallNumbers 32 (isArcName (mkField [b!"DKIM-Signature: l=2; x=2000000000"]).name) (tagVal es)) ∧
    ¬ SmallNumbers 32 false (tagVal Samples.wordTags) := by
  have num : ∀ s n, scanNum s = some (false, n, []) → ∀ neg m rest, Number s neg m rest → neg = false ∧ m = n := by
    intro s n e neg m rest h
    rw [scanNum_iff.2 h] at e
    cases e; exact ⟨rfl, rfl⟩
  constructor
  · intro es ht hnd
    have hp : TagList.parse (valueText (mkField [b!"DKIM-Signature: l=2; x=2000000000"])) [] =
        .ok () [(b!"l", { value := b!"2", offset := 3 }), (b!"x", { value := b!"2000000000", offset := 8 })] := by rfl
    obtain ⟨es', h1, h2, -, h3⟩ := (C11_parse_iff _ _ _).1 hp
    rw [List.nil_append] at h3
    subst h3
    obtain rfl := tagText_unique ht hnd h1 h2
    have hl : tagVal [(b!"l", ({ value := b!"2", offset := 3 } : TagEntry)), (b!"x", { value := b!"2000000000", offset := 8 })] b!"l" = some b!"2" := by decide +kernel
    have hx : tagVal [(b!"l", ({ value := b!"2", offset := 3 } : TagEntry)), (b!"x", { value := b!"2000000000", offset := 8 })] b!"x" = some b!"2000000000" := by decide +kernel
    have n1 := num b!"2" 2 (by decide +kernel)
    have n2 := num b!"2000000000" 2000000000 (by decide +kernel)
    refine ⟨⟨?_, fun ha => absurd ha (by decide +kernel)⟩, fun ha => absurd ha (by decide +kernel), ?_, ?_⟩
    · intro v hv m rest hn
      rw [hl] at hv; cases hv
      exact absurd (n1 _ _ _ hn).1 (by decide)
    · intro v hv m rest hn
      rw [hl] at hv; cases hv
      rw [(n1 _ _ _ hn).2]; decide
    · intro v hv neg m rest hn
      rw [hx] at hv; cases hv
      rw [(n2 _ _ _ hn).2]; decide
  · intro h
    have hx : tagVal Samples.wordTags b!"x" = some b!"4102444800" := by decide +kernel
    have ex : scanNum b!"4102444800" = some (false, 4102444800, []) := by decide +kernel
    exact absurd (h.2.2.2 _ hx _ _ _ (scanNum_iff.1 ex)) (by decide)

/-! ### Signing -/

theorem word_fmtLu (w : Nat) (h64 : w ≤ 64) (v : Int) (h0 : 0 ≤ v) (h : v < 2 ^ w) : Word.fmtLu w v = fmtLu v := by
  unfold Word.fmtLu fmtLu
  have : (2 : Int) ^ w ≤ 2 ^ 64 := by
    have := Nat.pow_le_pow_right (n := 2) (by decide) h64
    exact_mod_cast this
  rw [Int.emod_eq_of_lt h0 h, Int.emod_eq_of_lt h0 (by omega)]

theorem word_sigTimes (w : Nat) (h64 : w ≤ 64) (o : Options E) (now : Int)
    (ht : o.timestampSign = true → 0 ≤ signTime o now ∧ signTime o now < 2 ^ w)
    (hx : o.expirationSign = true → 0 ≤ expiryTime o now ∧ expiryTime o now < 2 ^ w) :
    Word.sigTimes w o now = sigTimes o now := by
  unfold Word.sigTimes sigTimes
  have e1 : (if o.timestampSign then b!" t=" ++ Word.fmtLu w (sigTimestamp o now) ++ b!";" else []) =
      (if o.timestampSign then b!" t=" ++ fmtLu (sigTimestamp o now) ++ b!";" else []) := by
    by_cases h : o.timestampSign = true
    · rw [if_pos h, if_pos h, sigTimestamp_sign h, word_fmtLu w h64 _ (ht h).1 (ht h).2]
    · rw [if_neg h, if_neg h]
  simp only [e1]
  by_cases h : o.expirationSign = true
  · rw [if_pos h, if_pos h, sigExpiration_eq]
    by_cases hr : -(2 ^ 63) ≤ expiryTime o now ∧ expiryTime o now < 2 ^ 63
    · rw [if_pos hr]
      simp only []
      rw [word_fmtLu w h64 _ (hx h).1 (hx h).2]
    · rw [if_neg hr]
  · rw [if_neg h, if_neg h]

theorem word_oneSignature (w : Nat) (h64 : w ≤ 64) (o : Options E) (clock : Nat → Int) (hf : SettingsFit w o clock)
    (s : SigOpts E) (k : Nat) (hashed : Bytes) (names : List Bytes) (bh : Bytes) :
    Word.oneSignature w E o s (clock k) hashed names bh = oneSignature E o s (clock k) hashed names bh := by
  have e1 : Word.sigPrefix w o = sigPrefix o := by
    unfold Word.sigPrefix sigPrefix
    rw [word_fmtLu w h64 _ (by omega) (by exact_mod_cast hf.arc)]
  have e2 : Word.sigDomainLine w o s = sigDomainLine o s := by
    unfold Word.sigDomainLine sigDomainLine
    by_cases h : o.bodySignLength = true
    · rw [if_pos h, if_pos h, word_fmtLu w h64 _ (by omega) (by exact_mod_cast hf.length h)]
    · rw [if_neg h, if_neg h]
  have e3 : Word.sigHeaderText w o s (clock k) names bh = sigHeaderText o s (clock k) names bh := by
    unfold Word.sigHeaderText sigHeaderText
    rw [e1, e2, word_sigTimes w h64 o _ (fun h => hf.time h k) (fun h => hf.expiry h k)]
    cases sigTimes o (clock k) <;> rfl
  unfold Word.oneSignature oneSignature
  rw [e3]
  cases sigHeaderText o s (clock k) names bh with
  | error e => rfl
  | ok text =>
    simp only []
    cases filterHeader o.canonHead text with
    | error e => rfl
    | ok t2 =>
      simp only []
      cases signDigest E s o.digest (E.hash o.digest (hashed ++ t2)) with
      | error e => rfl
      | ok sg =>
        simp only []
        cases foldB (List.length (b64Encode sg) + 1) 3 (b64Encode sg) <;> rfl

theorem word_allSignatures (w : Nat) (h64 : w ≤ 64) (o : Options E) (clock : Nat → Int) (hf : SettingsFit w o clock)
    (hashed : Bytes) (names : List Bytes) (bh : Bytes) (k : Nat) (acc : Bytes) (ss : List (SigOpts E)) :
    Word.allSignatures w E o clock hashed names bh k acc ss = allSignatures E o clock hashed names bh k acc ss := by
  induction ss generalizing k acc with
  | nil => rfl
  | cons s ss ih =>
    unfold Word.allSignatures allSignatures
    rw [word_oneSignature w h64 o clock hf]
    cases oneSignature E o s (clock k) hashed names bh with
    | error e => rfl
    | ok h => exact ih _ _

/-- C103, signing: where every number to be written fits a `w`-bit `unsigned long`, `CreateSignature` does the same with
`w`-bit `long`s as with 64-bit ones - result and object, for every message and state. -/
theorem C103_sign_partial (w : Nat) (h64 : w ≤ 64) (o : Options E) (clock : Nat → Int) (hf : SettingsFit w o clock) (sg : Signatory) :
    Word.createSignature w E o clock sg = Signatory.createSignature E o clock sg := by
  unfold Word.createSignature Signatory.createSignature
  simp only [word_allSignatures w h64 o clock hf]
  cases sg.msg.parseAll sg.file with
  | error e => rfl
  | ok r =>
    obtain ⟨msg, s1⟩ := r
    simp only []
    cases canonBody s1 o.canonBody msg.bodyOffset o.bodySignLength o.bodyLength with
    | error e => rfl
    | ok r =>
      obtain ⟨⟨calls, ok⟩, s2⟩ := r
      simp only []
      cases ok with
      | false => rfl
      | true =>
        cases signLoop o.canonHead o.headers msg.headers.reverse with
        | error e => rfl
        | ok r => rfl

namespace Samples

/-- Verdicts on the fields of a message, from the top, with one errno, in a program with `w`-bit `long`s. -/
def verdicts (w : Nat) (now : Int) (record : Bytes) (msg : Bytes) : Option (List (Except Err Unit)) :=
  match Validatory.mk' { data := msg } .dkim with
  | .error _ => none
  | .ok v =>
    some (Spec.inTurn (Word.verifyOne w toyEnv now (fun _ => (true, record))) v false v.sigs)

/-- Options: valid until 2100-01-01. -/
def until2100 : Options toyEnv := { rsaOpts with expirationSign := true, expirationAbsolute := true, expiration := 4102444800 }

/-- Options: the first two bytes of the body. -/
def twoBytes : Options toyEnv := { rsaOpts with bodySignLength := true, bodyLength := 2 }

end Samples

/-- C103: settings that fit 32 bits, and settings that do not. -/
example : SettingsFit 32 Samples.twoBytes (fun _ => 0) ∧ ¬ SettingsFit 32 { Samples.until2100 with expiration := 2 ^ 32 } (fun _ => 0) :=
  ⟨⟨by decide +kernel, fun _ => by decide +kernel, fun h => absurd h (by decide +kernel), fun h => absurd h (by decide +kernel)⟩,
   fun h => absurd (h.expiry rfl 0) (by decide +kernel)⟩

/-- C103: times beyond 32 bits are written modulo 2^32. A signature of 2106-02-07 06:28:16, to be valid for an hour, says
that it was valid until 1970, and no verifier accepts it. -/
theorem C103_written_witness :
    Word.sigTimes 32 { Samples.rsaOpts with timestampSign := true, timestamp := -1, expirationSign := true, expirationAbsolute := false, expiration := 3600 } (2 ^ 32) =
      .ok b!" t=0; x=3600;" ∧
    sigTimes { Samples.rsaOpts with timestampSign := true, timestamp := -1, expirationSign := true, expirationAbsolute := false, expiration := 3600 } (2 ^ 32) =
      .ok b!" t=4294967296; x=4294970896;" := by decide +kernel

/-- C103 is false: a signature that is valid until the year 2100 is taken as expired in a program with 32-bit `long`s as
soon as the clock shows 2038-01-19 03:14:08. -/
theorem C103_expiry_witness :
    Samples.verdicts 64 (2 ^ 31) Samples.rsaRec (Samples.signed Samples.until2100 Samples.message) = some [.ok ()] ∧
    Samples.verdicts 32 (2 ^ 31 - 1) Samples.rsaRec (Samples.signed Samples.until2100 Samples.message) = some [.ok ()] ∧
    Samples.verdicts 32 (2 ^ 31) Samples.rsaRec (Samples.signed Samples.until2100 Samples.message) =
      some [.error (.p .expired)] := by decide +kernel

/-- C103: and today already it spoils the verdict on the next signature of the message, if that one has a length limit:
errno, set by the first, is read by the second. -/
theorem C103_errno_witness :
    (∃ H, Samples.sign Samples.twoBytes Samples.message = .ok H ∧
      Samples.verdicts 64 0 Samples.rsaRec (Samples.signed Samples.until2100 (H ++ CRLF ++ Samples.message)) = some [.ok (), .ok ()] ∧
      Samples.verdicts 32 0 Samples.rsaRec (Samples.signed Samples.until2100 (H ++ CRLF ++ Samples.message)) =
        some [.ok (), .error (.p .lRange)]) := by
  have h : (match Samples.sign Samples.twoBytes Samples.message with
    | .ok H => decide (
      Samples.verdicts 64 0 Samples.rsaRec (Samples.signed Samples.until2100 (H ++ CRLF ++ Samples.message)) = some [.ok (), .ok ()] ∧
      Samples.verdicts 32 0 Samples.rsaRec (Samples.signed Samples.until2100 (H ++ CRLF ++ Samples.message)) =
        some [.ok (), .error (.p .lRange)])
    | _ => false) = true := by decide +kernel
  split at h
  · rename_i H e
    exact ⟨H, e, of_decide_eq_true h⟩
  · cases h

/-- C103: a number with a minus sign is taken modulo the size of `long`, so here it is the other way round: 64-bit
programs refuse the length, 32-bit ones take it for 2. -/
theorem C103_minus_witness :
    (Dkim.strtoul b!"-4294967294" = (2 ^ 64 - 4294967294, [], false)) ∧
    Word.strtoul 32 b!"-4294967294" = (2, [], false) ∧
    (∃ st, Word.parse 32 toyEnv 0 (mkField [b!"DKIM-Signature: v=1; a=rsa-sha256; d=d.e; s=s; h=from; bh=AA==; b=AA==; l=-4294967294"]) {} =
      .ok () st ∧ st.sig.bodySize = 2) ∧
    (∃ st, Signature.parse toyEnv 0 (mkField [b!"DKIM-Signature: v=1; a=rsa-sha256; d=d.e; s=s; h=from; bh=AA==; b=AA==; l=-4294967294"]) {} =
      .error (.p .lNegative) st) := by
  refine ⟨by decide +kernel, by decide +kernel, ?_, ?_⟩
  · have h : (match Word.parse 32 toyEnv 0 (mkField [b!"DKIM-Signature: v=1; a=rsa-sha256; d=d.e; s=s; h=from; bh=AA==; b=AA==; l=-4294967294"]) {} with
      | .ok _ st => decide (st.sig.bodySize = 2) | _ => false) = true := by decide +kernel
    split at h
    · rename_i st e; exact ⟨st, e, of_decide_eq_true h⟩
    · cases h
  · have h : (match Signature.parse toyEnv 0 (mkField [b!"DKIM-Signature: v=1; a=rsa-sha256; d=d.e; s=s; h=from; bh=AA==; b=AA==; l=-4294967294"]) {} with
      | .error (.p .lNegative) _ => true | _ => false) = true := by decide +kernel
    split at h
    · rename_i st e; exact ⟨st, e⟩
    · cases h

/-- C103_negative_rejected applies to the field of that witness. -/
example : ∃ es, TagText 0 (valueText (mkField [b!"DKIM-Signature: d=d.e; l=-4294967294"])) es ∧ (es.map Prod.fst).Nodup ∧
    ¬ NoMinus false (tagVal es) := by
  have hp : TagList.parse (valueText (mkField [b!"DKIM-Signature: d=d.e; l=-4294967294"])) [] =
      .ok () [(b!"d", { value := b!"d.e", offset := 3 }), (b!"l", { value := b!"-4294967294", offset := 10 })] := by rfl
  obtain ⟨es', h1, h2, -, h3⟩ := (C11_parse_iff _ _ _).1 hp
  rw [List.nil_append] at h3
  subst h3
  refine ⟨_, h1, h2, fun h => ?_⟩
  have := h.1 b!"-4294967294" (by decide +kernel) 4294967294 [] (scanNum_iff.1 (by decide +kernel))
  exact absurd this (by decide)

end Dkim

import Verif.Spec.Verdict
import Verif.Props.ListText
import Verif.Props.QpDecode
import Verif.Props.Binding
/-!
# Property C68: the verdict on a signature field is exactly specified, from the bytes of the message

Spec: `Verif/Spec/Verdict.lean`. C43 in its exact form is a consequence.
-/

namespace Dkim
open Spec

variable {E : Env}

theorem claims_iff {arc : Bool} {now : Int} {tag : Bytes → Option Bytes} {s : Signature} :
    Claims E arc now tag s ↔ Legal E arc now tag s := by
  have hid : ∀ d o l m, Identity d o l m ↔ IdentityTag d o l m := by
    intro d o l m
    constructor
    · intro h
      cases h with
      | absent => exact .absent
      | present v _ dom h1 h2 h3 => exact .present v _ dom ((C64_decode_iff _ _ _).2 h1) h2 h3
    · intro h
      cases h with
      | absent => exact .absent
      | present v _ dom h1 h2 h3 => exact .present v _ dom ((C64_decode_iff _ _ _).1 h1) h2 h3
  constructor
  · rintro ⟨h1, h2, h3, h4, h5, h6, h7, h8, ⟨x, h9, h9'⟩, h10, h11, h12, h13, h14, h15⟩
    exact ⟨h1, h2, h3, h4, h5, h6, h7, h8, ⟨x, h9, (C67_list_iff _ _).2 h9'⟩, h10,
      fun e => ⟨(hid _ _ _ _).1 (h11 e).1, (h11 e).2⟩, h12, h13, h14, h15⟩
  · rintro ⟨h1, h2, h3, h4, h5, h6, h7, h8, ⟨x, h9, h9'⟩, h10, h11, h12, h13, h14, h15⟩
    exact ⟨h1, h2, h3, h4, h5, h6, h7, h8, ⟨x, h9, (C67_list_iff _ _).1 h9'⟩, h10,
      fun e => ⟨(hid _ _ _ _).2 (h11 e).1, (h11 e).2⟩, h12, h13, h14, h15⟩

theorem knownHash_eq : knownHash = digestOf := by
  funext n
  unfold knownHash digestOf
  by_cases h1 : n = b!"sha1"
  · subst h1; decide
  · by_cases h2 : n = b!"sha256"
    · subst h2; decide
    · rw [if_neg h1, if_neg h2, if_neg h2, if_neg h1]

theorem keyClaims_iff {tag : Bytes → Option Bytes} {k : PublicKey E} :
    KeyClaims E tag k ↔ LegalKey E tag k ∧
      (∀ v names, tag b!"h" = some v → valueList v = .ok names → k.digests = names.filterMap digestOf) := by
  constructor
  · rintro ⟨h1, h2, h3, h4, h5, h6⟩
    refine ⟨⟨h1, ?_, h3, h4, ?_, ?_⟩, ?_⟩
    · generalize tag b!"h" = o at h2
      generalize k.digests = ds at h2
      cases h2 with
      | absent =>
        have : (fun d => d ∈ ([] : List DigestAlg)) = fun _ => False := by funext d; simp
        rw [this]; exact .absent
      | present v names hne hl =>
        have : (fun d => d ∈ names.filterMap knownHash) = fun d => digestName d ∈ names := by
          funext d; rw [knownHash_eq]; exact propext (mem_digests names d)
        rw [this]; exact .present v names hne ((C67_list_iff _ _).2 hl)
    · generalize tag b!"s" = o at h5
      generalize k.serviceEmail = n at h5
      cases h5 with
      | absent => exact .absent
      | any v names a b c => exact .any v names a ((C67_list_iff _ _).2 b) c
      | listed v names a b c => exact .listed v names a ((C67_list_iff _ _).2 b) c
    · generalize tag b!"t" = o at h6
      generalize k.flags = n at h6
      cases h6 with
      | absent => exact .absent
      | present v names b => exact .present v _ ((C67_list_iff _ _).2 b)
    · intro v names hv hl
      rw [hv] at h2
      generalize k.digests = ds at h2
      cases h2 with
      | present _ names' _ hl' =>
        rw [(C67_list_iff _ _).2 hl'] at hl
        cases hl
        rw [knownHash_eq]
  · rintro ⟨⟨h1, h2, h3, h4, h5, h6⟩, h7⟩
    refine ⟨h1, ?_, h3, h4, ?_, ?_⟩
    · cases ho : tag b!"h" with
      | none =>
        rw [ho] at h2
        have : k.digests = [] := by
          generalize hP : (fun d => d ∈ k.digests) = P at h2
          cases h2
          cases hk : k.digests with
          | nil => rfl
          | cons a r => have := congrFun hP a; simp [hk] at this
        rw [this]; exact .absent
      | some v =>
        rw [ho] at h2
        generalize (fun d => d ∈ k.digests) = P at h2
        cases h2 with
        | present _ names hne hl =>
          rw [h7 v names ho hl, ← knownHash_eq]
          exact .present v names hne ((C67_list_iff _ _).1 hl)
    · generalize tag b!"s" = o at h5
      generalize k.serviceEmail = n at h5
      cases h5 with
      | absent => exact .absent
      | any v names a b c => exact .any v names a ((C67_list_iff _ _).1 b) c
      | listed v names a b c => exact .listed v names a ((C67_list_iff _ _).1 b) c
    · generalize tag b!"t" = o at h6
      generalize k.flags = n at h6
      cases h6 with
      | absent => exact .absent
      | present v names b => exact .present v _ ((C67_list_iff _ _).1 b)

theorem canonField_iff {mode : CanonMode} {s c : Bytes} (hw : WellFolded s) :
    CanonField mode s c ↔ filterHeader mode s = .ok c := by
  cases mode with
  | simple =>
    rw [C06_simple]
    constructor
    · intro h; cases h; rfl
    · intro h; cases h; exact .simple _
  | relaxed =>
    constructor
    · intro h
      cases h with
      | relaxed _ a b c => exact C06_relaxed s hw b a c
      | blank _ a b c => exact C06_blank_name s hw b a c
    · intro h
      have hn : ¬ (COLON ∉ s ∨ HasBareCR s) := by
        intro hx
        obtain ⟨e, he⟩ := (C06_throws_iff s hw).1.2 hx
        rw [he] at h; cases h
      simp only [not_or, Classical.not_not] at hn
      by_cases hb : Blank (fieldName s)
      · have := C06_blank_name s hw hn.2 hn.1 hb
        rw [this] at h; cases h
        exact .blank s hn.1 hn.2 hb
      · have := C06_relaxed s hw hn.2 hn.1 hb
        rw [this] at h; cases h
        exact .relaxed s hn.1 hn.2 hb

theorem canonFields_iff {mode : CanonMode} {fs : List Header} {cs : List Bytes} (hw : ∀ f ∈ fs, WellFolded f.header) :
    CanonFields mode fs cs ↔ CanonAll mode fs cs := by
  unfold CanonAll
  induction fs generalizing cs with
  | nil =>
    constructor
    · intro h; cases h; rfl
    · intro h
      cases cs with
      | nil => exact .nil
      | cons => simp at h
  | cons f fs ih =>
    constructor
    · intro h
      cases h with
      | cons _ _ c cs h1 h2 =>
        simp only [List.map_cons]
        rw [(canonField_iff (hw f (by simp))).1 h1, (ih (fun f hf => hw f (by simp [hf]))).1 h2]
    · intro h
      cases cs with
      | nil => simp at h
      | cons c cs =>
        simp only [List.map_cons, List.cons.injEq] at h
        exact .cons _ _ _ _ ((canonField_iff (hw f (by simp))).2 h.1) ((ih (fun f hf => hw f (by simp [hf]))).2 h.2)

/-- What the library reports, as a ruling. -/
def Spec.ruling : Except Err Unit → Option Ruling
  | .ok () => some .pass
  | .error (.perm _ .fail) => some .fail
  | .error (.perm _ .permerror) => some .permerror
  | .error (.temp _ .temperror) => some .temperror
  | .error .ub => some .overread
  | .error _ => none

theorem headText_msg {d : Bytes} {type : ValidatorType} {v : Validatory} (hv : Validatory.mk' (freshStream d) type = .ok v)
    {ls : List Bytes} {off : Int} (hd : HeadText 0 d ls off) :
    v.msg.headers = (groupLines ls).map mkField ∧ v.msg.bodyOffset = off := by
  obtain ⟨_, s', hp, _⟩ := mk'_built d type v hv
  obtain ⟨m2, s2, p1, p2, p3, _, _⟩ := parseAll_head hd (freshStream d) (at_fresh d)
  rw [hp] at p1; cases p1
  exact ⟨p2, p3⟩

theorem acceptable_iff {now : Int} {er : Bool} {h : Header} {es : List (Bytes × TagEntry)} {s : Signature} :
    Acceptable E now er h es s ↔
      Signature.parse E now h { erange := er } = .ok () ⟨{ s with tags := es }, er || xRange es⟩ := by
  unfold Acceptable
  rw [parse_ok_iff, claims_iff]
  constructor
  · rintro ⟨h1, h2, h3, h4⟩
    exact ⟨es, h1, h2, rfl, h3.tags_irrelevant es, h4, rfl⟩
  · rintro ⟨es', h1, h2, h3, h4, h5, h6⟩
    simp only at h3
    subst h3
    exact ⟨h1, h2, h4.tags_irrelevant s.tags, h5⟩

theorem keyFound_iff {resolver : Bytes → Bool × Bytes} {s : Signature} {k : PublicKey E} :
    KeyFound E resolver s k ↔ ∃ kes, PublicKey.parse (answer resolver s).2 ({} : PublicKey E) = .ok () { k with tags := kes } := by
  unfold KeyFound
  constructor
  · rintro ⟨kes, h1, h2, h3⟩
    obtain ⟨⟨a, b, c, d, e, f⟩, h4⟩ := keyClaims_iff.1 h3
    exact ⟨kes, (keyParse_ok_iff _ _).2 ⟨kes, h1, h2, rfl, ⟨a, b, c, d, e, f⟩, h4⟩⟩
  · rintro ⟨kes, h⟩
    obtain ⟨es, h1, h2, h3, ⟨a, b, c, d, e, f⟩, h4⟩ := (keyParse_ok_iff _ _).1 h
    exact ⟨es, h1, h2, keyClaims_iff.2 ⟨⟨a, b, c, d, e, f⟩, h4⟩⟩

theorem bodyMatches_iff {d : Bytes} {type : ValidatorType} {v : Validatory} (hv : Validatory.mk' (freshStream d) type = .ok v)
    {s : Signature} : BodyMatches E d s ↔ (v.checkBodyHash E s).1 = .ok () := by
  rw [C39_accepts_iff d type v hv]
  unfold BodyMatches
  constructor
  · rintro ⟨ls, off, hd, h⟩
    rw [(headText_msg hv hd).2]; exact h
  · intro h
    obtain ⟨ls, off, hd⟩ := HeadText.total d 0
    refine ⟨ls, off, hd, ?_⟩
    rw [(headText_msg hv hd).2] at h; exact h

theorem input_iff {d : Bytes} {type : ValidatorType} {v : Validatory} (hv : Validatory.mk' (freshStream d) type = .ok v)
    {h : Header} (hh : h ∈ v.sigs) (hlen : h.header.length < 2 ^ 31) {now : Int} {er er' : Bool} {es : List (Bytes × TagEntry)} {s : Signature}
    (hp : Signature.parse E now h { erange := er } = .ok () ⟨{ s with tags := es }, er'⟩) {input : Bytes} :
    Input d h es s input ↔ headerHashInput v.msg h { s with tags := es } = .ok input := by
  have R : SigField E d v h { s with tags := es } := ⟨⟨type, hv⟩, hh, hlen, now, er, _, hp, rfl⟩
  obtain ⟨t, es1, S⟩ := R.stripped
  have e1 : es1 = es := S.stored.symm
  subst e1
  obtain ⟨es2, bval, before, after, h1, h2, h3, h4⟩ := stripB_parsed now h er _ hp hlen
  have e2 : es2 = es1 := S.tags.det h1 S.nodup
  subst e2
  have ht : t = h.header.take h.valueOffset ++ (before ++ after) := by
    have := S.strip
    rw [h4] at this; cases this; rfl
  have hwf := S.folded
  rw [ht] at hwf
  obtain ⟨⟨s', hpar⟩, _, _⟩ := R.built
  have hsel : ∀ f ∈ selected v.msg.headers s.headers, WellFolded f.header := fun f hf =>
    (C22_fields d _ s' hpar f (selected_mem hf)).1
  rw [headerHashInput_ok, h4]
  unfold Input SignedInput
  constructor
  · rintro ⟨ls, off, hd, bval', before', after', cs, c, g1, g2, g3, g4, rfl⟩
    rw [← (headText_msg hv hd).1] at g3
    have u1 := (getTag_eq_some_iff S.nodup _ _).2 h2
    have u2 := (getTag_eq_some_iff S.nodup _ _).2 g1
    rw [u1] at u2
    simp only [Option.some.injEq, TagEntry.mk.injEq] at u2
    obtain ⟨rfl, ho⟩ := u2
    have hl : before.length = before'.length := by omega
    rw [h3] at g2
    rw [List.append_assoc, List.append_assoc] at g2
    obtain ⟨rfl, h5⟩ := List.append_inj g2 hl
    have := List.append_cancel_left h5
    subst this
    exact ⟨cs, _, c, (canonFields_iff hsel).1 g3, rfl, (canonField_iff hwf).1 g4, rfl⟩
  · rintro ⟨cs, t', c, hc, e, hf, rfl⟩
    cases e
    obtain ⟨ls, off, hd⟩ := HeadText.total d 0
    refine ⟨ls, off, hd, bval, before, after, cs, c, h2, h3, ?_, (canonField_iff hwf).2 hf, rfl⟩
    rw [← (headText_msg hv hd).1]
    exact (canonFields_iff hsel).2 hc

theorem usable_iff {s : Signature} {k : PublicKey E} {es kes : List (Bytes × TagEntry)} :
    Usable s k ↔ sanityCheck { s with tags := es } { k with tags := kes } = .ok () := by
  rw [sanityCheck_ok]
  exact ⟨fun h => ⟨h.1, h.2, h.3⟩, fun h => ⟨h.1, h.2.1, h.2.2⟩⟩

theorem accepts_iff {s : Signature} {k : PublicKey E} {es kes : List (Bytes × TagEntry)} {md : Bytes}
    (hb : s.alg = .ed25519 → 63 ≤ s.b.length) (hk : s.alg = .ed25519 → k.ed.length = 32) :
    Accepts E s k md ↔ PrimitiveAccepts E { s with tags := es } { k with tags := kes } md := by
  constructor
  · intro h
    cases h with
    | rsa key a b c => exact .rsa key a b c
    | ed a b =>
      have := hk a
      have e : (k.ed ++ [0]).take 32 = k.ed := by rw [List.take_append_of_le_length (by omega), List.take_of_length_le (by omega)]
      exact .ed a (hb a) (by simp only; omega) (by simp only [e]; exact b)
  · intro h
    cases h with
    | rsa key a b c => exact .rsa key a b c
    | ed a b c d =>
      have := hk a
      have e : (k.ed ++ [0]).take 32 = k.ed := by rw [List.take_append_of_le_length (by omega), List.take_of_length_le (by omega)]
      simp only [e] at d
      exact .ed a d

theorem keyFound_data {resolver : Bytes → Bool × Bytes} {s : Signature} {k : PublicKey E} (h : KeyFound E resolver s k) :
    (k.alg = .ed25519 → k.ed.length = 32) ∧ (k.alg = .rsa → k.rsa ≠ none) := by
  obtain ⟨kes, _, _, h3⟩ := h
  obtain ⟨p, _, _, hkd⟩ := h3.key
  generalize k.alg = a at hkd
  generalize k.ed = ke at hkd
  generalize k.rsa = kr at hkd
  cases hkd with
  | rsa _ key _ => exact ⟨(by intro h; cases h), (by intro _ h; cases h)⟩
  | ed _ hl => exact ⟨fun _ => hl, (by intro h; cases h)⟩

/-- The stages up to the key, as the code runs them. -/
theorem verifyOne_stage {d : Bytes} {type : ValidatorType} {v : Validatory} (hv : Validatory.mk' (freshStream d) type = .ok v)
    {h : Header} {now : Int} {er : Bool} {resolver : Bytes → Bool × Bytes} {es : List (Bytes × TagEntry)} {s : Signature}
    (ha : Acceptable E now er h es s) :
    (v.verifyOne E now resolver h er).1 =
      if BodyMatchesB : (v.checkBodyHash E s).1 = .ok () then
        match getPublicKey resolver { s with tags := es } ({} : PublicKey E) with
        | .error e _ => .error e
        | .ok () pub => checkSignature E v.msg h { s with tags := es } pub
      else .error (.perm .bodyHashMismatch .fail) := by
  have hp := acceptable_iff.1 ha
  unfold Validatory.verifyOne Validatory.getSignature
  rw [hp]
  simp only
  obtain ⟨s', _, hc⟩ := checkBodyHash_eq (E := E) v (mk'_built d type v hv).1.off { s with tags := es }
  obtain ⟨s2, _, hc2⟩ := checkBodyHash_eq (E := E) v (mk'_built d type v hv).1.off s
  rw [hc, hc2]
  have hb : hashedBody { s with tags := es } v = hashedBody s v := rfl
  simp only [hb]
  by_cases hx : s.bh = E.hash s.digest (hashedBody s v)
  · rw [if_pos hx, dif_pos rfl]
    simp only
    cases getPublicKey resolver { s with tags := es } ({} : PublicKey E) <;> rfl
  · rw [if_neg hx, dif_neg (by simp)]

theorem getPublicKey_answer {resolver : Bytes → Bool × Bytes} {s : Signature} {es : List (Bytes × TagEntry)} (h : (answer resolver s).1 = true) :
    (∃ k, KeyFound E resolver s k ∧ ∃ kes, getPublicKey resolver { s with tags := es } ({} : PublicKey E) = .ok () { k with tags := kes }) ∨
      (¬ ∃ k, KeyFound E resolver s k) ∧ ∃ r k, getPublicKey resolver { s with tags := es } ({} : PublicKey E) = .error (.perm r .permerror) k := by
  obtain ⟨_, _, c3, c4, c5⟩ := C42_lookup resolver { s with tags := es } ({} : PublicKey E)
  have hq : resolver (s.selector ++ b!"._domainkey." ++ s.domain) = answer resolver s := rfl
  simp only [hq] at c3 c4 c5
  by_cases hx : (answer resolver s).2 = []
  · refine .inr ⟨?_, c3 h hx⟩
    rintro ⟨k, kes, h1, h2, h3⟩
    obtain ⟨p, hp, _⟩ := h3.key
    rw [hx] at h1
    have hnil : TagText 0 [] [] := .done 0 [] (by intro c h; cases h)
    have := hnil.det h1 (by simp)
    subst this
    cases hp
  · have := c4 h hx
    cases hk : PublicKey.parse (answer resolver s).2 ({} : PublicKey E) with
    | ok u k =>
      left
      exact ⟨k, keyFound_iff.2 ⟨k.tags, hk⟩, k.tags, this.trans hk⟩
    | error e k =>
      right
      obtain ⟨r, rfl⟩ := c5 e k h (this.trans hk)
      refine ⟨?_, r, k, this.trans hk⟩
      rintro ⟨k', hk'⟩
      obtain ⟨kes, hk'⟩ := keyFound_iff.1 hk'
      rw [hk] at hk'; cases hk'

theorem headerHashInput_fails {now : Int} {er : Bool} {h : Header} {st : SigSt} (hp : Signature.parse E now h { erange := er } = .ok () st)
    (hlen : h.header.length < 2 ^ 31) {m : Message} {e : Err} (hi : headerHashInput m h st.sig = .error e) : ∃ r, e = .perm r .permerror := by
  unfold headerHashInput at hi
  cases h1 : headLoop st.sig.canonHeader (HeaderCache.fill m.headers) st.sig.headers with
  | error e => rw [h1] at hi; cases hi; exact headLoop_perm _ _ _ _ h1
  | ok x =>
    rw [h1] at hi
    simp only at hi
    obtain ⟨_, _, _, _, _, _, _, h4⟩ := stripB_parsed now h er st hp hlen
    rw [h4] at hi
    simp only at hi
    split at hi
    · rename_i h3; cases hi; exact filterHeader_perm _ _ _ h3
    · cases hi

/-- C68, one direction: the verdict specified is the one reported. -/
theorem decided_sound {d : Bytes} {type : ValidatorType} {v : Validatory} (hv : Validatory.mk' (freshStream d) type = .ok v)
    {h : Header} (hh : h ∈ v.sigs) (hlen : h.header.length < 2 ^ 31) {now : Int} {er : Bool} {resolver : Bytes → Bool × Bytes}
    {o : Ruling} (hd : Decided E now er resolver d h o) : ruling (v.verifyOne E now resolver h er).1 = some o := by
  -- the part after the key was found
  have late : ∀ es s k, Acceptable E now er h es s → BodyMatches E d s → (answer resolver s).1 = true → KeyFound E resolver s k →
      ∃ kes, (v.verifyOne E now resolver h er).1 = checkSignature E v.msg h { s with tags := es } { k with tags := kes } := by
    intro es s k h1 h2 h3 h4
    rw [verifyOne_stage hv h1, dif_pos ((bodyMatches_iff hv).1 h2)]
    rcases getPublicKey_answer (E := E) (es := es) h3 with ⟨k', q1, kes, q2⟩ | ⟨q1, _⟩
    · obtain ⟨kes', hk⟩ := keyFound_iff.1 h4
      obtain ⟨kes2, hk2⟩ := keyFound_iff.1 q1
      rw [hk] at hk2
      cases k; cases k'
      simp only [EStateM.Result.ok.injEq, PublicKey.mk.injEq, true_and] at hk2
      obtain ⟨_, rfl, rfl, rfl, rfl, rfl, rfl⟩ := hk2
      rw [q2]
      exact ⟨kes, rfl⟩
    · exact absurd ⟨k, h4⟩ q1
  cases hd with
  | badField hn =>
    cases hp : Signature.parse E now h { erange := er } with
    | ok u st =>
      exfalso
      obtain ⟨es, g1, g2, g3, g4, g5, _⟩ := (parse_ok_iff E now h er st).1 hp
      exact hn ⟨es, st.sig, g1, g2, claims_iff.2 g4, g5⟩
    | error e st =>
      obtain ⟨r, rfl⟩ := C25_fails_permanently E now h _ _ _ hp
      unfold Validatory.verifyOne Validatory.getSignature
      rw [hp]
      rfl
  | badBody es s h1 h2 =>
    rw [verifyOne_stage hv h1, dif_neg (fun hx => h2 ((bodyMatches_iff hv).2 hx))]
    rfl
  | noAnswer es s h1 h2 h3 =>
    rw [verifyOne_stage hv h1, dif_pos ((bodyMatches_iff hv).1 h2)]
    obtain ⟨_, c2, _⟩ := C42_lookup resolver { s with tags := es } ({} : PublicKey E)
    obtain ⟨r, k, hk⟩ := c2 h3
    rw [hk]
    rfl
  | badKey es s h1 h2 h3 h4 =>
    rw [verifyOne_stage hv h1, dif_pos ((bodyMatches_iff hv).1 h2)]
    rcases getPublicKey_answer (E := E) (es := es) h3 with ⟨k', q1, _⟩ | ⟨_, r, k, hk⟩
    · exact absurd ⟨k', q1⟩ h4
    · rw [hk]; rfl
  | unusable es s k h1 h2 h3 h4 h5 =>
    obtain ⟨kes, e⟩ := late es s k h1 h2 h3 h4
    rw [e]
    unfold checkSignature
    cases hs : sanityCheck { s with tags := es } { k with tags := kes } with
    | ok u => exact absurd (usable_iff.2 hs) h5
    | error e =>
      have : ∃ r, e = .perm r .permerror := by
        unfold sanityCheck at hs
        split at hs
        · cases hs; exact ⟨_, rfl⟩
        · split at hs
          · cases hs; exact ⟨_, rfl⟩
          · split at hs
            · cases hs; exact ⟨_, rfl⟩
            · cases hs
      obtain ⟨r, rfl⟩ := this
      rfl
  | noInput es s k h1 h2 h3 h4 h5 h6 =>
    obtain ⟨kes, e⟩ := late es s k h1 h2 h3 h4
    rw [e]
    unfold checkSignature
    rw [usable_iff.1 h5]
    simp only
    have hp := acceptable_iff.1 h1
    cases hi : headerHashInput v.msg h { s with tags := es } with
    | ok input => exact absurd ⟨input, (input_iff hv hh hlen hp).2 hi⟩ h6
    | error e =>
      obtain ⟨r, rfl⟩ := headerHashInput_fails hp hlen hi
      rfl
  | short es s k input h1 h2 h3 h4 h5 h6 h7 h8 =>
    obtain ⟨kes, e⟩ := late es s k h1 h2 h3 h4
    rw [e]
    unfold checkSignature
    rw [usable_iff.1 h5]
    simp only
    rw [(input_iff hv hh hlen (acceptable_iff.1 h1)).1 h6]
    simp only
    unfold verifyDigest readBuf
    simp only [h7]
    rw [if_neg (by omega)]
    rfl
  | reject es s k input h1 h2 h3 h4 h5 h6 h7 h8 =>
    obtain ⟨kes, e⟩ := late es s k h1 h2 h3 h4
    rw [e]
    obtain ⟨kd1, kd2⟩ := keyFound_data h4
    rw [← h5.alg] at kd1 kd2
    rw [accepts_iff (es := es) (kes := kes) h7 kd1] at h8
    unfold checkSignature
    rw [usable_iff.1 h5]
    simp only
    rw [(input_iff hv hh hlen (acceptable_iff.1 h1)).1 h6]
    simp only
    cases hvd : verifyDigest E { s with tags := es } { k with tags := kes } (E.hash s.digest input) with
    | ok u => exact absurd (verifyDigest_ok.1 hvd) h8
    | error e =>
      have : e = .perm .sigMismatch .fail := by
        unfold verifyDigest at hvd
        cases ha : s.alg with
        | rsa =>
          simp only [ha] at hvd
          cases hr : k.rsa with
          | none => exact absurd hr (kd2 ha)
          | some key =>
            simp only [hr] at hvd
            split at hvd
            · cases hvd
            · cases hvd; rfl
        | ed25519 =>
          simp only [ha] at hvd
          have l1 := h7 ha
          have l2 := kd1 ha
          rw [readBuf_ok.2 ⟨by omega, rfl⟩] at hvd
          simp only at hvd
          rw [readBuf_ok.2 ⟨by omega, rfl⟩] at hvd
          simp only at hvd
          split at hvd
          · cases hvd
          · cases hvd; rfl
      subst this
      rfl
  | accept es s k input h1 h2 h3 h4 h5 h6 h7 h8 =>
    obtain ⟨kes, e⟩ := late es s k h1 h2 h3 h4
    rw [e]
    obtain ⟨kd1, kd2⟩ := keyFound_data h4
    rw [← h5.alg] at kd1
    rw [accepts_iff (es := es) (kes := kes) h7 kd1] at h8
    unfold checkSignature
    rw [usable_iff.1 h5]
    simp only
    rw [(input_iff hv hh hlen (acceptable_iff.1 h1)).1 h6]
    simp only
    rw [verifyDigest_ok.2 h8]
    rfl

/-- C68: for every message, signature field, clock, resolver and key record there is a verdict. -/
theorem C68_total (now : Int) (er : Bool) (resolver : Bytes → Bool × Bytes) (d : Bytes) (h : Header) :
    ∃ o, Decided E now er resolver d h o := by
  by_cases h1 : ∃ es s, Acceptable E now er h es s
  · obtain ⟨es, s, h1⟩ := h1
    by_cases h2 : BodyMatches E d s
    · cases h3 : (answer resolver s).1 with
      | false => exact ⟨_, .noAnswer es s h1 h2 h3⟩
      | true =>
        by_cases h4 : ∃ k, KeyFound E resolver s k
        · obtain ⟨k, h4⟩ := h4
          by_cases h5 : Usable s k
          · by_cases h6 : ∃ input, Input d h es s input
            · obtain ⟨input, h6⟩ := h6
              by_cases h7 : s.alg = .ed25519 ∧ s.b.length < 63
              · exact ⟨_, .short es s k input h1 h2 h3 h4 h5 h6 h7.1 h7.2⟩
              · have h7' : s.alg = .ed25519 → 63 ≤ s.b.length := fun ha => by
                  apply Classical.byContradiction
                  intro hx; exact h7 ⟨ha, by omega⟩
                by_cases h8 : Accepts E s k (E.hash s.digest input)
                · exact ⟨_, .accept es s k input h1 h2 h3 h4 h5 h6 h7' h8⟩
                · exact ⟨_, .reject es s k input h1 h2 h3 h4 h5 h6 h7' h8⟩
            · exact ⟨_, .noInput es s k h1 h2 h3 h4 h5 h6⟩
          · exact ⟨_, .unusable es s k h1 h2 h3 h4 h5⟩
        · exact ⟨_, .badKey es s h1 h2 h3 h4⟩
    · exact ⟨_, .badBody es s h1 h2⟩
  · exact ⟨_, .badField h1⟩

/-- C68: the verification of a signature field of a message with fresh objects reports a verdict iff the specification gives it. -/
theorem C68_verdict (d : Bytes) (type : ValidatorType) (v : Validatory) (hv : Validatory.mk' (freshStream d) type = .ok v)
    (h : Header) (hh : h ∈ v.sigs) (hlen : h.header.length < 2 ^ 31) (now : Int) (er : Bool) (resolver : Bytes → Bool × Bytes) (o : Ruling) :
    ruling (v.verifyOne E now resolver h er).1 = some o ↔ Decided E now er resolver d h o := by
  refine ⟨fun hr => ?_, decided_sound hv hh hlen⟩
  obtain ⟨o', ho⟩ := C68_total (E := E) now er resolver d h
  have := decided_sound hv hh hlen ho
  rw [hr] at this
  cases this
  exact ho

/-- C43, exactly: the only undefined behaviour is the read beyond Ed25519 signature data of fewer than 63 bytes, and it happens whenever
everything else is in order. -/
theorem C43_exact (d : Bytes) (type : ValidatorType) (v : Validatory) (hv : Validatory.mk' (freshStream d) type = .ok v)
    (h : Header) (hh : h ∈ v.sigs) (hlen : h.header.length < 2 ^ 31) (now : Int) (er : Bool) (resolver : Bytes → Bool × Bytes) :
    (v.verifyOne E now resolver h er).1 = .error .ub ↔
      ∃ es s k input, Acceptable E now er h es s ∧ BodyMatches E d s ∧ (answer resolver s).1 = true ∧ KeyFound E resolver s k ∧
        Usable s k ∧ Input d h es s input ∧ s.alg = .ed25519 ∧ s.b.length < 63 := by
  have key : (v.verifyOne E now resolver h er).1 = .error .ub ↔ ruling (v.verifyOne E now resolver h er).1 = some .overread := by
    generalize (v.verifyOne E now resolver h er).1 = x
    unfold ruling
    split <;> simp_all
  rw [key, C68_verdict d type v hv h hh hlen]
  constructor
  · intro h
    cases h with
    | short es s k input h1 h2 h3 h4 h5 h6 h7 h8 => exact ⟨es, s, k, input, h1, h2, h3, h4, h5, h6, h7, h8⟩
  · rintro ⟨es, s, k, input, h1, h2, h3, h4, h5, h6, h7, h8⟩
    exact .short es s k input h1 h2 h3 h4 h5 h6 h7 h8

/-! ### Every verdict occurs -/

/-- The verdict on the first signature field of a sample message, with a bound on its size. -/
def Samples.rules (res : Bool × Bytes) (msg : Bytes) : Option Ruling :=
  match Validatory.mk' (freshStream msg) .dkim with
  | .error _ => none
  | .ok v =>
    match v.sigs with
    | [] => none
    | h :: _ => if h.header.length < 1000 then ruling (v.verifyOne toyEnv 0 (fun _ => res) h false).1 else none

theorem rules_decided {res : Bool × Bytes} {msg : Bytes} {o : Ruling} (h : Samples.rules res msg = some o) :
    ∃ f, Decided toyEnv 0 false (fun _ => res) msg f o := by
  unfold Samples.rules at h
  split at h
  · cases h
  · rename_i v hv
    split at h
    · cases h
    · rename_i f fs hf
      split at h
      · rename_i hl
        exact ⟨f, (C68_verdict msg .dkim v hv f (by rw [hf]; simp) (by omega) 0 false _ o).1 h⟩
      · cases h

theorem verdict_example :
    (∃ f, Decided toyEnv 0 false (fun _ => (true, Samples.rsaRec)) (Samples.signed Samples.rsaOpts Samples.message) f .pass) ∧
    (∃ f, Decided toyEnv 0 false (fun _ => (true, Samples.rsaRec)) (Samples.signed Samples.rsaOpts Samples.message ++ b!"x") f .fail) ∧
    (∃ f, Decided toyEnv 0 false (fun _ => (true, b!"p=")) (Samples.signed Samples.rsaOpts Samples.message) f .permerror) ∧
    (∃ f, Decided toyEnv 0 false (fun _ => (false, [])) (Samples.signed Samples.rsaOpts Samples.message) f .temperror) ∧
    (∃ f, Decided toyEnv 0 false (fun _ => (true, Samples.edRec))
      b!"DKIM-Signature: v=1; a=ed25519-sha256; d=d.e; s=s; h=from;\r\n bh=Ag0K; b=AAAA\r\nFrom: a\r\n\r\n" f .overread) :=
  ⟨rules_decided (by decide +kernel), rules_decided (by decide +kernel), rules_decided (by decide +kernel),
    rules_decided (by decide +kernel), rules_decided (by decide +kernel)⟩

end Dkim

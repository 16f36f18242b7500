import Verif.Proofs.Binding
/-!
# Property C56: a verified message is one the key holder signed

Spec: `Verif/Spec/Binding.lean`, `Verif/Spec/HashInput.lean`, `Verif/Spec/Body.lean`.
-/

namespace Dkim
open Spec

variable {E : Env}

/-- The message with text `d` was read into `v`, `h` is one of its signature header fields (shorter than 2 GiB), and
reading that field succeeded at some time and gave `sig`. -/
structure Spec.SigField (E : Env) (d : Bytes) (v : Validatory) (h : Header) (sig : Signature) : Prop where
  message : ∃ type, Validatory.mk' (freshStream d) type = .ok v
  field : h ∈ v.sigs
  size : h.header.length < 2 ^ 31
  parsed : ∃ now e0 st, Signature.parse E now h { erange := e0 } = .ok () st ∧ st.sig = sig

theorem Spec.SigField.built {d : Bytes} {v : Validatory} {h : Header} {sig : Signature} (R : SigField E d v h sig) :
    (∃ s', Message.parseAll {} (freshStream d) = .ok (v.msg, s')) ∧ h ∈ v.msg.headers ∧ h.name ≠ [] := by
  obtain ⟨type, hv⟩ := R.message
  obtain ⟨_, s', hp, _⟩ := mk'_built d type v hv
  have hf := R.field
  unfold Validatory.mk' at hv
  rw [hp] at hv
  simp only [Except.ok.injEq] at hv
  rw [← hv] at hf
  obtain ⟨h1, h2⟩ := List.mem_filter.1 hf
  refine ⟨⟨s', hp⟩, h1, ?_⟩
  intro hn
  cases type
  · rw [isSigHeader, hn] at h2; revert h2; decide
  · rw [isSigHeader, hn] at h2; revert h2; decide
  · cases h2

theorem lengthText_no_loose {v : Bytes} {n : Nat} (h : LengthText v n) : compact v = v := by
  have hd : ∀ c : Byte, IsDigit c → Spec.isLoose c = false := by
    unfold IsDigit; apply byte_forall; decide +kernel
  apply compact_id
  intro c hc
  cases h with
  | empty => simp at hc
  | plain ds hds => exact hd c (hds.2 c hc)
  | plus ds hds =>
    rcases List.mem_cons.1 hc with rfl | hc
    · decide
    · exact hd c (hds.2 c hc)
  | minus ds hds =>
    rcases List.mem_cons.1 hc with rfl | hc
    · decide
    · exact hd c (hds.2 c hc)

/-- What is known about the text that is hashed last. -/
structure Stripped (E : Env) (h : Header) (sig : Signature) (t : Bytes) (es : List (Bytes × TagEntry)) : Prop where
  tags : TagText 0 (valueText h) es
  nodup : (es.map Prod.fst).Nodup
  stored : sig.tags = es
  len : ∀ v, tagVal es b!"l" = some v → compact v = v
  legal : ∃ now, Legal E (isArcName h.name) now (tagVal es) sig
  strip : stripB h sig = .ok t
  colon : COLON ∈ t
  folded : WellFolded t
  squeezed : Squeezed (blankTag b!"b" es) (compact (fieldValue t))
  start : (∀ r, t ≠ CR :: LF :: r)
  starts : (∀ c ∈ h.header.head?, Spec.isWSP c = false) → StartsField t

theorem Spec.SigField.stripped {d : Bytes} {v : Validatory} {h : Header} {sig : Signature} (R : SigField E d v h sig) :
    ∃ t es, Stripped E h sig t es := by
  obtain ⟨⟨s', hp⟩, hmem, hne⟩ := R.built
  obtain ⟨now, e0, st, hpar, rfl⟩ := R.parsed
  obtain ⟨es, bval, before, after, h1, h2, h3, h4⟩ := stripB_parsed now h e0 st hpar R.size
  obtain ⟨es2, g1, g2, hst, L, _⟩ := (parse_ok_iff E now h e0 st).1 hpar
  have := g1.det h1 g2
  subst this
  obtain ⟨w1, w2, w3, w4, _⟩ := C22_fields d v.msg s' hp h hmem
  have hcol : COLON ∈ h.header := by
    apply Classical.byContradiction
    intro hc; exact hne (w4 hc).1
  obtain ⟨_, w5, _⟩ := w3 hcol
  have htake : h.header.take h.valueOffset = fieldName h.header ++ [COLON] := by
    apply List.append_cancel_right (bs := h.header.drop h.valueOffset)
    rw [List.take_append_drop]
    conv => lhs; rw [w5]
    simp
  have hnc : COLON ∉ fieldName h.header := by
    intro hm
    have := mem_takeWhile_imp hm
    simp at this
  obtain ⟨bv, hb, hbne, _⟩ := L.signature
  have hbv : bval ≠ [] := by
    obtain ⟨t, ht, rfl⟩ := tagVal_some.1 hb
    have := (getTag_eq_some_iff g2 _ _).2 h2
    rw [this] at ht
    cases ht
    exact hbne
  have hval := h1.value_ok _ _ h2
  have ht : h.header.take h.valueOffset ++ (before ++ after) = fieldName h.header ++ COLON :: (before ++ after) := by
    rw [htake]; simp
  have hhdr : h.header = fieldName h.header ++ COLON :: (before ++ bval ++ after) := by
    have : valueText h = h.header.drop h.valueOffset := rfl
    rw [← h3, this]; exact w5
  have hwf : WellFolded (fieldName h.header ++ COLON :: (before ++ after)) := by
    have := wellFolded_erase (a := fieldName h.header ++ COLON :: before) (v := bval) (b := after)
      (by rw [hhdr] at w1; simpa [fieldName_append hnc] using w1) hbv hval.2.1 hval.2.2
    simpa using this
  have hcr : ∀ r, fieldName h.header ++ COLON :: (before ++ after) ≠ CR :: LF :: r := by
    intro r he
    have hno := fields_not_crlf d v.msg s' hp h hmem
    generalize fieldName h.header = n at *
    match n with
    | [] => simp at he; exact absurd he.1 (by decide)
    | [a] => simp at he; exact absurd he.2.1 (by decide)
    | a :: b :: n =>
      simp at he
      exact hno _ (by rw [hhdr, he.1, he.2.1]; rfl)
  refine ⟨_, es, ⟨h1, g2, hst, ?_, ⟨now, L⟩, h4, ?_, ?_, ?_, ?_, ?_⟩⟩
  · intro w hw
    obtain ⟨es3, q1, q2⟩ := C27_accepted_forms E now h e0 st hpar
    have := g1.det q1 g2
    subst this
    exact lengthText_no_loose (q2 w hw)
  · rw [ht]; simp
  · rw [ht]; exact hwf
  · rw [ht, (fieldName_append hnc).2]
    exact h1.erased (before := before) (by simpa using h2) hbv h3 g2
  · rw [ht]; exact hcr
  · intro hst
    rw [ht]
    refine ⟨hwf, ?_⟩
    rw [hhdr] at hst
    generalize fieldName h.header = n at *
    match n with
    | [] => exact ⟨COLON, _, rfl, rfl⟩
    | a :: n => exact ⟨a, _, rfl, hst a (by simp)⟩

theorem blankTag_lookup (b n : Bytes) (h : n ≠ b) (es : List (Bytes × TagEntry)) :
    (blankTag b es).lookup n = (tagVal es n).map compact := by
  unfold tagVal blankTag
  induction es with
  | nil => rfl
  | cons e es ih =>
    rw [List.map_cons, List.lookup_cons, List.lookup_cons]
    by_cases he : n = e.1
    · subst he
      simp [h]
    · have : (n == e.1) = false := by simpa using he
      rw [this]
      exact ih

/-- Tags that agree up to white space, apart from b=. -/
def Spec.SameTags (es es' : List (Bytes × TagEntry)) : Prop :=
  ∀ n, n ≠ b!"b" → (tagVal es n).map compact = (tagVal es' n).map compact

theorem Spec.SameTags.get {es es' : List (Bytes × TagEntry)} (h : SameTags es es') {n a : Bytes} (hn : n ≠ b!"b")
    (ha : tagVal es n = some a) : ∃ a', tagVal es' n = some a' ∧ compact a = compact a' := by
  have := h n hn
  rw [ha] at this
  cases hb : tagVal es' n with
  | none => rw [hb] at this; cases this
  | some a' => rw [hb] at this; simp at this; exact ⟨a', rfl, this⟩

theorem Spec.AlgTag.compact_self {a : Bytes} {x : SigAlg} {y : DigestAlg} (h : AlgTag a x y) : compact a = a := by
  cases h <;> decide

theorem Spec.AlgTag.det {a a' : Bytes} {x x' : SigAlg} {y y' : DigestAlg} (h : AlgTag a x y) (h' : AlgTag a' x' y')
    (e : a = a') : x = x' ∧ y = y' := by
  cases h <;> cases h' <;> first | exact ⟨rfl, rfl⟩ | exact absurd e (by decide)

theorem Spec.CanonTag.compact_self {a : Bytes} {x y : CanonMode} (h : CanonTag (some a) x y) : compact a = a := by
  cases h with
  | head => cases x <;> decide
  | both => cases x <;> cases y <;> decide

theorem Spec.CanonTag.det {a : Option Bytes} {x y x' y' : CanonMode} (h : CanonTag a x y) (h' : CanonTag a x' y') :
    x = x' ∧ y = y' := by
  cases h with
  | absent => cases h'; exact ⟨rfl, rfl⟩
  | head =>
    generalize hz : some (canonName x) = z at h'
    cases h' with
    | absent => cases hz
    | head => simp at hz; revert hz; cases x <;> cases x' <;> decide
    | both => simp at hz; revert hz; cases x <;> cases x' <;> cases y' <;> decide
  | both =>
    generalize hz : some (canonName x ++ 47 :: canonName y) = z at h'
    cases h' with
    | absent => cases hz
    | head => simp at hz; revert hz; cases x <;> cases x' <;> cases y <;> decide
    | both => simp at hz; revert hz; cases x <;> cases x' <;> cases y <;> cases y' <;> decide

theorem stripped_same {h h' : Header} {sig sig' : Signature} {t t' : Bytes} {es es' : List (Bytes × TagEntry)}
    (S : Stripped E h sig t es) (S' : Stripped E h' sig' t' es') (he : compact (fieldValue t) = compact (fieldValue t')) :
    SameClaims sig sig' := by
  have hT : SameTags es es' := by
    have h1 := S.squeezed
    rw [he] at h1
    have := h1.det S'.squeezed
    intro n hn
    rw [← blankTag_lookup _ n hn, ← blankTag_lookup _ n hn, this]
  have hT' : SameTags es' es := fun n hn => (hT n hn).symm
  obtain ⟨now, L⟩ := S.legal
  obtain ⟨now', L'⟩ := S'.legal
  -- tag by tag
  obtain ⟨a, ha, hal⟩ := L.algorithm
  obtain ⟨a', ha', hal'⟩ := L'.algorithm
  have e1 : a = a' := by
    obtain ⟨x, hx, hc⟩ := Spec.SameTags.get hT (by decide) ha
    rw [ha'] at hx; cases hx
    rw [hal.compact_self, hal'.compact_self] at hc; exact hc
  subst e1
  have e2 : sig.alg = sig'.alg ∧ sig.digest = sig'.digest := by
    exact hal.det hal' rfl
  have e3 : tagVal es b!"c" = tagVal es' b!"c" := by
    have h1 := L.canon
    have h2 := L'.canon
    have h3 := hT b!"c" (by decide)
    generalize tagVal es b!"c" = x, tagVal es' b!"c" = y at *
    cases x <;> cases y
    · rfl
    · cases h3
    · cases h3
    · simp at h3
      rw [h1.compact_self, h2.compact_self] at h3
      rw [h3]
  have e4 := L.canon
  rw [e3] at e4
  obtain ⟨e5, e6⟩ := e4.det L'.canon
  have e7 : sig.bh = sig'.bh := by
    obtain ⟨b, hb, hbh⟩ := L.bodyHash
    obtain ⟨b', hb', hbh'⟩ := L'.bodyHash
    obtain ⟨x, hx, hc⟩ := Spec.SameTags.get hT (by decide) hb
    rw [hb'] at hx; cases hx
    have key : ∀ b : Bytes, b.filter (fun c => !Spec.isSpace c) = (compact b).filter (fun c => !Spec.isSpace c) := by
      intro b
      unfold compact
      rw [List.filter_filter]
      apply List.filter_congr
      have : ∀ c : Byte, (!Spec.isSpace c) = (!Spec.isSpace c && !Spec.isLoose c) := by
        apply byte_forall; decide +kernel
      intro c _
      exact this c
    rw [hbh, hbh', key b, key b', hc]
  have e8 : tagVal es b!"l" = tagVal es' b!"l" := by
    have h1 := S.len
    have h2 := S'.len
    have h3 := hT b!"l" (by decide)
    generalize tagVal es b!"l" = x, tagVal es' b!"l" = y at *
    cases x <;> cases y
    · rfl
    · cases h3
    · cases h3
    · simp at h3
      rw [h1 _ rfl, h2 _ rfl] at h3
      rw [h3]
  have e9 := L.length
  rw [e8] at e9
  have e10 : sig.bodySize = sig'.bodySize ∧ sig.bodySizeLimit = sig'.bodySizeLimit := by
    have h2 := L'.length
    generalize tagVal es' b!"l" = l at *
    generalize sig.bodySize = x, sig.bodySizeLimit = y at *
    generalize sig'.bodySize = x', sig'.bodySizeLimit = y' at *
    cases e9 with
    | absent => cases h2; exact ⟨rfl, rfl⟩
    | present v n _ hu _ =>
      cases h2 with
      | present v n' _ hu' _ =>
        rw [uLong_iff] at hu hu'
        rw [hu] at hu'
        simp at hu'
        exact ⟨hu', rfl⟩
  refine ⟨e2.1, e2.2, e5, e6, e7, e10.2, e10.1, ?_, ?_, ?_⟩
  · rw [S.stored, S'.stored]; exact hT
  · obtain ⟨x, hx, hd⟩ := L.domain
    obtain ⟨x', hx', hd'⟩ := L'.domain
    obtain ⟨y, hy, hc⟩ := Spec.SameTags.get hT (by decide) hx
    rw [hx'] at hy; cases hy
    have key : ∀ b : Bytes, compact (Spec.lower b) = Spec.lower (compact b) := by
      have : ∀ c : Byte, Spec.isLoose (Spec.toLower c) = Spec.isLoose c := by
        apply byte_forall; decide +kernel
      intro b
      unfold compact Spec.lower
      rw [List.filter_map]
      congr 1
      apply List.filter_congr
      intro c _
      simp only [Function.comp]
      rw [this]
    rw [hd, hd', key, key, hc]
  · obtain ⟨y, hy, hc⟩ := Spec.SameTags.get hT (by decide) L.selector
    rw [L'.selector] at hy; cases hy
    exact hc

/-- C56: the hash input determines what is claimed and covered. If two signature fields, each read in its own
message, give the same hash input, then they make the same claims and the fields they cover have the same canonical
forms, one by one. (With simple header canonicalization this is claimed for messages that do not begin with white
space, see C54.) -/
theorem C56_input_binds (d d' : Bytes) (v v' : Validatory) (h h' : Header) (sig sig' : Signature)
    (R : SigField E d v h sig) (R' : SigField E d' v' h' sig')
    (hd : sig.canonHeader = .simple ∨ sig'.canonHeader = .simple →
      (∀ c ∈ d.head?, Spec.isWSP c = false) ∧ (∀ c ∈ d'.head?, Spec.isWSP c = false))
    (x : Bytes) (hx : headerHashInput v.msg h sig = .ok x) (hx' : headerHashInput v'.msg h' sig' = .ok x) :
    SameClaims sig sig' ∧
    ∃ cs, CanonAll sig.canonHeader (selected v.msg.headers sig.headers) cs ∧
      CanonAll sig.canonHeader (selected v'.msg.headers sig'.headers) cs := by
  obtain ⟨t, es, S⟩ := R.stripped
  obtain ⟨t', es', S'⟩ := R'.stripped
  obtain ⟨⟨s, hp⟩, hmem, _⟩ := R.built
  obtain ⟨⟨s', hp'⟩, hmem', _⟩ := R'.built
  obtain ⟨cs, u, c, k1, k2, k3, k4⟩ := (headerHashInput_ok _ _ _ _).1 hx
  obtain ⟨cs', u', c', k1', k2', k3', k4'⟩ := (headerHashInput_ok _ _ _ _).1 hx'
  rw [S.strip] at k2; cases k2
  rw [S'.strip] at k2'; cases k2'
  rw [k4] at k4'
  have hparts : cs = cs' ∧ c = c' := by
    by_cases hm : sig.canonHeader = .simple ∨ sig'.canonHeader = .simple
    · obtain ⟨d1, d2⟩ := hd hm
      have hst : ∀ (d : Bytes) (m : Message) (s : IStream) (names : List Bytes) (mode : CanonMode) (cs : List Bytes),
          Message.parseAll {} (freshStream d) = .ok (m, s) → (∀ c ∈ d.head?, Spec.isWSP c = false) →
          CanonAll mode (selected m.headers names) cs → ∀ x ∈ cs, StartsField x := by
        intro d m s names mode cs hp hd hca x hx
        obtain ⟨f, hf, he⟩ := Spec.CanonAll.of_mem' hca x hx
        exact startsField_canon (fields_start d m s hp hd f (selected_mem hf))
          (fun r => fields_not_crlf d m s hp f (selected_mem hf) r) he
      have hsf : ∀ {d : Bytes} {m : Message} {s : IStream} {f : Header},
          Message.parseAll {} (freshStream d) = .ok (m, s) → (∀ c ∈ d.head?, Spec.isWSP c = false) → f ∈ m.headers →
          ∀ c ∈ f.header.head?, Spec.isWSP c = false := by
        intro d m s f hp hd hf
        obtain ⟨_, y, r, e, hy⟩ := fields_start d m s hp hd f hf
        rw [e]
        intro c hc
        simp at hc
        exact hc ▸ hy
      exact parts_folded (hst d _ s _ _ cs hp d1 k1) (hst d' _ s' _ _ cs' hp' d2 k1')
        (startsField_canon (S.starts (hsf hp d1 hmem)) S.start k3)
        (startsField_canon (S'.starts (hsf hp' d2 hmem')) S'.start k3') k4'
    · simp only [not_or] at hm
      have r1 : sig.canonHeader = .relaxed := by cases h1 : sig.canonHeader <;> simp_all
      have r2 : sig'.canonHeader = .relaxed := by cases h1 : sig'.canonHeader <;> simp_all
      rw [r1] at k1 k3
      rw [r2] at k1' k3'
      apply parts_noLF _ _ (relaxed_no_LF _ _ S.folded k3) (relaxed_no_LF _ _ S'.folded k3') k4'
      · intro y hy
        obtain ⟨f, hf, he⟩ := Spec.CanonAll.of_mem' k1 y hy
        exact relaxed_no_LF _ _ (C22_fields d _ s hp f (selected_mem hf)).1 he
      · intro y hy
        obtain ⟨f, hf, he⟩ := Spec.CanonAll.of_mem' k1' y hy
        exact relaxed_no_LF _ _ (C22_fields d' _ s' hp' f (selected_mem hf)).1 he
  obtain ⟨rfl, rfl⟩ := hparts
  obtain ⟨n, cv, e1, e2, e3⟩ := canon_value S.folded S.colon k3
  obtain ⟨n', cv', e1', e2', e3'⟩ := canon_value S'.folded S'.colon k3'
  have hcv : cv = cv' := by
    rw [e1] at e1'
    exact (split_first e2 e2' e1').2
  subst hcv
  have hsame := stripped_same S S' (e3.symm.trans e3')
  refine ⟨hsame, cs, k1, ?_⟩
  rw [hsame.canonHeader]
  exact k1'

/-- The message with text `d`, carrying the signature field `h` with the right body hash, is hashed to `x`. -/
structure Spec.SignedAs (E : Env) (d : Bytes) (v : Validatory) (h : Header) (sig : Signature) (x : Bytes) : Prop where
  read : SigField E d v h sig
  starts : ∀ c ∈ d.head?, Spec.isWSP c = false
  body : (v.checkBodyHash E sig).1 = .ok ()
  input : headerHashInput v.msg h sig = .ok x

/-- The parts of a successful verification. -/
theorem verifyOne_ok (d : Bytes) (type : ValidatorType) (v : Validatory) (hv : Validatory.mk' (freshStream d) type = .ok v)
    (now : Int) (resolver : Bytes → Bool × Bytes) (h : Header) (er : Bool) (st : SigSt) (pub : PublicKey E) (v1 : Validatory)
    (hok : v.verifyOne E now resolver h er = (.ok (), st, pub, v1)) :
    Signature.parse E now h { erange := er } = .ok () st ∧ (v.checkBodyHash E st.sig).1 = .ok () ∧
      getPublicKey resolver st.sig ({} : PublicKey E) = .ok () pub ∧ checkSignature E v.msg h st.sig pub = .ok () := by
  unfold Validatory.verifyOne Validatory.getSignature at hok
  cases hp : Signature.parse E now h { erange := er } with
  | error e st' => rw [hp] at hok; simp at hok
  | ok u st' =>
    rw [hp] at hok
    simp only at hok
    have hb := (mk'_built d type v hv).1
    obtain ⟨s', hs', hc⟩ := checkBodyHash_eq (E := E) v hb.off st'.sig
    cases hbody : v.checkBodyHash E st'.sig with
    | mk r v' =>
      rw [hbody] at hok
      cases r with
      | error e => simp at hok
      | ok u =>
        simp only at hok
        cases hk : getPublicKey resolver st'.sig ({} : PublicKey E) with
        | error e pub' => rw [hk] at hok; simp at hok
        | ok u pub' =>
          rw [hk] at hok
          simp only [Prod.mk.injEq] at hok
          obtain ⟨hcs, rfl, rfl, rfl⟩ := hok
          have hmsg : v'.msg = v.msg := by
            rw [hc] at hbody
            simp only [Prod.mk.injEq] at hbody
            rw [← hbody.2]
          rw [hmsg] at hcs
          exact ⟨rfl, by rw [hbody], hk, hcs⟩

/-- C56: `history d0 h0` says that the holder of the key signed message `d0` under the signature field `h0`; it may
be any set of messages and fields. If verification of a signature field in a message succeeds, and the signature data
is accepted by the primitive only for digests of hash inputs from that history, then the history contains a message
with the same claims, the same covered fields (canonically) and the same body (canonically, up to l=) - or the digest function has
a collision. -/
theorem C56_authentic (now : Int) (resolver : Bytes → Bool × Bytes) (d : Bytes) (type : ValidatorType) (v : Validatory)
    (hv : Validatory.mk' (freshStream d) type = .ok v) (hd : ∀ c ∈ d.head?, Spec.isWSP c = false)
    (h : Header) (hh : h ∈ v.sigs) (hsz : h.header.length < 2 ^ 31) (er : Bool)
    (st : SigSt) (pub : PublicKey E) (v1 : Validatory)
    (hok : v.verifyOne E now resolver h er = (.ok (), st, pub, v1))
    (history : Bytes → Header → Prop)
    (unforgeable : ∀ md, PrimitiveAccepts E st.sig pub md →
      ∃ d0 v0 h0 sig0 x0, history d0 h0 ∧ SignedAs E d0 v0 h0 sig0 x0 ∧ md = E.hash st.sig.digest x0) :
    (∃ d0 v0 h0 sig0 x0 cs, history d0 h0 ∧ SignedAs E d0 v0 h0 sig0 x0 ∧ SameClaims sig0 st.sig ∧
      CanonAll st.sig.canonHeader (selected v0.msg.headers sig0.headers) cs ∧
      CanonAll st.sig.canonHeader (selected v.msg.headers st.sig.headers) cs ∧
      cap st.sig.bodySizeLimit st.sig.bodySize (Spec.canonBody st.sig.canonBody (bodyPart d0 v0.msg.bodyOffset)) =
        cap st.sig.bodySizeLimit st.sig.bodySize (Spec.canonBody st.sig.canonBody (bodyPart d v.msg.bodyOffset))) ∨
    ∃ x y, Collision E st.sig.digest x y := by
  obtain ⟨hp, hbody, _, hcs⟩ := verifyOne_ok d type v hv now resolver h er st pub v1 hok
  obtain ⟨_, x, hx, px⟩ := (C36_success_iff _ _ _ _).1 hcs
  obtain ⟨d0, v0, h0, sig0, x0, hist, hsig, hmd⟩ := unforgeable _ px
  by_cases hxx : x = x0
  · subst hxx
    have R : SigField E d v h st.sig := ⟨⟨type, hv⟩, hh, hsz, now, er, st, hp, rfl⟩
    obtain ⟨hclaims, cs, q1, q2⟩ := C56_input_binds d0 d v0 v h0 h sig0 st.sig hsig.read R
      (fun _ => ⟨hsig.starts, hd⟩) x hsig.input hx
    obtain ⟨type0, hv0⟩ := hsig.read.message
    have b1 := (C39_accepts_iff d0 type0 v0 hv0 sig0).1 hsig.body
    have b2 := (C39_accepts_iff d type v hv st.sig).1 hbody
    rw [hclaims.bodyHash, hclaims.digest, hclaims.limited, hclaims.limit, hclaims.canonBody, b2] at b1
    rw [hclaims.canonHeader] at q1 q2
    by_cases hbb : cap st.sig.bodySizeLimit st.sig.bodySize (Spec.canonBody st.sig.canonBody (bodyPart d0 v0.msg.bodyOffset)) =
      cap st.sig.bodySizeLimit st.sig.bodySize (Spec.canonBody st.sig.canonBody (bodyPart d v.msg.bodyOffset))
    · exact Or.inl ⟨d0, v0, h0, sig0, x, cs, hist, hsig, hclaims, q1, q2, hbb⟩
    · exact Or.inr ⟨_, _, hbb, b1.symm⟩
  · exact Or.inr ⟨x, x0, hxx, hmd⟩

/-! ### non-vacuity -/

namespace Samples

/-- The sample message signed with RSA. -/
def original : Bytes := signed rsaOpts message

/-- Hash input and body check of the first signature field. -/
def firstInput (d : Bytes) : Option (Except Err Bytes × Except Err Unit) :=
  match Validatory.mk' (freshStream d) .dkim with
  | .error _ => none
  | .ok v =>
    match v.sigs with
    | [] => none
    | h :: _ =>
      match Signature.parse toyEnv 0 h {} with
      | .error _ _ => none
      | .ok () st => some (headerHashInput v.msg h st.sig, (v.checkBodyHash toyEnv st.sig).1)

/-- Every signature field is short and readable, with RSA. -/
def sigChecks (d : Bytes) : Bool :=
  match Validatory.mk' (freshStream d) .dkim with
  | .error _ => false
  | .ok v => v.sigs.all (fun h => decide (h.header.length < 2 ^ 31) &&
      match Signature.parse toyEnv 0 h {} with
      | .error _ _ => false
      | .ok () st => decide (st.sig.alg = .rsa))

/-- A copy with the signature field refolded at other places and its signature data spaced out, an unsigned field on
top, `From` folded and `To` unfolded, and blank lines at the end of the body. -/
def relayed : Bytes :=
  b!"Received: r\r\nDKIM-SIGNATURE :  v=1;  a=rsa-sha256;\r\n c=relaxed/simple; d=d.e;\r\n\ts=s; h=to:from:to; bh=AkhpDQo=; b=Bw\r\n J0bzp5LCB6DQpmcm9tOmFAYi5jDQp0bzp4DQpka2ltLXNpZ25hdHVyZTp2PTE7IGE9cnNhLXNoY TI1NjsgYz1yZWxheGVkL3NpbXBsZTsgZD1kLmU7IHM9czsgaD10bzpmcm9tOnRvOyBiaD1Ba2hwRFFvPTsgYj0=\r\nTo: x\r\nFROM:\r\n a@b.c\r\nTo: y,  z\r\n\r\nHi\r\n\r\n\r\n"

/-- The hash input of both. -/
def bothInput : Bytes :=
  b!"to:y, z\r\nfrom:a@b.c\r\nto:x\r\ndkim-signature:v=1; a=rsa-sha256; c=relaxed/simple; d=d.e; s=s; h=to:from:to; bh=AkhpDQo=; b="

theorem original_ne_relayed : original ≠ relayed := by decide +kernel

theorem original_input : firstInput original = some (.ok bothInput, .ok ()) := by decide +kernel

theorem relayed_input : firstInput relayed = some (.ok bothInput, .ok ()) := by decide +kernel

theorem relayed_verifies : verify rsaRec relayed = some (.ok ()) := by decide +kernel

theorem original_checks : sigChecks original = true := by decide +kernel

theorem relayed_checks : sigChecks relayed = true := by decide +kernel

theorem original_head : original.head? = some 68 := by decide +kernel

/-- From the computed checks to `SignedAs`. -/
theorem signedAs_of_checks (d x : Bytes) (hi : firstInput d = some (.ok x, .ok ())) (hc : sigChecks d = true)
    (h0 : d.head? = some 68) : ∃ v h sig, SignedAs toyEnv d v h sig x := by
  obtain ⟨v, _, _, hv, _⟩ := C41_discovery d .dkim
  unfold firstInput at hi
  unfold sigChecks at hc
  rw [hv] at hi hc
  simp only at hi hc
  cases hs : v.sigs with
  | nil => rw [hs] at hi; cases hi
  | cons h l =>
    rw [hs] at hi
    have hc := List.all_eq_true.1 hc h (by rw [hs]; simp)
    simp only at hi
    cases hp : Signature.parse toyEnv 0 h {} with
    | error e st => rw [hp] at hi; cases hi
    | ok u st =>
      rw [hp] at hi hc
      simp only [Option.some.injEq, Prod.mk.injEq] at hi
      simp only [Bool.and_eq_true, decide_eq_true_eq] at hc
      refine ⟨v, h, st.sig, ⟨⟨⟨_, hv⟩, by rw [hs]; simp, hc.1, 0, false, st, hp, rfl⟩, ?_, hi.2, hi.1⟩⟩
      rw [h0]; intro c hc; simp at hc; subst hc; rfl

/-- The history of a signer who signed just `original`. -/
def onlyOriginal (d : Bytes) (_ : Header) : Prop := d = original

/-- The hypotheses of `C56_authentic` are met by `relayed`, a different message than the one signed. -/
example : ∃ v h st pub v1, Validatory.mk' (freshStream relayed) .dkim = .ok v ∧ h ∈ v.sigs ∧
    h.header.length < 2 ^ 31 ∧
    v.verifyOne toyEnv 0 (fun _ => (true, rsaRec)) h false = (.ok (), st, pub, v1) ∧
    (∀ md, PrimitiveAccepts toyEnv st.sig pub md →
      ∃ d0 v0 h0 sig0 x0, onlyOriginal d0 h0 ∧ SignedAs toyEnv d0 v0 h0 sig0 x0 ∧ md = toyEnv.hash st.sig.digest x0) := by
  obtain ⟨v, _, _, hv, _⟩ := C41_discovery relayed .dkim
  have hver := relayed_verifies
  have hi := relayed_input
  have hc := relayed_checks
  unfold Samples.verify at hver
  unfold firstInput at hi
  unfold sigChecks at hc
  have e : ({ data := relayed } : IStream) = freshStream relayed := rfl
  rw [e, hv] at hver
  rw [hv] at hi hc
  simp only at hver hi hc
  cases hs : v.sigs with
  | nil => rw [hs] at hver; cases hver
  | cons h l =>
    have hc := List.all_eq_true.1 hc h (by rw [hs]; simp)
    rw [hs] at hver hi
    simp only [Option.some.injEq] at hver hi
    cases hr : v.verifyOne toyEnv 0 (fun _ => (true, rsaRec)) h false with
    | mk r q =>
      obtain ⟨st, pub, v1⟩ := q
      rw [hr] at hver
      simp only at hver
      subst hver
      obtain ⟨hp, hbody, _, hcs⟩ := verifyOne_ok relayed .dkim v hv 0 _ h false st pub v1 hr
      rw [hp] at hi hc
      simp only [Option.some.injEq, Prod.mk.injEq] at hi
      simp only [Bool.and_eq_true, decide_eq_true_eq] at hc
      refine ⟨v, h, st, pub, v1, hv, by rw [hs]; simp, hc.1, hr, ?_⟩
      obtain ⟨_, x, hx, px⟩ := (C36_success_iff _ _ _ _).1 hcs
      rw [hi.1] at hx
      cases hx
      intro md hmd
      obtain ⟨v0, h0, sig0, hs0⟩ := signedAs_of_checks _ _ original_input original_checks original_head
      refine ⟨original, v0, h0, sig0, bothInput, rfl, hs0, ?_⟩
      have hrsa : ∀ y, PrimitiveAccepts toyEnv st.sig pub y → ∃ k : Byte, st.sig.b = k :: y := by
        intro y hy
        cases hy with
        | rsa key _ _ hv => exact ⟨_, by simpa [toyEnv] using hv⟩
        | ed ha => rw [hc.2] at ha; cases ha
      obtain ⟨k, hk⟩ := hrsa _ hmd
      obtain ⟨k', hk'⟩ := hrsa _ px
      rw [hk] at hk'
      simp at hk'
      exact hk'.2

end Samples

end Dkim

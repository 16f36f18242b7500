import Verif.Props.Verdict
/-!
# Properties C69–C71: what the result of verification does not depend on

C69: the clock, except for expiry. C70: the resolver, except for one name, and only after the body hash matched. C71: the order of tags and
unknown tags.
-/

namespace Dkim
open Spec

variable {E : Env}

/-! ## C69 -/

/-- `Signature::Parse` up to the expiry check. -/
def parseTimeless (E : Env) (h : Header) : SigM Unit := do
  sigTagList (h.header.drop h.valueOffset)
  sigArc h.name
  sigD
  sigV
  sigA
  sigB E
  sigBH E
  sigC
  sigH
  sigI
  sigL
  sigQ
  sigS

theorem parse_timeless (E : Env) (now : Int) (h : Header) : Signature.parse E now h = (parseTimeless E h >>= fun _ => sigX now) := by
  unfold Signature.parse parseTimeless
  simp only [bind_assoc]

theorem sigX_eq (now : Int) (st : SigSt) : sigX now st =
    match st.sig.tags.getTag b!"x" with
    | none => .ok () st
    | some x => if (strtol (cstr x.value)).1 < now then
        .error (.p .expired) { st with erange := st.erange || (strtol (cstr x.value)).2 }
      else .ok () { st with erange := st.erange || (strtol (cstr x.value)).2 } := by
  unfold sigX
  rw [es_bind, (sigTag_ok _ _ _ _).2 ⟨rfl, rfl⟩, esBind_ok]
  cases st.sig.tags.getTag b!"x" with
  | none => rfl
  | some x =>
    simp only
    rw [es_bind]
    show esBind (.ok () _) _ = _
    rw [esBind_ok]
    simp only
    split <;> rfl

theorem parseTimeless_tags (h : Header) (er : Bool) (st : SigSt) (hp : parseTimeless E h { erange := er } = .ok () st) :
    ∃ es, TagText 0 (valueText h) es ∧ (es.map Prod.fst).Nodup ∧ st.sig.tags = es := by
  -- the expiry check cannot fail at the beginning of time
  obtain ⟨t, ht⟩ : ∃ t : Int, ∀ x, st.sig.tags.getTag b!"x" = some x → t ≤ (strtol (cstr x.value)).1 := by
    cases st.sig.tags.getTag b!"x" with
    | none => exact ⟨0, by simp⟩
    | some x => exact ⟨(strtol (cstr x.value)).1, by rintro _ ⟨⟩; omega⟩
  have : ∃ st', Signature.parse E t h { erange := er } = .ok () st' ∧ st'.sig = st.sig := by
    rw [parse_timeless, es_bind, hp, esBind_ok, sigX_eq]
    cases hx : st.sig.tags.getTag b!"x" with
    | none => exact ⟨_, rfl, rfl⟩
    | some x =>
      simp only
      rw [if_neg (by have := ht x hx; omega)]
      exact ⟨_, rfl, rfl⟩
  obtain ⟨st', h1, h2⟩ := this
  obtain ⟨es, g1, g2, g3, _⟩ := (parse_ok_iff E t h er st').1 h1
  exact ⟨es, g1, g2, h2 ▸ g3⟩

/-- Two times between which no x= time of the field lies: both are before or at it, or both are after it. -/
def Spec.SameSide (h : Header) (now now' : Int) : Prop :=
  ∀ es, TagText 0 (valueText h) es → ∀ x, tagVal es b!"x" = some x → ∀ time o, SLong x time o → (now ≤ time ↔ now' ≤ time)

theorem parse_clock (h : Header) (er : Bool) (now now' : Int) (hs : SameSide h now now') :
    Signature.parse E now h { erange := er } = Signature.parse E now' h { erange := er } := by
  rw [parse_timeless, parse_timeless, es_bind, es_bind]
  cases hp : parseTimeless E h { erange := er } with
  | error e st => rfl
  | ok u st =>
    rw [esBind_ok, esBind_ok, sigX_eq, sigX_eq]
    obtain ⟨es, h1, h2, h3⟩ := parseTimeless_tags h er st hp
    cases hx : st.sig.tags.getTag b!"x" with
    | none => rfl
    | some x =>
      simp only
      rw [h3] at hx
      have hc : cstr x.value = x.value := cstr_eq (h1.no_nul _ _ (getTag_mem hx))
      rw [hc]
      have := hs es h1 x.value (by rw [tagVal_some]; exact ⟨x, hx, rfl⟩) (strtol x.value).1 (strtol x.value).2 (sLong_iff.2 rfl)
      by_cases hlt : (strtol x.value).1 < now
      · rw [if_pos hlt, if_pos (by omega)]
      · rw [if_neg hlt, if_neg (by omega)]

/-- C69: verification gives the same result (outcome, objects, everything) at two times between which the field does not expire. -/
theorem C69_clock (v : Validatory) (resolver : Bytes → Bool × Bytes) (h : Header) (er : Bool) (now now' : Int) (hs : SameSide h now now') :
    v.verifyOne E now resolver h er = v.verifyOne E now' resolver h er := by
  unfold Validatory.verifyOne Validatory.getSignature
  rw [parse_clock h er now now' hs]

/-- C69: in particular the clock has no influence on fields without x=. -/
theorem C69_no_expiry (v : Validatory) (resolver : Bytes → Bool × Bytes) (h : Header) (er : Bool) (now now' : Int)
    (hx : ∀ es, TagText 0 (valueText h) es → b!"x" ∉ es.map Prod.fst) :
    v.verifyOne E now resolver h er = v.verifyOne E now' resolver h er := by
  refine C69_clock v resolver h er now now' ?_
  intro es hes x hxv
  exfalso
  obtain ⟨t, ht, _⟩ := tagVal_some.1 hxv
  exact hx es hes ((getTag_isSome_iff es _).1 (by rw [ht]; rfl))

/-- C69: what verifies now verified at every earlier time. -/
theorem C69_earlier (v : Validatory) (resolver : Bytes → Bool × Bytes) (h : Header) (er : Bool) (now now' : Int) (hle : now ≤ now')
    (hok : (v.verifyOne E now' resolver h er).1 = .ok ()) :
    v.verifyOne E now resolver h er = v.verifyOne E now' resolver h er := by
  refine C69_clock v resolver h er now now' ?_
  unfold Validatory.verifyOne Validatory.getSignature at hok
  cases hp : Signature.parse E now' h { erange := er } with
  | error e st => rw [hp] at hok; cases hok
  | ok u st =>
    obtain ⟨es, h1, h2, _, L, _⟩ := (parse_ok_iff E now' h er st).1 hp
    intro es' hes' x hx time o htime
    have := h1.det hes' h2
    subst this
    obtain ⟨time', o', g1, g2⟩ := L.notExpired x hx
    have e1 := sLong_iff.1 htime
    have e2 := sLong_iff.1 g1
    rw [e1] at e2
    cases e2
    constructor <;> intro _ <;> omega

/-! ## C70 -/

/-- C70: the resolver's answers to names other than selector._domainkey.domain (the s= tag and the lower-cased d= tag) have no influence. -/
theorem C70_one_name (v : Validatory) (r1 r2 : Bytes → Bool × Bytes) (h : Header) (er : Bool) (now : Int)
    (hr : ∀ es, TagText 0 (valueText h) es → ∀ sel dom, tagVal es b!"s" = some sel → tagVal es b!"d" = some dom →
      r1 (sel ++ b!"._domainkey." ++ Spec.lower dom) = r2 (sel ++ b!"._domainkey." ++ Spec.lower dom)) :
    v.verifyOne E now r1 h er = v.verifyOne E now r2 h er := by
  unfold Validatory.verifyOne Validatory.getSignature
  cases hp : Signature.parse E now h { erange := er } with
  | error e st => rfl
  | ok u st =>
    simp only
    obtain ⟨es, h1, h2, _, L, _⟩ := (parse_ok_iff E now h er st).1 hp
    obtain ⟨dom, hd1, hd2⟩ := L.domain
    have key := hr es h1 _ _ L.selector hd1
    have hg : ∀ k : PublicKey E, getPublicKey r1 st.sig k = getPublicKey r2 st.sig k := by
      intro k
      refine C42_query_name r1 r2 st.sig k ?_
      rw [hd2]
      exact key
    cases v.checkBodyHash E st.sig with
    | mk r v' =>
      cases r with
      | error e => rfl
      | ok u =>
        simp only
        rw [hg]

/-- C70: for an unacceptable field, and if bh= does not match the body, no answer has any influence: nothing is asked. -/
theorem C70_not_asked (d : Bytes) (type : ValidatorType) (v : Validatory) (hv : Validatory.mk' (freshStream d) type = .ok v)
    (h : Header) (er : Bool) (now : Int) (hn : ∀ es s, Acceptable E now er h es s → ¬ BodyMatches E d s) (r1 r2 : Bytes → Bool × Bytes) :
    v.verifyOne E now r1 h er = v.verifyOne E now r2 h er := by
  unfold Validatory.verifyOne Validatory.getSignature
  cases hp : Signature.parse E now h { erange := er } with
  | error e st => rfl
  | ok u st =>
    simp only
    obtain ⟨es, h1, h2, _, L, h5, _⟩ := (parse_ok_iff E now h er st).1 hp
    have hb := hn es st.sig ⟨h1, h2, claims_iff.2 L, h5⟩
    rw [bodyMatches_iff hv] at hb
    cases hc : v.checkBodyHash E st.sig with
    | mk r v' =>
      rw [hc] at hb
      cases r with
      | ok u => exact absurd rfl hb
      | error e => rfl

/-! ## C71 -/

/-- The tags of a signature field that have a meaning. -/
def Spec.sigTagNames : List Bytes :=
  [b!"v", b!"a", b!"b", b!"bh", b!"c", b!"d", b!"h", b!"i", b!"l", b!"q", b!"s", b!"x"]
/-- The tags of a key record that have a meaning. -/
def Spec.keyTagNames : List Bytes := [b!"v", b!"h", b!"k", b!"p", b!"s", b!"t"]

theorem Spec.Legal.congr {arc : Bool} {now : Int} {tag tag' : Bytes → Option Bytes} {s : Signature} (L : Legal E arc now tag s)
    (h : ∀ n ∈ sigTagNames, tag' n = tag n) : Legal E arc now tag' s := by
  have hv := h b!"v" (by decide)
  have ha := h b!"a" (by decide)
  have hb := h b!"b" (by decide)
  have hbh := h b!"bh" (by decide)
  have hc := h b!"c" (by decide)
  have hd := h b!"d" (by decide)
  have hh := h b!"h" (by decide)
  have hi := h b!"i" (by decide)
  have hl := h b!"l" (by decide)
  have hq := h b!"q" (by decide)
  have hs := h b!"s" (by decide)
  have hx := h b!"x" (by decide)
  obtain ⟨h1, h2, h3, h4, h5, h6, h7, h8, h9, h10, h11, h12, h13, h14, h15⟩ := L
  refine ⟨h1, ?_, ?_, ?_, ?_, ?_, ?_, ?_, ?_, h10, ?_, ?_, ?_, ?_, ?_⟩
  · rw [hv]; exact h2
  · rw [hd]; exact h3
  · rw [hs]; exact h4
  · rw [ha]; exact h5
  · rw [hb]; exact h6
  · rw [hbh]; exact h7
  · rw [hc]; exact h8
  · rw [hh]; exact h9
  · rw [hi]; exact h11
  · rw [hi]; exact h12
  · rw [hl]; exact h13
  · rw [hq]; exact h14
  · rw [hx]; exact h15

/-- C71: acceptance of a signature field and what the getters return depend only on the values of the tags that have a meaning: not on the
order of the tags, the white space around them, or any other tag. -/
theorem C71_signature (now : Int) (h h' : Header) (er : Bool) (es es' : List (Bytes × TagEntry))
    (ht : TagText 0 (valueText h) es) (ht' : TagText 0 (valueText h') es') (hn' : (es'.map Prod.fst).Nodup)
    (hk : isArcName h'.name = isArcName h.name) (hv : ∀ n ∈ sigTagNames, tagVal es' n = tagVal es n) (st : SigSt)
    (hp : Signature.parse E now h { erange := er } = .ok () st) :
    Signature.parse E now h' { erange := er } = .ok () { st with sig := { st.sig with tags := es' } } := by
  obtain ⟨es1, g1, g2, g3, L, g5, g6⟩ := (parse_ok_iff E now h er st).1 hp
  have := g1.det ht g2
  subst this
  refine (parse_ok_iff E now h' er _).2 ⟨es', ht', hn', rfl, ?_, ?_, ?_⟩
  · rw [hk]; exact (L.congr hv).tags_irrelevant es'
  · intro he; rw [hv _ (by decide)]; exact g5 he
  · simp only [g6]
    have hx := hv b!"x" (by decide)
    unfold xRange
    rw [tagVal_eq, tagVal_eq] at hx
    cases h1 : TagList.getTag es' b!"x" with
    | none =>
      rw [h1] at hx
      cases h2 : TagList.getTag es b!"x" with
      | none => rfl
      | some t => rw [h2] at hx; cases hx
    | some t' =>
      rw [h1] at hx
      cases h2 : TagList.getTag es b!"x" with
      | none => rw [h2] at hx; cases hx
      | some t =>
        rw [h2] at hx
        simp only [Option.map_some, Option.some.injEq] at hx
        simp only [hx]

/-- C71: the same for key records. -/
theorem C71_key (txt txt' : Bytes) (es es' : List (Bytes × TagEntry)) (ht : TagText 0 txt es) (ht' : TagText 0 txt' es')
    (hn' : (es'.map Prod.fst).Nodup) (hv : ∀ n ∈ keyTagNames, tagVal es' n = tagVal es n) (k : PublicKey E)
    (hp : PublicKey.parse txt ({} : PublicKey E) = .ok () k) :
    PublicKey.parse txt' ({} : PublicKey E) = .ok () { k with tags := es' } := by
  obtain ⟨es1, g1, g2, g3, ⟨L1, L2, L3, L4, L5, L6⟩, g5⟩ := (keyParse_ok_iff txt k).1 hp
  have := g1.det ht g2
  subst this
  refine (keyParse_ok_iff txt' _).2 ⟨es', ht', hn', rfl, ⟨?_, ?_, ?_, ?_, ?_, ?_⟩, ?_⟩
  · rw [hv b!"v" (by decide)]; exact L1
  · rw [hv b!"h" (by decide)]; exact L2
  · rw [hv b!"k" (by decide)]; exact L3
  · rw [hv b!"p" (by decide)]; exact L4
  · rw [hv b!"s" (by decide)]; exact L5
  · rw [hv b!"t" (by decide)]; exact L6
  · rw [hv b!"h" (by decide)]; exact g5

/-- C71: reordering the tags does not change any value. -/
theorem C71_order (es es' : List (Bytes × TagEntry)) (hn : (es.map Prod.fst).Nodup) (hn' : (es'.map Prod.fst).Nodup)
    (hp : ∀ n v, (∃ t, (n, t) ∈ es ∧ t.value = v) ↔ ∃ t, (n, t) ∈ es' ∧ t.value = v) (n : Bytes) : tagVal es' n = tagVal es n := by
  have key : ∀ v, tagVal es' n = some v ↔ tagVal es n = some v := by
    intro v
    rw [tagVal_some, tagVal_some]
    constructor
    · rintro ⟨t, h1, rfl⟩
      obtain ⟨t', h2, h3⟩ := (hp n t.value).2 ⟨t, getTag_mem h1, rfl⟩
      exact ⟨t', (getTag_eq_some_iff hn _ _).2 h2, h3⟩
    · rintro ⟨t, h1, rfl⟩
      obtain ⟨t', h2, h3⟩ := (hp n t.value).1 ⟨t, getTag_mem h1, rfl⟩
      exact ⟨t', (getTag_eq_some_iff hn' _ _).2 h2, h3⟩
  cases h1 : tagVal es' n with
  | some v => exact ((key v).1 h1).symm
  | none =>
    cases h2 : tagVal es n with
    | none => rfl
    | some v => rw [(key v).2 h2] at h1; cases h1

/-- A record with its tags in another order, more white space and an unknown tag. -/
theorem independence_example :
    (∃ k, PublicKey.parse b!"v=DKIM1; h=sha256; p=Bw==" ({} : PublicKey toyEnv) = .ok () k ∧ k.digests = [.sha256]) ∧
    (∃ k, PublicKey.parse b!" p = Bw== ;n=note; h=sha256;v=DKIM1 " ({} : PublicKey toyEnv) = .ok () k ∧ k.digests = [.sha256]) := by
  have h : ∀ txt, (match PublicKey.parse txt ({} : PublicKey toyEnv) with | .ok _ k => decide (k.digests = [.sha256]) | _ => false) = true →
      ∃ k, PublicKey.parse txt ({} : PublicKey toyEnv) = .ok () k ∧ k.digests = [.sha256] := by
    intro txt h
    split at h
    · rename_i k e; exact ⟨k, e, by simpa using h⟩
    · cases h
  exact ⟨h _ (by decide +kernel), h _ (by decide +kernel)⟩

/-- Verification of the first signature of a sample at a given time, with a resolver. -/
def Samples.verifyAt (now : Int) (resolver : Bytes → Bool × Bytes) (msg : Bytes) : Option (Except Err Unit) :=
  match Validatory.mk' (freshStream msg) .dkim with
  | .error _ => none
  | .ok v =>
    match v.sigs with
    | [] => none
    | h :: _ => some (v.verifyOne toyEnv now resolver h false).1

/-- A signature with x=5 verifies until then; only the one name matters; nothing is asked when the body was changed. -/
theorem clock_resolver_example :
    let msg := Samples.signed { Samples.rsaOpts with expirationSign := true, expirationAbsolute := true, expiration := 5 } Samples.message
    let one := fun n => if n = b!"s._domainkey.d.e" then (true, Samples.rsaRec) else (false, [])
    Samples.verifyAt 5 (fun _ => (true, Samples.rsaRec)) msg = some (.ok ()) ∧
    Samples.verifyAt (-7) (fun _ => (true, Samples.rsaRec)) msg = some (.ok ()) ∧
    Samples.verifyAt 6 (fun _ => (true, Samples.rsaRec)) msg = some (.error (.p .expired)) ∧
    Samples.verifyAt 5 one msg = Samples.verifyAt 5 (fun _ => (true, Samples.rsaRec)) msg ∧
    Samples.verifyAt 5 (fun _ => (false, [])) (msg ++ b!"x") = some (.error (.perm .bodyHashMismatch .fail)) := by decide +kernel

/-- C71 applies: the two records above have the same tags, apart from order, white space and the unknown tag. -/
example : ∃ es es' k, TagText 0 b!"v=DKIM1; h=sha256; p=Bw==" es ∧ TagText 0 b!" p = Bw== ;n=note; h=sha256;v=DKIM1 " es' ∧
    PublicKey.parse b!"v=DKIM1; h=sha256; p=Bw==" ({} : PublicKey toyEnv) = .ok () k ∧
    PublicKey.parse b!" p = Bw== ;n=note; h=sha256;v=DKIM1 " ({} : PublicKey toyEnv) = .ok () { k with tags := es' } := by
  obtain ⟨_, m, h, hm⟩ := res_of (TagList.parse b!"v=DKIM1; h=sha256; p=Bw==" [])
    (fun _ m => decide (keyTagNames.map (tagVal m) = [some b!"DKIM1", some b!"sha256", none, some b!"Bw==", none, none])) (by decide +kernel)
  obtain ⟨_, m', h', hm'⟩ := res_of (TagList.parse b!" p = Bw== ;n=note; h=sha256;v=DKIM1 " [])
    (fun _ m => decide (keyTagNames.map (tagVal m) = [some b!"DKIM1", some b!"sha256", none, some b!"Bw==", none, none])) (by decide +kernel)
  obtain ⟨⟨k, hk, _⟩, _⟩ := independence_example
  obtain ⟨es, h1, _, _, e⟩ := (C11_parse_iff _ _ _).1 h
  obtain ⟨es', h1', h2', _, e'⟩ := (C11_parse_iff _ _ _).1 h'
  have e : m = es := e
  have e' : m' = es' := e'
  subst e e'
  exact ⟨m, m', k, h1, h1', hk, C71_key _ _ m m' h1 h1' h2'
    (List.map_inj_left.1 ((of_decide_eq_true hm').trans (of_decide_eq_true hm).symm)) k hk⟩

end Dkim

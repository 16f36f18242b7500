import Verif.Spec.RfcSound
import Verif.Props.RfcCases
/-!
# Property C95: what the library accepts is valid by the RFCs

Spec: `Verif/Spec/Rfc.lean`, `Verif/Spec/RfcSound.lean`. The converse of C87.
-/

namespace Dkim
open Spec

variable {E : Env}

/-! ### Texts are read in one way -/

theorem tagText_unique {s : Bytes} {es es' : List (Bytes × TagEntry)} (h : TagText 0 s es) (hn : (es.map Prod.fst).Nodup)
    (h' : TagText 0 s es') (hn' : (es'.map Prod.fst).Nodup) : es = es' := by
  have a := (C11_parse_iff s [] es).2 ⟨es, h, hn, by simp, rfl⟩
  have b := (C11_parse_iff s [] es').2 ⟨es', h', hn', by simp, rfl⟩
  rw [a] at b
  cases b
  rfl

theorem headText_unique {d : Bytes} {ls ls' : List Bytes} {off off' : Int} (h : HeadText 0 d ls off) (h' : HeadText 0 d ls' off') :
    (groupLines ls).map mkField = (groupLines ls').map mkField ∧ off = off' := by
  obtain ⟨m, s, a1, a2, a3, _⟩ := parseAll_head h (freshStream d) (at_fresh d)
  obtain ⟨m', s', b1, b2, b3, _⟩ := parseAll_head h' (freshStream d) (at_fresh d)
  rw [a1] at b1
  cases b1
  exact ⟨a2.symm.trans b2, a3.symm.trans b3⟩

theorem Spec.CanonField.unique {mode : CanonMode} {s c c' : Bytes} (h : CanonField mode s c) (h' : CanonField mode s c') : c = c' := by
  cases h with
  | simple => cases h'; rfl
  | relaxed _ a b e =>
    cases h' with
    | relaxed => rfl
    | blank _ _ _ e' => exact absurd e' e
  | blank _ a b e =>
    cases h' with
    | relaxed _ _ _ e' => exact absurd e e'
    | blank => rfl

theorem Spec.CanonFields.unique {mode : CanonMode} {fs : List Header} {cs cs' : List Bytes} (h : CanonFields mode fs cs)
    (h' : CanonFields mode fs cs') : cs = cs' := by
  induction h generalizing cs' with
  | nil => cases h'; rfl
  | cons f fs c cs h1 _ ih =>
    cases h' with
    | cons _ _ c' cs' h1' h2' => rw [h1.unique h1', ih h2']

/-! ### The tags -/

theorem lower_at : ∀ c : Byte, Spec.toLower c = 64 ↔ c = 64 := by
  apply byte_forall
  unfold Spec.toLower
  decide +kernel

theorem at_lower {s : Bytes} : (64 : Byte) ∈ Spec.lower s ↔ 64 ∈ s := by
  unfold Spec.lower
  rw [List.mem_map]
  constructor
  · rintro ⟨c, hc, e⟩
    rw [(lower_at c).1 e] at hc
    exact hc
  · intro h
    exact ⟨64, h, by decide⟩

theorem domain_no_at {s : Bytes} (h : IsDomain s) : (64 : Byte) ∉ s := by
  intro hc
  have := domain_bytes h 64 hc
  revert this
  unfold IsLetDig
  decide

/-- The library's reading of i= against the one of the RFC. -/
theorem identity_read {d loc dom loc' dom' : Bytes} (e : loc' ++ 64 :: dom' = loc ++ 64 :: dom) (hl : (64 : Byte) ∉ loc') (hd : (64 : Byte) ∉ d)
    (h : InDomain (Spec.lower dom') d) : InDomain (Spec.lower dom) d ∧ (Spec.lower dom' = d → Spec.lower dom = d) := by
  rcases List.append_eq_append_iff.1 e with ⟨c, h1, h2⟩ | ⟨c, h1, h2⟩
  · cases c with
    | nil =>
      simp only [List.nil_append, List.cons.injEq, true_and] at h2
      subst h2
      exact ⟨h, id⟩
    | cons x c =>
      simp only [List.cons_append, List.cons.injEq] at h2
      obtain ⟨rfl, rfl⟩ := h2
      have el : Spec.lower (c ++ 64 :: dom) = Spec.lower c ++ 64 :: Spec.lower dom := by
        simp only [Spec.lower, List.map_append, List.map_cons]
        rw [show Spec.toLower 64 = 64 by decide]
      rw [el] at h ⊢
      have no : ∀ y, y ++ 64 :: Spec.lower dom = d → False := by
        intro y hy
        exact hd (by rw [← hy]; simp)
      refine ⟨?_, fun hx => (no _ hx).elim⟩
      rcases h with h | ⟨p, h⟩
      · exact (no _ h).elim
      · rcases List.append_eq_append_iff.1 h with ⟨q, q1, q2⟩ | ⟨q, q1, q2⟩
        · cases q with
          | nil => simp at q2
          | cons z q =>
            simp only [List.cons_append, List.cons.injEq] at q2
            exact .inr ⟨q, q2.2⟩
        · cases q with
          | nil => simp at q2
          | cons z q =>
            simp only [List.cons_append, List.cons.injEq] at q2
            exact (no q q2.2.symm).elim
  · cases c with
    | nil =>
      simp only [List.nil_append, List.cons.injEq, true_and] at h2
      subst h2
      exact ⟨h, id⟩
    | cons x c =>
      simp only [List.cons_append, List.cons.injEq] at h2
      exact absurd (by rw [h1, ← h2.1]; simp) hl

theorem base64_read (hB : E.B64Law) {t bytes : Bytes} (h : Rfc.Base64String bytes t) {s : Bytes}
    (e : s = E.b64dec (t.filter (fun c => !Spec.isSpace c))) : Rfc.Base64String s t := by
  rw [e, ← (rfc_base64 hB h).2]
  exact h

theorem list_read {v : Bytes} {ns ns' : List Bytes} (h : Rfc.ColonList Rfc.FieldName v ns) (h' : ListText v ns') : ns' = ns :=
  C67_unique _ _ _ h' (rfc_list h).1

theorem ulong_read {v : Bytes} (hd : IsDigits v) {n : Nat} {rest : Bytes} {o : Bool} (h : ULong v n rest o) (hl : digitsVal v < 2 ^ 64) :
    n = digitsVal v := by
  have a := uLong_iff.1 h
  have b := uLong_iff.1 (ULong.pos _ _ (number_digits hd) hl)
  rw [a] at b
  cases b
  rfl

/-- Tags in the grammar of the RFCs which the library accepts say, by the RFCs, the same - up to the two halves of i=. -/
theorem claims_rfc (hB : E.B64Law) {arc : Bool} {now : Int} {tag : Bytes → Option Bytes} {s : Signature} (hw : Rfc.FieldSyntax arc tag)
    (h : Claims E arc now tag s) : ∃ loc dom, Rfc.Signature arc now tag { s with mailLocal := loc, mailDomain := dom } ∧
      (arc = false → s.domain = s.mailDomain → dom = s.domain) := by
  have hat : (64 : Byte) ∉ s.domain := by
    obtain ⟨d, h1, h2⟩ := h.domain
    rw [h2]
    exact fun hx => domain_no_at (hw.domain d h1) (at_lower.1 hx)
  obtain ⟨loc, dom, hid, hst⟩ : ∃ loc dom, (arc = false → Rfc.Identity s.domain (tag b!"i") loc dom) ∧
      (arc = false → s.domain = s.mailDomain → dom = s.domain) ∧ (arc = true → loc = [] ∧ dom = []) := by
    cases arc with
    | true => exact ⟨[], [], by simp, by simp, by simp⟩
    | false =>
      obtain ⟨hi, _⟩ := h.identity rfl
      have hs := hw.identity rfl
      generalize hg : s.mailLocal = l at hi
      generalize hg2 : s.mailDomain = m at hi
      generalize tag b!"i" = o at hi hs
      cases hi with
      | absent => exact ⟨[], s.domain, fun _ => .absent, fun _ _ => rfl, by simp⟩
      | present v _ dom' a b c =>
        obtain ⟨t, loc, dom, rfl, q1, q2, q3⟩ := hs v rfl
        have e := C64_unique _ _ _ _ a (qpText_append q1 (.safe 64 _ _ (by decide) (by simp)
          (qpText_plain fun c hc => letDig_safe c (domain_bytes q3 c hc))))
        obtain ⟨r1, r2⟩ := identity_read e b hat c
        exact ⟨loc, Spec.lower dom, fun _ => .present t loc dom q1 q2 q3 r1, fun _ hx => r2 hx.symm, by simp⟩
  refine ⟨loc, dom, ?_, hst.1⟩
  exact {
    version := h.version
    algorithm := h.algorithm
    signature := let ⟨t, h1, _, h2⟩ := h.signature; let ⟨_, hb⟩ := hw.signature t h1; ⟨t, h1, base64_read hB hb h2⟩
    bodyHash := let ⟨t, h1, h2⟩ := h.bodyHash; let ⟨_, hb⟩ := hw.bodyHash t h1; ⟨t, h1, base64_read hB hb h2⟩
    canon := h.canon
    domain := let ⟨d, h1, h2⟩ := h.domain; ⟨d, h1, hw.domain d h1, h2⟩
    headers := by
      obtain ⟨t, h1, h2⟩ := h.headers
      obtain ⟨ns, hn⟩ := hw.headers t h1
      refine ⟨t, h1, ?_⟩
      show Rfc.ColonList Rfc.FieldName t s.headers
      rw [list_read hn h2]
      exact hn
    from_signed := h.from_signed
    identity := fun ha => ⟨hid ha, (h.identity ha).2⟩
    arcInstance := by
      intro ha
      obtain ⟨⟨v, h1, ⟨rest, o, h2⟩, h3, h4⟩, _⟩ := h.arcIdentity ha
      obtain ⟨q1, q2⟩ := hw.arcInstance ha v h1
      refine ⟨⟨v, h1, q1, q2, ?_, h3, h4⟩, hst.2 ha⟩
      exact ulong_read q1 h2 (Nat.lt_trans (digitsVal_short q1 q2) (by decide))
    length := by
      have hl := h.length
      have hs := hw.length
      show Rfc.Length (tag b!"l") s.bodySize s.bodySizeLimit
      generalize tag b!"l" = o at hl hs
      generalize s.bodySize = n at hl
      generalize s.bodySizeLimit = b at hl
      cases hl with
      | absent => exact .absent
      | present v _ a b c =>
        obtain ⟨q1, q2⟩ := hs v rfl
        by_cases hlt : digitsVal v < 2 ^ 64
        · rw [ulong_read q1 b hlt]
          exact .present v q1 q2
        · have x := uLong_iff.1 b
          have y := uLong_iff.1 (ULong.range _ _ _ (number_digits q1) (by omega))
          rw [x] at y
          cases y
    query := by
      intro q hq
      rcases h.query with hx | hx
      · rw [hx] at hq; cases hq
      · rw [hx] at hq
        cases hq
        exact ⟨[b!"dns/txt"], .one _ ⟨by decide, by decide⟩, by simp⟩
    selector := ⟨h.selector, hw.selector _ h.selector⟩
    time := hw.time
    notExpired := by
      intro x hx
      obtain ⟨q1, q2⟩ := hw.expiration x hx
      obtain ⟨t, o, a, b⟩ := h.notExpired x hx
      refine ⟨q1, q2, ?_⟩
      have u := sLong_iff.1 a
      have w := sLong_iff.1 (SLong.pos _ _ (number_digits q1) (Nat.lt_trans (digitsVal_short q1 q2) (by decide)))
      rw [u] at w
      cases w
      exact b }

/-- Likewise for the key record. -/
theorem keyClaims_rfc (hB : E.B64Law) {tag : Bytes → Option Bytes} {dat : Bytes} {hs ss fs : List Bytes} (hw : Rfc.KeySyntax tag dat hs ss fs)
    {k : PublicKey E} (h : KeyClaims E tag k) : Rfc.KeyRecord tag k.alg dat hs ss fs ∧ KeyData E k.alg dat k.rsa k.ed ∧
      k.digests = hs.filterMap knownHash ∧ k.flags = fs := by
  obtain ⟨p, h1, h2, h3⟩ := h.key
  have hp : Rfc.Base64String dat p := by
    rcases hw.data p h1 with h | h
    · exact absurd h h2
    · exact h
  refine ⟨⟨h.version, hw.hash, h.keyType, ⟨p, h1, hp⟩, hw.service, hw.flag⟩, by rw [(rfc_base64 hB hp).2]; exact h3, ?_, ?_⟩
  · have a := h.hashes
    have b := hw.hash
    generalize tag b!"h" = o at a b
    generalize k.digests = ds at a
    cases b with
    | absent => cases a; rfl
    | present v ws hc =>
      cases a with
      | present _ names _ hl => rw [list_read hc hl]
  · have a := h.flags
    have b := hw.flag
    generalize tag b!"t" = o at a b
    generalize k.flags = ds at a
    cases b with
    | absent => cases a; rfl
    | present v ws hc =>
      cases a with
      | present _ names hl => exact list_read hc hl

/-! ### The signature -/

/-- The tag-spec of b= is where the library finds it. -/
theorem written_b {d : Bytes} {f : Header} {record : Bytes} {p : Rfc.Parts} (h : Rfc.Written d f record p) :
    Rfc.value p.items b!"b" = some p.bi.value := by
  unfold Rfc.value Rfc.Parts.items
  have hd := h.tags.distinct
  unfold Rfc.Parts.items at hd
  rw [List.find?_append]
  have hn : p.before.find? (fun i => decide (i.name = b!"b")) = none := by
    rw [List.find?_eq_none]
    intro i hi hx
    have hx := of_decide_eq_true hx
    rw [List.map_append, List.nodup_append] at hd
    exact hd.2.2 i.name (List.mem_map_of_mem hi) p.bi.name (by simp) (by rw [hx, h.isB])
  rw [hn, List.find?_cons, decide_eq_true h.isB]
  rfl

/-- Where the library cuts the field, and what remains. -/
theorem written_pieces {d : Bytes} {f : Header} {record : Bytes} {p : Rfc.Parts} (h : Rfc.Written d f record p)
    (hb : p.bi.gap2 = [] ∧ p.bi.post = []) : ∃ rest,
    valueText f = Rfc.joinSemi (p.before.map TagItem.text ++ [p.bi.lead]) ++ p.bi.value ++ (rest ++ p.tail) ∧
    Rfc.joinSemi ((p.before ++ Rfc.emptied p.bi :: p.after).map TagItem.text) ++ p.tail =
      Rfc.joinSemi (p.before.map TagItem.text ++ [p.bi.lead]) ++ (rest ++ p.tail) ∧
    Rfc.Field (f.header.take f.valueOffset ++ (Rfc.joinSemi (p.before.map TagItem.text ++ [p.bi.lead]) ++ (rest ++ p.tail))) := by
  obtain ⟨rest, hsplit⟩ := joinSemi_split p.before p.bi p.after
  have hval : valueText f = Rfc.joinSemi (p.before.map TagItem.text ++ [p.bi.lead]) ++ p.bi.value ++ (rest ++ p.tail) := by
    have := hsplit p.bi.value p.bi.gap2 p.bi.post
    rw [h.text]
    unfold Rfc.Parts.items
    have e : ({ p.bi with gap2 := p.bi.gap2, value := p.bi.value, post := p.bi.post } : TagItem) = p.bi := rfl
    have e2 : TagItem.lead { p.bi with gap2 := p.bi.gap2 } = p.bi.lead := rfl
    rw [e, e2] at this
    rw [this, hb.2]
    simp
  have hemp : Rfc.joinSemi ((p.before ++ Rfc.emptied p.bi :: p.after).map TagItem.text) ++ p.tail =
      Rfc.joinSemi (p.before.map TagItem.text ++ [p.bi.lead]) ++ (rest ++ p.tail) := by
    have := hsplit [] [] []
    have e2 : TagItem.lead { p.bi with gap2 := [] } = p.bi.lead := by rw [← hb.1]
    rw [e2] at this
    unfold Rfc.emptied
    rw [this]
    simp
  refine ⟨rest, hval, hemp, ?_⟩
  have hfield : Rfc.Field f.header := h.fields f (by simp)
  obtain ⟨ls, hhead, hfields⟩ := h.message
  obtain ⟨m, s', q1, q3, _⟩ := parseAll_head hhead (freshStream d) (at_fresh d)
  have hin : f ∈ m.headers := by rw [q3, hfields]; simp
  have hcol : COLON ∈ f.header := by
    obtain ⟨⟨n, w, x, e, _, _⟩, _⟩ := hfield
    rw [e]; simp [COLON]
  obtain ⟨_, hcut, _⟩ := (C22_fields d m s' q1 f hin).2.2.1 hcol
  have hft : f.header = f.header.take f.valueOffset ++ valueText f := (List.take_append_drop _ _).symm
  have htake : f.header.take f.valueOffset = fieldName f.header ++ [COLON] := by
    have : f.header.take f.valueOffset ++ f.header.drop f.valueOffset = fieldName f.header ++ [COLON] ++ f.header.drop f.valueOffset := by
      rw [List.take_append_drop]; simpa using hcut
    exact List.append_cancel_right this
  constructor
  · obtain ⟨⟨n, w, x, e, hn, hw⟩, _⟩ := hfield
    refine ⟨n, w, Rfc.joinSemi (p.before.map TagItem.text ++ [p.bi.lead]) ++ (rest ++ p.tail), ?_, hn, hw⟩
    rw [htake]
    have : fieldName f.header = n ++ w := by
      rw [e]
      refine (fieldName_append (n := n ++ w) ?_).1
      intro hc
      rcases List.mem_append.1 hc with hc | hc
      · exact (hn.2 _ hc).2.2 rfl
      · have := hw _ hc
        revert this
        decide
    rw [this]
    simp [COLON]
  · obtain ⟨y, hy⟩ := joinSemi_last (p.before.map TagItem.text) p.bi.lead
    have hc := hfield.cr
    rw [hft, hval, List.append_assoc (Rfc.joinSemi _), ← List.append_assoc, ← List.append_assoc] at hc
    rw [← List.append_assoc]
    refine cr_delete hc ?_
    rw [hy, TagItem.lead, hb.1]
    simp [EQ, CR]

/-- C95 (all but the listed cases): if the library verifies a signature successfully, and message, signature field and key record are written
in the grammar of the RFCs, then the signature verifies by the RFCs - unless h= of the key record names no hash known, s= of the key record
names neither `*` nor `email`, an Ed25519 signature has not 64 bytes, white space stands around the value of b=, or h= of the signature names
the signature field itself (more mentions of its name than fields below). -/
theorem C95_valid_partial (hB : E.B64Law) (d : Bytes) (type : ValidatorType) (v : Validatory) (hv : Validatory.mk' (freshStream d) type = .ok v)
    (f : Header) (hf : f ∈ v.sigs) (hlen : f.header.length < 2 ^ 31) (now : Int) (resolver : Bytes → Bool × Bytes) (er : Bool)
    (hok : (v.verifyOne E now resolver f er).1 = .ok ()) (record : Bytes) (p : Rfc.Parts) (h : Rfc.Written d f record p)
    (hr : ∀ dom sel, Rfc.value p.items b!"d" = some dom → Rfc.value p.items b!"s" = some sel →
      (resolver (sel ++ b!"._domainkey." ++ Spec.lower dom)).2 = record)
    (hhash : Rfc.KnownHash p) (hserv : Rfc.ForMail p) (hed : Rfc.RightLength p) (hb : Rfc.Tight p) (hm : Rfc.NotItself f p) :
    ∃ s, Rfc.Verifies E now d f record s p := by
  have hdec := (C68_verdict (E := E) d type v hv f hf hlen now er resolver .pass).1 (by rw [hok]; rfl)
  cases hdec with
  | accept es s k input hacc hbody hans hkey hus hin h63 hacp =>
  obtain ⟨htag, hnd, hcl, _⟩ := hacc
  obtain ⟨w, ht1, ht2⟩ := h.tags.text
  obtain ⟨es', r1, r2, r3⟩ := rfc_tagText p.items h.tags.nonempty h.tags.spec w ht2 0
  rw [← ht1] at r1
  have hee := tagText_unique htag hnd r1 (by rw [rfc_names r2]; exact h.tags.distinct)
  subst hee
  have hval : tagVal es = Rfc.value p.items := funext (rfc_value r2)
  rw [hval] at hcl
  obtain ⟨loc, dom, hsig, hst⟩ := claims_rfc hB h.field hcl
  -- the key
  have hrec : (answer resolver s).2 = record := by
    obtain ⟨dm, d1, d2⟩ := hcl.domain
    have := hr dm s.selector d1 hcl.selector
    rw [← d2] at this
    exact this
  obtain ⟨kes, k1, k2, k3⟩ := hkey
  rw [hrec] at k1
  obtain ⟨kes', l1, l2, l3⟩ := rfc_keyTags h.keyTags
  have hke := tagText_unique k1 k2 l1 l2
  subst hke
  rw [l3] at k3
  obtain ⟨g1, g2, g3, g4⟩ := keyClaims_rfc hB h.key k3
  -- the input
  obtain ⟨ls, hhead, hfields⟩ := h.message
  obtain ⟨rest, w1, w2, w3⟩ := written_pieces h hb
  have hbval := written_b h
  obtain ⟨bt, b1, b2, b3⟩ := hcl.signature
  rw [hbval] at b1
  cases b1
  have hinput : input = Rfc.headerData s.canonHeader (p.above ++ p.below) s.headers (f.header.take f.valueOffset) p.before p.bi p.after p.tail := by
    obtain ⟨ls', off', i1, bval, pre, post, cs, c, j1, j2, j3, j4, rfl⟩ := hin
    obtain ⟨u1, _⟩ := headText_unique i1 hhead
    rw [u1, hfields] at j3
    have hbe := r3 p.before p.bi p.after rfl b2
    rw [h.isB] at hbe
    have hone : (⟨bval, (pre.length : Int)⟩ : TagEntry) =
        ⟨p.bi.value, ((0 + (Rfc.joinSemi (p.before.map TagItem.text ++ [p.bi.lead])).length : Nat) : Int)⟩ := by
      have x := (getTag_eq_some_iff hnd _ _).2 j1
      have y := (getTag_eq_some_iff hnd _ _).2 hbe
      rw [x] at y
      exact Option.some.inj y
    simp only [TagEntry.mk.injEq] at hone
    obtain ⟨rfl, hpl⟩ := hone
    have hpl : pre.length = (Rfc.joinSemi (p.before.map TagItem.text ++ [p.bi.lead])).length := by omega
    have hcutt := w1.symm.trans j2
    rw [List.append_assoc, List.append_assoc] at hcutt
    obtain ⟨e1, e2⟩ := List.append_inj hcutt hpl.symm
    have e3 := List.append_cancel_left e2
    rw [← e1, ← e3] at j4
    have hc := j4.unique (rfc_canonField w3)
    have hcs := j3.unique (rfc_canonFields (fun x hx => h.fields x (selected_mem hx)))
    have hmm : mentions s.headers f.name ≤ (fieldsNamed p.below f.name).length := by
      obtain ⟨t, t1, t2⟩ := hsig.headers
      exact hm t _ t1 t2
    rw [hc, hcs, rfc_selected_insert hmm, ← w2]
    rfl
  refine ⟨{ s with mailLocal := loc, mailDomain := dom }, ?_⟩
  exact {
    message := ⟨ls, hhead, hfields⟩
    fields := h.fields
    tags := h.tags
    text := h.text
    isB := h.isB
    signature := hsig
    body := by
      obtain ⟨ls', off', i1, i2⟩ := hbody
      obtain ⟨_, rfl⟩ := headText_unique i1 hhead
      exact i2
    keyTags := h.keyTags
    key := by
      show Rfc.KeyRecord _ s.alg _ _ _ _
      rw [hus.alg]
      exact g1
    hashAllowed := by
      rcases hhash with hx | hx
      · exact .inl hx
      · right
        have hmem : ∀ dg, dg ∈ p.hashes.filterMap knownHash → digestName dg ∈ p.hashes := by
          intro dg hdg
          obtain ⟨n, hn, he⟩ := List.mem_filterMap.1 hdg
          unfold knownHash at he
          split at he
          · rename_i e; subst e; cases he; exact hn
          · split at he
            · rename_i e; subst e; cases he; exact hn
            · cases he
        rcases hus.hash with hy | hy
        · rw [g3, List.filterMap_eq_nil_iff] at hy
          rcases hx with hx | hx
          · exact absurd (hy _ hx) (by decide)
          · exact absurd (hy _ hx) (by decide)
        · rw [g3] at hy
          exact hmem _ hy
    service := hserv
    strict := by
      intro ha hfl
      refine hst ha (hus.strict ?_ (by rw [g4]; exact hfl))
      rw [hcl.kind]; exact ha
    primitive := by
      rw [hinput] at hacp
      cases hacp with
      | rsa key a1 a2 a3 =>
        rw [a2] at g2
        generalize hga : k.alg = al at g2
        generalize k.ed = ed at g2
        cases g2 with
        | rsa _ _ x => exact .rsa key a1 x a3
      | ed a1 a2 =>
        have hal : k.alg = .ed25519 := by rw [← hus.alg]; exact a1
        have hkt := g1.keyType
        rw [hal] at g2 hkt
        have hk : Rfc.value p.key b!"k" = some b!"ed25519" := by
          generalize Rfc.value p.key b!"k" = o at hkt
          cases hkt
          rfl
        obtain ⟨bytes, y1, y2⟩ := hed hk
        have hbs : s.b = bytes := by rw [b3, ← (rfc_base64 hB y1).2]
        have hl64 : s.b.length = 64 := by rw [hbs]; exact y2
        generalize k.rsa = rs at g2
        generalize hge : k.ed = kd at g2 a2
        cases g2 with
        | ed _ x =>
          refine .ed a1 x hl64 ?_
          rw [List.take_append_of_le_length (by omega), ← hl64, List.take_length] at a2
          exact a2 }

/-- C95, together with C87: for texts written as the RFCs allow, outside the cases excluded in either, the library accepts a signature if and
only if it verifies by the RFCs. -/
theorem C95_iff_partial (hB : E.B64Law) (d : Bytes) (type : ValidatorType) (v : Validatory) (hv : Validatory.mk' (freshStream d) type = .ok v)
    (f : Header) (hf : f ∈ v.sigs) (hlen : f.header.length < 2 ^ 31) (now : Int) (resolver : Bytes → Bool × Bytes)
    (record : Bytes) (p : Rfc.Parts) (h : Rfc.Written d f record p)
    (hr : ∀ dom sel, Rfc.value p.items b!"d" = some dom → Rfc.value p.items b!"s" = some sel →
      resolver (sel ++ b!"._domainkey." ++ Spec.lower dom) = (true, record))
    (hhash : Rfc.KnownHash p) (hserv : Rfc.ForMail p) (hed : Rfc.RightLength p) (hb : Rfc.Tight p) (hm : Rfc.NotItself f p)
    (hq : ∀ q, Rfc.value p.items b!"q" = some q → q = b!"dns/txt")
    (hl : ∀ l, Rfc.value p.items b!"l" = some l → digitsVal l < 2 ^ 63)
    (ha : isArcName f.name = false → ∀ t loc dom, Rfc.value p.items b!"i" = some (t ++ 64 :: dom) → QpText false t loc → IsDomain dom →
      (64 : Byte) ∉ loc) :
    (v.verifyOne E now resolver f false).1 = .ok () ↔ ∃ s, Rfc.Verifies E now d f record s p := by
  constructor
  · intro hok
    exact C95_valid_partial hB d type v hv f hf hlen now resolver false hok record p h (fun dom sel h1 h2 => by rw [hr dom sel h1 h2]) hhash hserv hed hb hm
  · rintro ⟨s, hs⟩
    refine C87_verifies_partial hB d type v hv f hf hlen now resolver record s p hs ?_ hq ?_ ?_ hb ?_ false (by simp)
    · obtain ⟨dm, d1, _, d2⟩ := hs.signature.domain
      rw [d2]
      exact hr dm s.selector d1 hs.signature.selector.1
    · have := hs.signature.length
      generalize Rfc.value p.items b!"l" = o at this hl
      generalize s.bodySize = n at this
      generalize s.bodySizeLimit = b at this
      cases this with
      | absent => decide
      | present v _ _ => exact hl v rfl
    · intro harc
      have hi := (hs.signature.identity harc).1
      have ha := ha harc
      generalize Rfc.value p.items b!"i" = o at hi ha
      generalize s.mailLocal = loc at hi
      generalize s.mailDomain = dm at hi
      cases hi with
      | absent => simp
      | present t _ dom q1 q2 q3 q4 => exact ha t loc dom rfl q1 q3
    · obtain ⟨t, t1, t2⟩ := hs.signature.headers
      exact hm t _ t1 t2

end Dkim

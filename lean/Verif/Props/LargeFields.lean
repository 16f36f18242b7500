import Verif.Props.RfcSign
/-!
# C43, C87: signature fields of 2 GiB and more

The position of b= is kept as an `int`; from 2^31 on it is wrong.
-/

namespace Dkim
open Spec

variable {E : Env}

/-- C35, for fields of any length: the b= value stands at `before.length`, but bytes are erased at that number modulo 2^32, if it is less than
2^31; otherwise `std::out_of_range` is thrown. -/
theorem C35_any_length (now : Int) (msg : Message) (h : Header) (e0 : Bool) (st : SigSt)
    (hp : Signature.parse E now h { erange := e0 } = .ok () st) :
    ∃ es bval before after, TagText 0 (valueText h) es ∧ (b!"b", ⟨bval, before.length⟩) ∈ es ∧ valueText h = before ++ bval ++ after ∧
      (before.length % 2 ^ 32 < 2 ^ 31 → ∀ input, headerHashInput msg h st.sig = .ok input ↔
        ∃ cs c, CanonAll st.sig.canonHeader (selected msg.headers st.sig.headers) cs ∧
          filterHeader st.sig.canonHeader (h.header.take h.valueOffset ++ ((valueText h).take (before.length % 2 ^ 32) ++
            (valueText h).drop (before.length % 2 ^ 32 + bval.length))) = .ok c ∧ input = lines cs ++ c) ∧
      (2 ^ 31 ≤ before.length % 2 ^ 32 → (∃ cs, CanonAll st.sig.canonHeader (selected msg.headers st.sig.headers) cs) →
        headerHashInput msg h st.sig = .error .outOfRange) := by
  obtain ⟨es, h1, h2, h3, L, _⟩ := (parse_ok_iff E now h e0 st).1 hp
  obtain ⟨bval, hb, hne, _⟩ := L.signature
  obtain ⟨t, ht, rfl⟩ := tagVal_some.1 hb
  have hp2 : TagList.parse (valueText h) [] = .ok () es := (C11_parse_iff _ _ _).2 ⟨es, h1, h2, by simp, by simp⟩
  obtain ⟨before, after, ha, ho, _⟩ := C12_offset_delimits _ _ hp2 _ _ ht hne
  have hw : (t.offset % 2 ^ 32) = ((before.length % 2 ^ 32 : Nat) : Int) := by rw [ho]; omega
  have hle : before.length % 2 ^ 32 ≤ (valueText h).length := by
    have h1 := Nat.mod_le before.length (2 ^ 32)
    have h2 : (valueText h).length = before.length + t.value.length + after.length := by rw [ha]; simp only [List.length_append]
    omega
  refine ⟨es, t.value, before, after, h1, ?_, ha, ?_, ?_⟩
  · have hm := (getTag_eq_some_iff h2 _ _).1 ht
    obtain ⟨v, o⟩ := t
    simp only at ho
    subst ho
    exact hm
  · intro hk input
    have hs : stripB h st.sig = .ok (h.header.take h.valueOffset ++ ((valueText h).take (before.length % 2 ^ 32) ++
            (valueText h).drop (before.length % 2 ^ 32 + t.value.length))) := by
      refine stripB_of (bv := t.value) (off := t.offset) (n := before.length % 2 ^ 32) (by rw [h3, ht]) ?_ hle
      unfold offsetToSize
      simp only [hw]
      rw [if_pos (by omega)]
      rfl
    rw [headerHashInput_ok]
    constructor
    · rintro ⟨cs, x, c, q1, q2, q3, q4⟩
      rw [hs] at q2; cases q2
      exact ⟨cs, c, q1, q3, q4⟩
    · rintro ⟨cs, c, q1, q2, q3⟩
      exact ⟨cs, _, c, q1, hs, q2, q3⟩
  · rintro hk ⟨cs, hcs⟩
    have hs : stripB h st.sig = .error .outOfRange := by
      unfold stripB
      rw [h3, ht]
      have : offsetToSize t.offset = none := by
        unfold offsetToSize
        simp only [hw]
        rw [if_neg (by omega)]
      simp only [this]
    unfold headerHashInput
    rw [(headBlock_ok _ _ _ _).2 ⟨cs, hcs, rfl⟩, hs]

/-- C43: a signature that verifies by the RFCs, but whose b= value starts at a position of 2^31 or more (modulo 2^32), makes verification end
with `std::out_of_range`, which is not one of the library's exceptions. -/
theorem C43_large_offset (hB : E.B64Law) (d : Bytes) (type : ValidatorType) (v : Validatory) (hv : Validatory.mk' (freshStream d) type = .ok v)
    (f : Header) (now : Int) (resolver : Bytes → Bool × Bytes) (record : Bytes)
    (s : Signature) (p : Rfc.Parts) (h : Rfc.Verifies E now d f record s p)
    (hr : resolver (s.selector ++ b!"._domainkey." ++ s.domain) = (true, record))
    (hq : ∀ q, Rfc.value p.items b!"q" = some q → q = b!"dns/txt") (hl : s.bodySize < 2 ^ 63)
    (ha : isArcName f.name = false → (64 : Byte) ∉ s.mailLocal)
    (hoff : 2 ^ 31 ≤ (Rfc.joinSemi (p.before.map TagItem.text ++ [p.bi.lead])).length % 2 ^ 32)
    (er : Bool) (her : er = true → s.bodySizeLimit = false) :
    (v.verifyOne E now resolver f er).1 = .error .outOfRange := by
  obtain ⟨es, hacc, hpos⟩ := rfc_acceptable (E := E) hB h.tags h.signature hq hl ha her
  obtain ⟨ls, hhead, hfields⟩ := h.message
  obtain ⟨kes, k1, k2, k3⟩ := rfc_keyTags h.keyTags
  -- the key
  obtain ⟨rsa, ed, hkd⟩ : ∃ rsa ed, KeyData E s.alg p.dat rsa ed := by
    cases h.primitive with
    | rsa key h1 h2 h3 => exact ⟨some key, [], by rw [h1]; exact .rsa _ _ h2⟩
    | ed h1 h2 h3 h4 => exact ⟨none, p.dat, by rw [h1]; exact .ed _ h2⟩
  have hkc := rfc_keyClaims hB h.key hkd kes
  rw [← k3] at hkc
  have hans : answer resolver { s with arc := isArcName f.name } = (true, record) := hr
  obtain ⟨k, hkp, hsan⟩ : ∃ k : PublicKey E, PublicKey.parse record ({} : PublicKey E) = .ok () k ∧
      sanityCheck { s with arc := isArcName f.name, tags := es } k = .ok () := by
    obtain ⟨kes2, hkp⟩ := keyFound_iff.1 (⟨kes, by rw [hans]; exact k1, k2, hkc⟩ : KeyFound E resolver { s with arc := isArcName f.name } _)
    rw [hans] at hkp
    refine ⟨_, hkp, usable_iff.1 (⟨?_, rfl, ?_⟩ : Usable { s with arc := isArcName f.name } _)⟩
    · rcases h.hashAllowed with hx | hx
      · left
        have := h.key.hash
        rw [hx] at this
        generalize hg : p.hashes = hs at this
        cases this
        rfl
      · right
        rw [List.mem_filterMap]
        exact ⟨_, hx, by cases s.digest <;> rfl⟩
    · intro h1 h2
      exact (h.strict h1 h2).symm
  have hne : record ≠ [] := by
    intro e
    obtain ⟨x, hx, _⟩ := h.keyTags.text
    rw [e] at hx
    obtain ⟨i, is, hi⟩ := List.exists_cons_of_ne_nil h.keyTags.nonempty
    rw [hi, List.map_cons] at hx
    have h1 : i.text ≠ [] := by simp [TagItem.text, TagItem.lead]
    have h2 : Rfc.joinSemi (i.text :: is.map TagItem.text) ≠ [] := by
      cases is with
      | nil => exact h1
      | cons j is => simp [Rfc.joinSemi]
    exact h2 (List.append_eq_nil_iff.1 hx.symm).1
  have hkey : getPublicKey resolver { s with arc := isArcName f.name, tags := es } ({} : PublicKey E) = .ok () k := by
    unfold getPublicKey
    have : resolver (keyQuery { s with arc := isArcName f.name, tags := es }) = (true, record) := hr
    rw [this]
    simp only [if_true]
    have : record.isEmpty = false := by cases record with | nil => exact absurd rfl hne | cons => rfl
    rw [this]
    exact hkp
  -- the value of b=
  obtain ⟨bt, hbt, hb64⟩ := h.signature.signature
  have hbv : p.bi.value ≠ [] := by
    have : Rfc.value p.items b!"b" = some p.bi.value := by
      unfold Rfc.value Rfc.Parts.items
      have hd := h.tags.distinct
      unfold Rfc.Parts.items at hd
      rw [List.find?_append]
      have hn : p.before.find? (fun i => decide (i.name = b!"b")) = none := by
        rw [List.find?_eq_none]
        intro i hi hx
        have hx := of_decide_eq_true hx
        rw [List.map_append, List.nodup_append] at hd
        exact hd.2.2 i.name (List.mem_map_of_mem hi) p.bi.name (by simp) (by rw [hx, h.isB])
      rw [hn, List.find?_cons, decide_eq_true h.isB]
      rfl
    rw [this] at hbt
    cases hbt
    exact hb64.ne_nil
  have hbe := hpos p.before p.bi p.after rfl hbv
  rw [h.isB] at hbe
  have hpa := acceptable_iff.1 hacc
  obtain ⟨es', bval, before, after, t1, t2, t3, _, t5⟩ := C35_any_length now v.msg f er _ hpa
  have hes := hacc.1.det t1 hacc.2.1
  subst hes
  have u1 := (getTag_eq_some_iff hacc.2.1 _ _).2 hbe
  have u2 := (getTag_eq_some_iff hacc.2.1 _ _).2 t2
  rw [u1] at u2
  simp only [Option.some.injEq, TagEntry.mk.injEq] at u2
  have hlen : (Rfc.joinSemi (p.before.map TagItem.text ++ [p.bi.lead])).length = before.length := by omega
  rw [hlen] at hoff
  -- the fields
  obtain ⟨_, s', hpar, _⟩ := mk'_built d type v hv
  have hmsg := (headText_msg hv hhead).1
  have hcan : ∃ cs, CanonAll s.canonHeader (selected v.msg.headers s.headers) cs := by
    refine ⟨_, (canonFields_iff ?_).1 (rfc_canonFields ?_)⟩
    · intro x hx
      exact (C22_fields d v.msg s' hpar x (selected_mem hx)).1
    · intro x hx
      refine h.fields x ?_
      rw [← hfields, ← hmsg]
      exact selected_mem hx
  have hbm : BodyMatches E d { s with arc := isArcName f.name } := ⟨ls, p.off, hhead, h.body⟩
  refine (verifyOne_stage hv hacc).trans ?_
  rw [dif_pos ((bodyMatches_iff hv).1 hbm), hkey]
  simp only
  unfold checkSignature
  rw [hsan]
  simp only
  have := t5 hoff hcan
  rw [this]

/-! ### Such messages exist -/

namespace RfcCases

theorem big_items {big : Bytes} (hbig : ∀ c ∈ big, c = 97) :
    (parts b!"from" [b!"from"] [tag b!"z" big] [] []).items.all okItem = true := by
  have hb64 : ∀ x : Bytes, (base64 x).all (fun c => decide (0x21 ≤ c) && decide (c ≤ 0x7E) && decide (c ≠ 59)) = true := by
    intro x
    rw [List.all_eq_true]
    intro c hc
    rw [← C18_rfc4648] at hc
    have := b64_val hc
    simp only [Bool.and_eq_true, decide_eq_true_eq]
    exact ⟨⟨this.1, this.2.1⟩, this.2.2⟩
  have hbg : big.all (fun c => decide (0x21 ≤ c) && decide (c ≤ 0x7E) && decide (c ≠ 59)) = true := by
    rw [List.all_eq_true]
    intro c hc
    rw [hbig c hc]
    decide
  rw [List.all_eq_true]
  intro i hi
  unfold Rfc.Parts.items parts before at hi
  simp only [List.mem_append, List.mem_cons, List.not_mem_nil, or_false, List.append_assoc] at hi
  rcases hi with (rfl | rfl | rfl | rfl | rfl | rfl) | rfl | rfl
  · decide
  · decide
  · decide
  · decide
  · decide
  · decide
  · unfold okItem tag
    simp only [Bool.and_eq_true]
    exact ⟨by decide, hbg⟩
  · unfold okItem bItem
    simp only [Bool.and_eq_true]
    exact ⟨by decide, hb64 _⟩

theorem ok_bytes {i : TagItem} (h : okItem i = true) : ∀ c ∈ i.text, c ≠ CR ∧ c ≠ LF := by
  unfold okItem at h
  simp only [Bool.and_eq_true, List.all_eq_true, decide_eq_true_eq] at h
  obtain ⟨⟨⟨⟨⟨⟨h1, h2⟩, h3⟩, h4⟩, h5⟩, h6⟩, h7⟩ := h
  have hw : ∀ c : Byte, Dkim.isWSP c = true → c ≠ CR ∧ c ≠ LF := fun c hc => wsp_ne_crlf hc
  have hv : ∀ c : Byte, 0x21 ≤ c → c ≠ CR ∧ c ≠ LF := by
    intro c hc
    constructor <;> (rintro rfl; exact absurd hc (by decide))
  have hn : ∀ c : Byte, 97 ≤ c → c ≠ CR ∧ c ≠ LF := by
    intro c hc
    constructor <;> (rintro rfl; exact absurd hc (by decide))
  intro c hc
  unfold TagItem.text TagItem.lead at hc
  simp only [List.mem_append, List.mem_singleton] at hc
  rcases hc with ((((((hc | hc) | hc) | rfl) | hc) | hc) | hc)
  · exact hw c (h1 c hc)
  · exact hn c (h5 c hc).1
  · exact hw c (h2 c hc)
  · decide
  · exact hw c (h3 c hc)
  · exact hv c (h7 c hc).1.1
  · exact hw c (h4 c hc)

theorem joinSemi_mem {xs : List Bytes} {c : Byte} (h : c ∈ Rfc.joinSemi xs) : c = 59 ∨ ∃ x ∈ xs, c ∈ x := by
  induction xs with
  | nil => cases h
  | cons x xs ih =>
    cases xs with
    | nil => exact .inr ⟨x, by simp, h⟩
    | cons y ys =>
      rw [joinSemi_cons _ (by simp)] at h
      rcases List.mem_append.1 h with h | h
      · exact .inr ⟨x, by simp, h⟩
      · rcases List.mem_cons.1 h with h | h
        · exact .inl h
        · rcases ih h with h | ⟨z, hz, h⟩
          · exact .inl h
          · exact .inr ⟨z, List.mem_cons_of_mem _ hz, h⟩

theorem big_bytes {big : Bytes} (hbig : ∀ c ∈ big, c = 97) :
    ∀ c ∈ (field b!"from" [b!"from"] [tag b!"z" big] [] []).header, c ≠ CR ∧ c ≠ LF := by
  intro c hc
  unfold field at hc
  rcases List.mem_append.1 hc with hc | hc
  · exact (by decide : ∀ c ∈ lead, c ≠ CR ∧ c ≠ LF) c hc
  · rcases joinSemi_mem hc with rfl | ⟨x, hx, hc⟩
    · decide
    · obtain ⟨i, hi, rfl⟩ := List.mem_map.1 hx
      exact ok_bytes (List.all_eq_true.1 (big_items hbig) i hi) c hc

theorem big_head {big : Bytes} (hbig : ∀ c ∈ big, c = 97) :
    HeadText 0 (msg b!"from" [b!"from"] [tag b!"z" big] [] [])
      [(field b!"from" [b!"from"] [tag b!"z" big] [] []).header, fromField.header]
      ((msg b!"from" [b!"from"] [tag b!"z" big] [] []).length : Nat) := by
  have e : (msg b!"from" [b!"from"] [tag b!"z" big] [] []) = (field b!"from" [b!"from"] [tag b!"z" big] [] []).header ++ CR :: LF ::
      (fromField.header ++ CR :: LF :: (CR :: LF :: [])) := by
    unfold msg CRLF
    simp
  have hl : (msg b!"from" [b!"from"] [tag b!"z" big] [] []).length =
      0 + (field b!"from" [b!"from"] [tag b!"z" big] [] []).header.length + 2 + fromField.header.length + 2 + 2 := by
    rw [e]
    simp only [List.length_append, List.length_cons, List.length_nil]
    omega
  rw [hl, e]
  refine .lineCRLF 0 _ _ _ _ ?_ ?_ (.lineCRLF _ _ _ _ _ (by decide) (by decide) (.blankCRLF _ _))
  · unfold field lead; simp
  · intro hx
    exact (big_bytes hbig _ hx).2 rfl

theorem big_fields (big : Bytes) :
    (groupLines [(field b!"from" [b!"from"] [tag b!"z" big] [] []).header, fromField.header]).map mkField =
      [field b!"from" [b!"from"] [tag b!"z" big] [] [], fromField] := by
  have h1 : groupLines [(field b!"from" [b!"from"] [tag b!"z" big] [] []).header, fromField.header] =
      [[(field b!"from" [b!"from"] [tag b!"z" big] [] []).header], [fromField.header]] := rfl
  rw [h1, List.map_cons]
  have h2 : [[fromField.header]].map mkField = [fromField] := by decide
  rw [h2]
  congr 1

/-- The message with a tag z= of arbitrary length before b=. -/
theorem filled (big : Bytes) (hbig : ∀ c ∈ big, c = 97) :
    let extra := [tag b!"z" big]
    Rfc.Verifies toyEnv 0 (msg b!"from" [b!"from"] extra [] []) (field b!"from" [b!"from"] extra [] []) Samples.rsaRec
      (sig b!"from" [b!"from"] extra [] b!"d.e" 0 false) (parts b!"from" [b!"from"] extra [] []) := by
  intro extra
  refine verifies ?_ (signature ?_ names_from (by simp) ?_ ?_ ?_)
  · unfold checks
    simp only [Bool.and_eq_true, decide_eq_true_eq]
    obtain ⟨m, s', q1, q2, q3, _⟩ := parseAll_head (big_head hbig) (freshStream _) (at_fresh _)
    refine ⟨⟨⟨⟨big_items hbig, ?_⟩, ?_⟩, ?_⟩, ?_⟩
    · exact (by decide : [b!"v", b!"a", b!"d", b!"s", b!"h", b!"bh", b!"z", b!"b"].Nodup)
    · rw [q1]
      simp only [Bool.and_eq_true, decide_eq_true_eq]
      exact ⟨by rw [q2, big_fields], q3⟩
    · rw [Bool.not_eq_true']
      cases hc : List.contains (field b!"from" [b!"from"] extra [] []).header CR with
      | false => rfl
      | true => exact absurd rfl (big_bytes hbig _ (List.contains_iff_mem.1 hc)).1
    · have : bodyPart (msg b!"from" [b!"from"] extra [] []) (parts b!"from" [b!"from"] extra [] []).off = [] := by
        unfold bodyPart parts
        simp
      rw [this]
      rfl
  · unfold lookups
    simp only [Bool.and_eq_true, decide_eq_true_eq]
    refine ⟨⟨⟨⟨⟨⟨⟨⟨⟨⟨rfl, rfl⟩, rfl⟩, rfl⟩, rfl⟩, rfl⟩, rfl⟩, rfl⟩, rfl⟩, rfl⟩, ?_⟩
    rw [← C18_rfc4648]
    exact b64Encode_ne (by simp [sigData])
  · exact .absent
  · exact .absent
  · intro q hq; cases hq

theorem exists_big (n : Nat) : ∃ big : Bytes, (∀ c ∈ big, c = 97) ∧ big.length = n :=
  ⟨List.replicate n 97, fun _ hc => List.eq_of_mem_replicate hc, List.length_replicate⟩

/-- C87: a signature field of more than 2 GiB that verifies by the RFCs; the library throws `std::out_of_range`. -/
theorem huge : ∃ d, Rejected d .outOfRange := by
  obtain ⟨big, hbig, hlen⟩ := exists_big (2 ^ 31)
  have hV := filled big hbig
  simp only at hV
  obtain ⟨m, s', q1, q2, q3, _⟩ := parseAll_head (big_head hbig) (freshStream _) (at_fresh _)
  rw [big_fields] at q2
  have hmk : Validatory.mk' (freshStream (msg b!"from" [b!"from"] [tag b!"z" big] [] [])) .dkim =
      .ok { file := s', msg := m, sigs := m.headers.filter (isSigHeader .dkim) } := by
    unfold Validatory.mk'
    rw [q1]
  refine ⟨_, _, field b!"from" [b!"from"] [tag b!"z" big] [] [], _, _, hmk, ?_, hV, ?_⟩
  · simp only [q2]
    rfl
  · refine C43_large_offset (E := toyEnv) C18_law_satisfiable _ .dkim _ hmk _ 0 _ Samples.rsaRec _ _ hV rfl ?_ (by simp [sig]) ?_ ?_ false (by simp)
    · intro q hq; cases hq
    · intro _; simp [sig]
    · have : (Rfc.joinSemi ((parts b!"from" [b!"from"] [tag b!"z" big] [] []).before.map TagItem.text ++
          [(parts b!"from" [b!"from"] [tag b!"z" big] [] []).bi.lead])).length = 55 + big.length := by
        unfold parts before bItem tag
        simp [Rfc.joinSemi, TagItem.text, TagItem.lead]
        omega
      rw [this, hlen]
      decide

end RfcCases

/-- C43: verification can end with `std::out_of_range`. -/
theorem C43_large_offset_witness : ∃ d, RfcCases.Rejected d .outOfRange := RfcCases.huge

/-- C87: a signature field of more than 2 GiB that verifies by the RFCs does not verify with the library. -/
theorem C87_huge_field : ∃ d, RfcCases.Rejected d .outOfRange := RfcCases.huge

end Dkim

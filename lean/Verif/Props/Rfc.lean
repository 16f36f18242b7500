import Verif.Proofs.Rfc
import Verif.Props.Unambiguous
/-!
# Properties C87 and C88: interoperability with the RFCs

Spec: `Verif/Spec/Rfc.lean`.
-/

namespace Dkim
open Spec

variable {E : Env}

/-! ## C88: key records -/

theorem rfc_keyClaims (hB : E.B64Law) {tag : Bytes → Option Bytes} {alg : SigAlg} {dat : Bytes} {hs ss fs : List Bytes}
    (h : Rfc.KeyRecord tag alg dat hs ss fs) {rsa : Option E.RsaPub} {ed : Bytes} (hk : KeyData E alg dat rsa ed) (tags : TagList) :
    KeyClaims E tag ({
      tags := tags, digests := hs.filterMap knownHash, alg := alg, rsa := rsa, ed := ed, flags := fs,
      serviceEmail := (if b!"*" ∈ ss then 0 else ss.count b!"email") } : PublicKey E) where
  version := h.version
  hashes := by
    have := h.hash
    show Hashes (tag b!"h") (hs.filterMap knownHash)
    generalize tag b!"h" = o at this
    cases this with
    | absent => exact .absent
    | present v ws hc => exact .present v _ (rfc_list hc).2 (rfc_list hc).1
  keyType := h.keyType
  key := by
    obtain ⟨p, h1, h2⟩ := h.data
    obtain ⟨h3, h4⟩ := rfc_base64 hB h2
    exact ⟨p, h1, h3, by rw [← h4]; exact hk⟩
  service := by
    have := h.service
    show Services (tag b!"s") (if b!"*" ∈ ss then 0 else ss.count b!"email")
    generalize tag b!"s" = o at this
    cases this with
    | absent => exact .absent
    | present v ws hc =>
      split
      · rename_i hm; exact .any v _ (rfc_list hc).2 (rfc_list hc).1 hm
      · rename_i hm; exact .listed v _ (rfc_list hc).2 (rfc_list hc).1 hm
  flags := by
    have := h.flag
    show Flags (tag b!"t") fs
    generalize tag b!"t" = o at this
    cases this with
    | absent => exact .absent
    | present v ws hc => exact .present v _ (rfc_list hc).1

theorem rfc_keyTags {txt : Bytes} {items : List TagItem} (ht : Rfc.TagList txt items) :
    ∃ es, TagText 0 txt es ∧ (es.map Prod.fst).Nodup ∧ tagVal es = Rfc.value items := by
  obtain ⟨w, ht1, ht2⟩ := ht.text
  obtain ⟨es, h1, h2, _⟩ := rfc_tagText items ht.nonempty ht.spec w ht2 0
  exact ⟨es, by rw [ht1]; exact h1, by rw [rfc_names h2]; exact ht.distinct, funext (rfc_value h2)⟩

/-- C88: every key record that conforms to RFC 6376 (or RFC 8463) and holds a key the crypto library can load is accepted, and the getters
return what it says. -/
theorem C88_key_record (hB : E.B64Law) (txt : Bytes) (items : List TagItem) (ht : Rfc.TagList txt items) (alg : SigAlg) (dat : Bytes)
    (hashes services flags : List Bytes) (h : Rfc.KeyRecord (Rfc.value items) alg dat hashes services flags) (rsa : Option E.RsaPub) (ed : Bytes)
    (hk : KeyData E alg dat rsa ed) :
    ∃ k, PublicKey.parse txt ({} : PublicKey E) = .ok () k ∧ k.alg = alg ∧ k.rsa = rsa ∧ k.ed = ed ∧ k.flags = flags ∧
      ∀ d, d ∈ k.digests ↔ digestName d ∈ hashes := by
  obtain ⟨es, h1, h2, h3⟩ := rfc_keyTags ht
  have hc := rfc_keyClaims hB h hk es
  rw [← h3] at hc
  obtain ⟨hl, hd⟩ := keyClaims_iff.1 hc
  refine ⟨_, (keyParse_ok_iff _ _).2 ⟨es, h1, h2, rfl, hl, hd⟩, rfl, rfl, rfl, rfl, ?_⟩
  intro d
  show d ∈ hashes.filterMap knownHash ↔ _
  rw [List.mem_filterMap]
  constructor
  · rintro ⟨n, hn, he⟩
    unfold knownHash at he
    split at he
    · rename_i e; subst e; cases he; exact hn
    · split at he
      · rename_i e; subst e; cases he; exact hn
      · cases he
  · intro hn
    exact ⟨_, hn, by cases d <;> rfl⟩

/-! ## C87: signature fields -/

/-- C87 (all but the listed cases): `Signature::Parse` accepts a signature field that conforms to RFC 6376 (or RFC 8617) and has not expired,
and the getters return what it says - unless it lists query methods besides dns/txt, its l= is 2^63 or more, or the local part in i= contains
an at-sign (in a quoted string). -/
theorem C87_field_partial (hB : E.B64Law) (now : Int) (h : Header) (items : List TagItem) (ht : Rfc.TagList (valueText h) items)
    (s : Signature) (hs : Rfc.Signature (isArcName h.name) now (Rfc.value items) s)
    (hq : ∀ q, Rfc.value items b!"q" = some q → q = b!"dns/txt") (hl : s.bodySize < 2 ^ 63)
    (ha : isArcName h.name = false → (64 : Byte) ∉ s.mailLocal) :
    ∃ st, Signature.parse E now h {} = .ok () st ∧ st.sig = { s with arc := isArcName h.name, tags := st.sig.tags } := by
  obtain ⟨es, hacc, _⟩ := rfc_acceptable (E := E) (er := false) hB ht hs hq hl ha (by simp)
  exact ⟨_, acceptable_iff.1 hacc, rfl⟩

/-! ## C87: verification -/

theorem rfc_canonField {mode : CanonMode} {t : Bytes} (h : Rfc.Field t) : CanonField mode t (Rfc.canon mode t) := by
  cases mode with
  | simple => exact .simple t
  | relaxed =>
    obtain ⟨⟨n, w, v, rfl, hn, hw⟩, hcr⟩ := h
    refine .relaxed _ (by simp [COLON]) ?_ ?_
    · rintro ⟨a, b, e, hb⟩
      exact hb (hcr a b e)
    · intro hb
      obtain ⟨hne, hc⟩ := hn
      cases n with
      | nil => exact hne rfl
      | cons c n =>
        have h1 := hc c (by simp)
        have hm : c ∈ fieldName (c :: n ++ w ++ 58 :: v) := by
          unfold fieldName
          rw [List.cons_append, List.cons_append, List.takeWhile_cons, if_pos (by simpa [COLON] using h1.2.2)]
          simp
        have ok : ∀ c : Byte, 33 ≤ c ∧ c ≤ 126 ∧ c ≠ 58 → Spec.isLoose c = false := by
          apply byte_forall
          unfold Spec.isLoose
          decide +kernel
        have := hb c hm
        rw [ok c h1] at this
        cases this

theorem rfc_canonFields {mode : CanonMode} {fs : List Header} (h : ∀ f ∈ fs, Rfc.Field f.header) :
    CanonFields mode fs (fs.map (fun f => Rfc.canon mode f.header)) := by
  induction fs with
  | nil => exact .nil
  | cons f fs ih => exact .cons f fs _ _ (rfc_canonField (h f (by simp))) (ih fun x hx => h x (by simp [hx]))

/-- Deleting a text before which no CR stands keeps every CR before its LF. -/
theorem cr_delete {x v y : Bytes} (h : ∀ a b, x ++ v ++ y = a ++ CR :: b → b.head? = some LF) (hx : x.getLast? ≠ some CR) :
    ∀ a b, x ++ y = a ++ CR :: b → b.head? = some LF := by
  intro a b e
  rcases List.append_eq_append_iff.1 e with ⟨c, rfl, rfl⟩ | ⟨c, rfl, e2⟩
  · exact h (x ++ v ++ c) b (by simp)
  · cases c with
    | nil =>
      simp only [List.nil_append] at e2
      exact h (a ++ [] ++ v) b (by rw [← e2])
    | cons z c =>
      simp only [List.cons_append, List.cons.injEq] at e2
      obtain ⟨rfl, rfl⟩ := e2
      cases c with
      | nil => exact absurd List.getLast?_concat hx
      | cons z c =>
        have := h a (z :: c ++ v ++ y) (by simp)
        simpa using this

/-- A field of which no mention reaches is not selected. -/
theorem rfc_selected_insert {a b : List Header} {f : Header} {names : List Bytes}
    (hc : mentions names f.name ≤ (fieldsNamed b f.name).length) : selected (a ++ f :: b) names = selected (a ++ b) names := by
  apply selected_congr
  intro n hn
  unfold fieldsNamed at *
  rw [List.filter_append, List.filter_append]
  by_cases he : Spec.lower f.name = Spec.lower n
  · have hm : mentions names n = mentions names f.name := by unfold mentions; rw [he]
    rw [hm]
    rw [he] at hc
    rw [List.filter_cons_of_pos (p := fun h : Header => decide (Spec.lower h.name = Spec.lower n)) (decide_eq_true he)]
    simp only [List.reverse_append, List.reverse_cons, List.append_assoc]
    rw [List.take_append_of_le_length (by simpa using hc), List.take_append_of_le_length (by simpa using hc)]
  · rw [List.filter_cons_of_neg (p := fun h : Header => decide (Spec.lower h.name = Spec.lower n)) (fun hx => he (of_decide_eq_true hx))]

/-- The text of a tag-list around one value. -/
theorem joinSemi_split (xs : List TagItem) (bi : TagItem) (ys : List TagItem) : ∃ rest, ∀ v g p,
    Rfc.joinSemi ((xs ++ { bi with gap2 := g, value := v, post := p } :: ys).map TagItem.text) =
      Rfc.joinSemi (xs.map TagItem.text ++ [TagItem.lead { bi with gap2 := g }]) ++ v ++ p ++ rest := by
  refine ⟨match ys with | [] => [] | y :: ys => 59 :: Rfc.joinSemi ((y :: ys).map TagItem.text), ?_⟩
  intro v g p
  induction xs with
  | nil =>
    cases ys with
    | nil => simp [Rfc.joinSemi, TagItem.text, TagItem.lead]
    | cons y ys => simp [Rfc.joinSemi, TagItem.text, TagItem.lead]
  | cons x xs ih =>
    rw [List.cons_append, List.map_cons, joinSemi_cons _ (by simp), ih, List.map_cons, List.cons_append, joinSemi_cons _ (by simp)]
    simp

theorem joinSemi_last (xs : List Bytes) (l : Bytes) : ∃ y, Rfc.joinSemi (xs ++ [l]) = y ++ l := by
  induction xs with
  | nil => exact ⟨[], rfl⟩
  | cons x xs ih =>
    obtain ⟨y, hy⟩ := ih
    exact ⟨x ++ 59 :: y, by rw [List.cons_append, joinSemi_cons _ (by simp), hy]; simp⟩

/-- C87 (all but the listed cases): a signature that verifies by the RFCs (`Rfc.Verifies`) verifies with the library, whatever else the message
contains - unless the field lists query methods besides dns/txt, its l= is 2^63 or more, the local part in i= contains an at-sign, white space
stands around the value of b=, or h= names the signature field itself (more mentions of its name than fields below). -/
theorem C87_verifies_partial (hB : E.B64Law) (d : Bytes) (type : ValidatorType) (v : Validatory) (hv : Validatory.mk' (freshStream d) type = .ok v)
    (f : Header) (hf : f ∈ v.sigs) (hlen : f.header.length < 2 ^ 31) (now : Int) (resolver : Bytes → Bool × Bytes) (record : Bytes)
    (s : Signature) (p : Rfc.Parts) (h : Rfc.Verifies E now d f record s p)
    (hr : resolver (s.selector ++ b!"._domainkey." ++ s.domain) = (true, record))
    (hq : ∀ q, Rfc.value p.items b!"q" = some q → q = b!"dns/txt") (hl : s.bodySize < 2 ^ 63)
    (ha : isArcName f.name = false → (64 : Byte) ∉ s.mailLocal) (hb : p.bi.gap2 = [] ∧ p.bi.post = [])
    (hm : mentions s.headers f.name ≤ (fieldsNamed p.below f.name).length) (er : Bool) (her : er = true → s.bodySizeLimit = false) :
    (v.verifyOne E now resolver f er).1 = .ok () := by
  obtain ⟨es, hacc, hoff⟩ := rfc_acceptable (E := E) hB h.tags h.signature hq hl ha her
  obtain ⟨ls, hhead, hfields⟩ := h.message
  obtain ⟨kes, k1, k2, k3⟩ := rfc_keyTags h.keyTags
  -- the value of b=
  obtain ⟨bt, hbt, hb64⟩ := h.signature.signature
  have hbv : p.bi.value ≠ [] := by
    have : Rfc.value p.items b!"b" = some p.bi.value := by
      unfold Rfc.value Rfc.Parts.items
      have hd := h.tags.distinct
      unfold Rfc.Parts.items at hd
      rw [List.find?_append]
      have hn : p.before.find? (fun i => decide (i.name = b!"b")) = none := by
        rw [List.find?_eq_none]
        intro i hi hx
        have hx := of_decide_eq_true hx
        rw [List.map_append, List.nodup_append] at hd
        exact hd.2.2 i.name (List.mem_map_of_mem hi) p.bi.name (by simp) (by rw [hx, h.isB])
      rw [hn, List.find?_cons, decide_eq_true h.isB]
      rfl
    rw [this] at hbt
    cases hbt
    exact hb64.ne_nil
  have hbe := hoff p.before p.bi p.after rfl hbv
  rw [h.isB] at hbe
  obtain ⟨rest, hsplit⟩ := joinSemi_split p.before p.bi p.after
  have hval : valueText f = Rfc.joinSemi (p.before.map TagItem.text ++ [p.bi.lead]) ++ p.bi.value ++ (rest ++ p.tail) := by
    have := hsplit p.bi.value p.bi.gap2 p.bi.post
    rw [h.text]
    unfold Rfc.Parts.items
    have e : ({ p.bi with gap2 := p.bi.gap2, value := p.bi.value, post := p.bi.post } : TagItem) = p.bi := rfl
    have e2 : TagItem.lead { p.bi with gap2 := p.bi.gap2 } = p.bi.lead := rfl
    rw [e, e2] at this
    rw [this, hb.2]
    simp
  have hemp : Rfc.joinSemi ((p.before ++ Rfc.emptied p.bi :: p.after).map TagItem.text) ++ p.tail =
      Rfc.joinSemi (p.before.map TagItem.text ++ [p.bi.lead]) ++ (rest ++ p.tail) := by
    have := hsplit [] [] []
    have e2 : TagItem.lead { p.bi with gap2 := [] } = p.bi.lead := by rw [← hb.1]
    rw [e2] at this
    unfold Rfc.emptied
    rw [this]
    simp
  -- the field
  have hfield : Rfc.Field f.header := h.fields f (by simp)
  obtain ⟨⟨_, _⟩, s', hpa, _⟩ := mk'_built d type v hv
  obtain ⟨m2, s2, q1, q3, _⟩ := parseAll_head hhead (freshStream d) (at_fresh d)
  rw [hpa] at q1
  cases q1
  have hin : f ∈ v.msg.headers := by
    rw [q3, hfields]; simp
  have hcol : COLON ∈ f.header := by
    obtain ⟨⟨n, w, x, e, _, _⟩, _⟩ := hfield
    rw [e]; simp [COLON]
  obtain ⟨hname, hcut, hvo⟩ := (C22_fields d v.msg s' hpa f hin).2.2.1 hcol
  have hft : f.header = f.header.take f.valueOffset ++ valueText f := (List.take_append_drop _ _).symm
  have htake : f.header.take f.valueOffset = fieldName f.header ++ [COLON] := by
    have : f.header.take f.valueOffset ++ f.header.drop f.valueOffset = fieldName f.header ++ [COLON] ++ f.header.drop f.valueOffset := by
      rw [List.take_append_drop]; simpa using hcut
    exact List.append_cancel_right this
  have hshort : Rfc.Field (f.header.take f.valueOffset ++ (Rfc.joinSemi (p.before.map TagItem.text ++ [p.bi.lead]) ++ (rest ++ p.tail))) := by
    constructor
    · obtain ⟨⟨n, w, x, e, hn, hw⟩, _⟩ := hfield
      refine ⟨n, w, Rfc.joinSemi (p.before.map TagItem.text ++ [p.bi.lead]) ++ (rest ++ p.tail), ?_, hn, hw⟩
      rw [htake]
      have : fieldName f.header = n ++ w := by
        rw [e]
        refine (fieldName_append (n := n ++ w) ?_).1
        intro hc
        rcases List.mem_append.1 hc with hc | hc
        · exact (hn.2 _ hc).2.2 rfl
        · have := hw _ hc
          revert this
          decide
      rw [this]
      simp [COLON]
    · obtain ⟨y, hy⟩ := joinSemi_last (p.before.map TagItem.text) p.bi.lead
      have hc := hfield.cr
      rw [hft, hval, List.append_assoc (Rfc.joinSemi _), ← List.append_assoc, ← List.append_assoc] at hc
      rw [← List.append_assoc]
      refine cr_delete hc ?_
      rw [hy, TagItem.lead, hb.1]
      simp [EQ, CR]
  obtain ⟨rsa, ed, hkd, hAcc⟩ : ∃ rsa ed, KeyData E s.alg p.dat rsa ed ∧ ∀ (k : PublicKey E) (t : Signature), k.rsa = rsa → k.ed = ed → t.alg = s.alg → t.b = s.b →
      t.digest = s.digest → Accepts E t k (E.hash s.digest (Rfc.headerData s.canonHeader (p.above ++ p.below) s.headers
        (f.header.take f.valueOffset) p.before p.bi p.after p.tail)) ∧ (s.alg = .ed25519 → 63 ≤ s.b.length) := by
    cases h.primitive with
    | rsa key h1 h2 h3 =>
      refine ⟨some key, [], by rw [h1]; exact .rsa _ _ h2, ?_⟩
      intro k t e1 e2 e3 e4 e5
      refine ⟨.rsa key (by rw [e3, h1]) e1 (by rw [e4, e5]; exact h3), ?_⟩
      rw [h1]; intro hx; cases hx
    | ed h1 h2 h3 h4 =>
      refine ⟨none, p.dat, by rw [h1]; exact .ed _ h2, ?_⟩
      intro k t e1 e2 e3 e4 e5
      refine ⟨.ed (by rw [e3, h1]) ?_, fun _ => by omega⟩
      rw [e2, e4, List.take_append_of_le_length (by omega), ← h3, List.take_length]
      exact h4
  have hkc := rfc_keyClaims hB h.key hkd kes
  rw [← k3] at hkc
  have hrul : ruling (v.verifyOne E now resolver f er).1 = some .pass := by
    refine (C68_verdict d type v hv f hf hlen now er resolver .pass).2 ?_
    have hans : answer resolver { s with arc := isArcName f.name } = (true, record) := hr
    refine .accept es { s with arc := isArcName f.name } _ _ hacc ⟨ls, p.off, hhead, h.body⟩ (by rw [hans]) ⟨kes, by rw [hans]; exact k1, k2, hkc⟩
      ?_ (?_ : Input d f es _ (Rfc.headerData s.canonHeader (p.above ++ p.below) s.headers
        (f.header.take f.valueOffset) p.before p.bi p.after p.tail)) ?_ ?_
    · refine ⟨?_, rfl, ?_⟩
      · rcases h.hashAllowed with hx | hx
        · left
          have := h.key.hash
          rw [hx] at this
          generalize hg : p.hashes = hs at this
          cases this
          rfl
        · right
          rw [List.mem_filterMap]
          exact ⟨_, hx, by cases s.digest <;> rfl⟩
      · intro h1 h2
        exact (h.strict h1 h2).symm
    · refine ⟨ls, p.off, hhead, p.bi.value, Rfc.joinSemi (p.before.map TagItem.text ++ [p.bi.lead]), rest ++ p.tail, _, _, hbe, hval,
        rfc_canonFields ?_, rfc_canonField hshort, ?_⟩
      · intro x hx
        refine h.fields x ?_
        rw [← hfields]
        exact selected_mem hx
      · rw [hfields, rfc_selected_insert hm, ← hemp]
        rfl
    · exact (hAcc { rsa := rsa, ed := ed } s rfl rfl rfl rfl rfl).2
    · refine (hAcc _ _ ?_ ?_ ?_ ?_ ?_).1 <;> rfl
  revert hrul
  generalize (v.verifyOne E now resolver f er).1 = r
  intro hrul
  unfold ruling at hrul
  split at hrul <;> first | rfl | cases hrul

end Dkim

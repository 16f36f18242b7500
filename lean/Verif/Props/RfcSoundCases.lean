import Verif.Props.RfcSound
/-!
# C95, the cases left out

Signatures the library accepts, in texts written as the RFCs allow, that do not verify by the RFCs; the environment is the toy one.
-/

namespace Dkim
open Spec

variable {E : Env}

/-! ### The header data by the RFCs, from the text of the field -/

theorem joinSemi_around (xs : List Bytes) (ys : List Bytes) : ∃ y, (∀ l, Rfc.joinSemi (xs ++ [l]) = y ++ l) ∧
    ∃ rest, (rest = [] ∨ ∃ r, rest = 59 :: r) ∧ ∀ t, Rfc.joinSemi (xs ++ t :: ys) = y ++ t ++ rest := by
  induction xs with
  | nil =>
    refine ⟨[], fun l => rfl, ?_⟩
    cases ys with
    | nil => exact ⟨[], .inl rfl, fun t => by simp [Rfc.joinSemi]⟩
    | cons z ys => exact ⟨59 :: Rfc.joinSemi (z :: ys), .inr ⟨_, rfl⟩, fun t => by simp [Rfc.joinSemi]⟩
  | cons x xs ih =>
    obtain ⟨y, h1, rest, h2, h3⟩ := ih
    refine ⟨x ++ 59 :: y, ?_, rest, h2, ?_⟩
    · intro l; rw [List.cons_append, joinSemi_cons _ (by simp), h1]; simp
    · intro t; rw [List.cons_append, joinSemi_cons _ (by simp), h3]; simp

theorem dropWhile_loose {w r : Bytes} (hw : AllLoose w) (hr : ∀ c ∈ r.head?, Spec.isLoose c = false) :
    (w ++ r).dropWhile Spec.isLoose = r := by
  induction w with
  | nil =>
    cases r with
    | nil => rfl
    | cons c r => rw [List.nil_append, List.dropWhile_cons, hr c rfl]; rfl
  | cons c w ih =>
    rw [List.cons_append, List.dropWhile_cons, hw c (by simp), if_pos rfl]
    exact ih fun x hx => hw x (by simp [hx])

/-- What remains of the tag-list when b= is emptied (RFC 6376, 3.7): the text before the value without the white space at its end, and the text
after the value without the white space at its start. -/
theorem emptied_text {f : Header} {p : Rfc.Parts} (htags : Rfc.TagList (valueText f) p.items)
    (htext : valueText f = Rfc.joinSemi (p.items.map TagItem.text) ++ p.tail) (hb : p.bi.name = b!"b") (hne : p.bi.value ≠ [])
    {es : List (Bytes × TagEntry)} (hes : TagText 0 (valueText f) es) (hnd : (es.map Prod.fst).Nodup) :
    ∃ pre post, (b!"b", (⟨p.bi.value, (pre.length : Int)⟩ : TagEntry)) ∈ es ∧ valueText f = pre ++ p.bi.value ++ post ∧
      Rfc.joinSemi ((p.before ++ Rfc.emptied p.bi :: p.after).map TagItem.text) ++ p.tail =
        (pre.reverse.dropWhile Spec.isLoose).reverse ++ post.dropWhile Spec.isLoose := by
  obtain ⟨w, ht1, ht2⟩ := htags.text
  obtain ⟨es', r1, r2, r3⟩ := rfc_tagText p.items htags.nonempty htags.spec w ht2 0
  rw [← ht1] at r1
  have hee := tagText_unique hes hnd r1 (by rw [rfc_names r2]; exact htags.distinct)
  subst hee
  have hwt : p.tail = w := List.append_cancel_left (htext.symm.trans ht1)
  obtain ⟨y, y1, rest, y2, y3⟩ := joinSemi_around (p.before.map TagItem.text) (p.after.map TagItem.text)
  have hbe := r3 p.before p.bi p.after rfl hne
  rw [hb, y1] at hbe
  have hsp := htags.spec p.bi (by simp [Rfc.Parts.items])
  refine ⟨y ++ p.bi.lead, p.bi.post ++ (rest ++ p.tail), by simpa using hbe, ?_, ?_⟩
  · rw [htext, Rfc.Parts.items, List.map_append, List.map_cons, y3, TagItem.text]
    simp
  · rw [List.map_append, List.map_cons, y3]
    have e1 : ((y ++ p.bi.lead).reverse.dropWhile Spec.isLoose).reverse = y ++ (p.bi.pre ++ p.bi.name ++ p.bi.gap1 ++ [EQ]) := by
      have : (y ++ p.bi.lead).reverse = p.bi.gap2.reverse ++ (EQ :: (y ++ (p.bi.pre ++ p.bi.name ++ p.bi.gap1)).reverse) := by
        simp [TagItem.lead]
      rw [this, dropWhile_loose]
      · simp
      · intro c hc
        exact hsp.gap2.loose c (List.mem_reverse.1 hc)
      · intro c hc
        cases hc
        decide
    have e2 : (p.bi.post ++ (rest ++ p.tail)).dropWhile Spec.isLoose = rest ++ p.tail := by
      apply dropWhile_loose hsp.post.loose
      intro c hc
      have h59 : c = 59 := by
        rcases y2 with rfl | ⟨r, rfl⟩
        · rw [hwt] at hc
          rcases ht2 with rfl | ⟨g, _, rfl⟩
          · cases hc
          · cases hc; rfl
        · cases hc; rfl
      rw [h59]
      decide
    rw [e1, e2]
    simp [Rfc.emptied, TagItem.text, TagItem.lead]

/-- The parts of a signature that verifies by the RFCs, as read from the texts. -/
theorem verifies_read (hB : E.B64Law) {now : Int} {d : Bytes} {f : Header} {record : Bytes} {s : Signature} {p : Rfc.Parts}
    (h : Rfc.Verifies E now d f record s p) {es kes : TagList} (hes : TagList.parse (valueText f) [] = .ok () es)
    (hkes : TagList.parse record [] = .ok () kes) :
    Rfc.value p.items = tagVal es ∧ Rfc.value p.key = tagVal kes ∧
    ∃ pre bv post, es.getTag b!"b" = some ⟨bv, pre.length⟩ ∧ valueText f = pre ++ bv ++ post ∧
      s.b = E.b64dec (bv.filter (fun c => !Spec.isSpace c)) ∧
      Rfc.headerData s.canonHeader (p.above ++ p.below) s.headers (f.header.take f.valueOffset) p.before p.bi p.after p.tail =
        lines ((selected (p.above ++ p.below) s.headers).map (fun f => Rfc.canon s.canonHeader f.header)) ++
          Rfc.canon s.canonHeader (f.header.take f.valueOffset ++
            ((pre.reverse.dropWhile Spec.isLoose).reverse ++ post.dropWhile Spec.isLoose)) := by
  obtain ⟨es1, t1, t2, _, t4⟩ := (C11_parse_iff _ _ _).1 hes
  obtain ⟨kes1, k1, k2, _, k4⟩ := (C11_parse_iff _ _ _).1 hkes
  simp only [List.nil_append] at t4 k4
  subst t4
  subst k4
  obtain ⟨w, ht1, ht2⟩ := h.tags.text
  obtain ⟨es', r1, r2, _⟩ := rfc_tagText p.items h.tags.nonempty h.tags.spec w ht2 0
  rw [← ht1] at r1
  have hee := tagText_unique t1 t2 r1 (by rw [rfc_names r2]; exact h.tags.distinct)
  subst hee
  obtain ⟨kes', l1, l2, l3⟩ := rfc_keyTags h.keyTags
  have hke := tagText_unique k1 k2 l1 l2
  subst hke
  have hval : Rfc.value p.items = tagVal es := (funext (rfc_value r2)).symm
  obtain ⟨bt, hbt, hb64⟩ := h.signature.signature
  have hbv : Rfc.value p.items b!"b" = some p.bi.value := by
    unfold Rfc.value Rfc.Parts.items
    have hd := h.tags.distinct
    unfold Rfc.Parts.items at hd
    rw [List.find?_append]
    have hn : p.before.find? (fun i => decide (i.name = b!"b")) = none := by
      rw [List.find?_eq_none]
      intro i hi hx
      have hx := of_decide_eq_true hx
      rw [List.map_append, List.nodup_append] at hd
      exact hd.2.2 i.name (List.mem_map_of_mem hi) p.bi.name (by simp) (by rw [hx, h.isB])
    rw [hn, List.find?_cons, decide_eq_true h.isB]
    rfl
  rw [hbv] at hbt
  cases hbt
  obtain ⟨pre, post, q1, q2, q3⟩ := emptied_text h.tags h.text h.isB hb64.ne_nil t1 t2
  refine ⟨hval, l3.symm, pre, p.bi.value, post, (getTag_eq_some_iff t2 _ _).2 q1, q2, (rfc_base64 hB hb64).2, ?_⟩
  unfold Rfc.headerData
  rw [q3]

end Dkim

namespace Dkim.SoundCases
open Spec RfcCases

/-- A message with a signature field and a key record. -/
structure Case where
  /-- a=, h= and its names -/
  alg : Bytes
  h : Bytes
  names : List Bytes
  /-- white space before and after the value of b= -/
  g : Bytes
  p : Bytes
  /-- the data of b= -/
  sg : Bytes
  /-- the key record: tag-specs, data, hashes, services -/
  key : List TagItem
  dat : Bytes
  hashes : List Bytes
  services : List Bytes

def Case.before (c : Case) : List TagItem :=
  [tag b!"v" b!"1", tag b!"a" c.alg, tag b!"d" b!"d.e", tag b!"s" b!"s", tag b!"h" c.h, tag b!"bh" b!"Ag0K"]

def Case.bItem (c : Case) : TagItem := ⟨[SP], b!"b", [], c.g, base64 c.sg, c.p⟩

def Case.field (c : Case) : Header :=
  ⟨b!"DKIM-Signature", lead ++ Rfc.joinSemi ((c.before ++ [c.bItem]).map TagItem.text), lead.length⟩

def Case.msg (c : Case) : Bytes := c.field.header ++ CRLF ++ fromField.header ++ CRLF ++ CRLF

def Case.record (c : Case) : Bytes := Rfc.joinSemi (c.key.map TagItem.text)

def Case.parts (c : Case) : Rfc.Parts where
  above := []
  below := [fromField]
  off := c.msg.length
  before := c.before
  bi := c.bItem
  after := []
  tail := []
  key := c.key
  dat := c.dat
  hashes := c.hashes
  services := c.services
  flags := []

/-- Everything about a case that evaluation can check. -/
def Case.checks (c : Case) : Bool :=
  c.parts.items.all okItem && decide ((c.parts.items.map TagItem.name).Nodup) &&
  c.key.all okItem && decide ((c.key.map TagItem.name).Nodup) && !c.key.isEmpty &&
  (match Message.parseAll {} (freshStream c.msg) with
   | .ok (m, _) => decide (m.headers = [c.field, fromField]) && decide (m.bodyOffset = c.parts.off)
   | .error _ => false) &&
  !c.field.header.contains CR && !(base64 c.sg).isEmpty &&
  (let t := Rfc.value c.parts.items
   decide (t b!"b" = some (base64 c.sg)) && decide (t b!"bh" = some b!"Ag0K") && decide (t b!"d" = some b!"d.e") &&
     decide (t b!"s" = some b!"s") && decide (t b!"h" = some c.h) && decide (t b!"i" = none) && decide (t b!"l" = none) &&
     decide (t b!"t" = none) && decide (t b!"x" = none)) &&
  (let t := Rfc.value c.key
   decide (t b!"p" = some (base64 c.dat)) && decide (t b!"t" = none) && !(base64 c.dat).isEmpty)

theorem written {c : Case} (hc : c.checks = true) (hh : Rfc.ColonList Rfc.FieldName c.h c.names)
    (hw : Rfc.Words (Rfc.value c.key b!"h") c.hashes) (hs : Rfc.Words (Rfc.value c.key b!"s") c.services) :
    Rfc.Written c.msg c.field c.record c.parts := by
  unfold Case.checks at hc
  simp only [Bool.and_eq_true, decide_eq_true_eq] at hc
  obtain ⟨⟨⟨⟨⟨⟨⟨⟨⟨h1, h2⟩, h3⟩, h4⟩, h5⟩, h6⟩, h7⟩, h8⟩, ⟨⟨⟨⟨⟨⟨⟨⟨tb, tbh⟩, td⟩, ts⟩, th⟩, ti⟩, tl⟩, tt⟩, tx⟩⟩, ⟨⟨kp, kt⟩, kne⟩⟩ := hc
  have hval : valueText c.field = Rfc.joinSemi (c.parts.items.map TagItem.text) := by
    unfold valueText Case.field
    exact List.drop_left ..
  have keyNe : c.parts.key ≠ [] := by
    intro e
    change c.key = [] at e
    rw [e] at h5
    cases h5
  have ne : ∀ x : Bytes, (!x.isEmpty) = true → x ≠ [] := by
    intro x hx e
    subst e
    cases hx
  exact {
    message := by
      obtain ⟨m, s', ls, q1, q2, q3, _⟩ := C20_parse c.msg
      rw [q1] at h6
      simp only [Bool.and_eq_true, decide_eq_true_eq] at h6
      refine ⟨ls, ?_, ?_⟩
      · rw [← h6.2]; exact q2
      · rw [← q3, h6.1]; rfl
    fields := by
      intro x hx
      have hx : x = c.field ∨ x = fromField := by simpa [Case.parts] using hx
      rcases hx with rfl | rfl
      · refine ⟨⟨b!"DKIM-Signature", [], Rfc.joinSemi ((c.before ++ [c.bItem]).map TagItem.text), ?_,
          ⟨by decide, by decide⟩, by intro c hc; cases hc⟩, no_cr ?_⟩
        · unfold Case.field lead
          simp
        · intro hx
          rw [List.contains_iff_mem.2 hx] at h7
          cases h7
      · exact ⟨⟨b!"From", [], b!" a@b.c", rfl, ⟨by decide, by decide⟩, by intro c hc; cases hc⟩, no_cr (by decide)⟩
    tags := ⟨by simp [Rfc.Parts.items], fun i hi => okItem_spec (List.all_eq_true.1 h1 i hi), ⟨[], by rw [hval]; simp, .inl rfl⟩, h2⟩
    text := by rw [hval]; exact (List.append_nil _).symm
    isB := rfl
    field := {
      signature := fun v hv => by rw [tb] at hv; cases hv; exact ⟨_, spread_refl (ne _ h8)⟩
      bodyHash := fun v hv => by
        rw [tbh] at hv
        cases hv
        refine ⟨[2, 13, 10], ?_⟩
        have : base64 [2, 13, 10] = b!"Ag0K" := by decide +kernel
        show Rfc.Spread (base64 [2, 13, 10]) b!"Ag0K"
        rw [this]
        exact spread_refl (by simp)
      domain := fun v hv => by rw [td] at hv; cases hv; exact dom_de
      selector := fun v hv => by rw [ts] at hv; cases hv; exact dom_s
      headers := fun v hv => by rw [th] at hv; cases hv; exact ⟨_, hh⟩
      identity := fun _ v hv => by rw [ti] at hv; cases hv
      arcInstance := fun _ v hv => by rw [ti] at hv; cases hv
      length := fun v hv => by rw [tl] at hv; cases hv
      time := fun v hv => by rw [tt] at hv; cases hv
      expiration := fun v hv => by rw [tx] at hv; cases hv }
    keyTags := ⟨keyNe, fun i hi => okItem_spec (List.all_eq_true.1 h3 i hi), ⟨[], by rw [Case.record]; exact (List.append_nil _).symm, .inl rfl⟩, h4⟩
    key := by
      refine ⟨hw, fun v hv => ?_, hs, ?_⟩
      · change Rfc.value c.key _ = _ at hv
        rw [kp] at hv
        cases hv
        exact .inr (spread_refl (ne _ kne))
      · show Rfc.Words (Rfc.value c.key b!"t") []
        rw [kt]
        exact .absent }

/-- For a message written by the RFCs, with parts that satisfy `Q`: the library accepts the signature; it does not verify by the RFCs, however
the texts are read. -/
def WronglyAccepted (Q : Header → Rfc.Parts → Prop) : Prop :=
  ∃ d record v f p, Validatory.mk' (freshStream d) .dkim = .ok v ∧ v.sigs = [f] ∧ Rfc.Written d f record p ∧ Q f p ∧
    (v.verifyOne toyEnv 0 (fun _ => (true, record)) f false).1 = .ok () ∧ ∀ s p, ¬ Rfc.Verifies toyEnv 0 d f record s p

/-- The library's verdict, by evaluation. -/
def Case.accepted (c : Case) : Bool :=
  match Validatory.mk' (freshStream c.msg) .dkim with
  | .ok v => decide (v.sigs = [c.field]) &&
      (match (v.verifyOne toyEnv 0 (fun _ => (true, c.record)) c.field false).1 with | .ok _ => true | .error _ => false)
  | .error _ => false

theorem wrongly {c : Case} (ha : c.accepted = true) (hw : Rfc.Written c.msg c.field c.record c.parts)
    {Q : Header → Rfc.Parts → Prop} (hQ : Q c.field c.parts)
    (hn : ∀ s p, ¬ Rfc.Verifies toyEnv 0 c.msg c.field c.record s p) : WronglyAccepted Q := by
  unfold Case.accepted at ha
  split at ha
  · rename_i v hv
    simp only [Bool.and_eq_true, decide_eq_true_eq] at ha
    refine ⟨c.msg, c.record, v, c.field, c.parts, hv, ha.1, hw, hQ, ?_, hn⟩
    have := ha.2
    split at this
    · rename_i u hu
      rw [hu]
    · cases this
  · cases ha

/-! ### The cases -/

def libSig : Bytes := sigData b!"from" [b!"from"] []

/-- The key record allows only the hash sha512. -/
def otherHash : Case := ⟨b!"rsa-sha256", b!"from", [b!"from"], [], [], libSig,
  [tag b!"v" b!"DKIM1", tag b!"h" b!"sha512", tag b!"p" b!"Bw=="], [7], [b!"sha512"], []⟩

/-- The key record is for another service. -/
def otherService : Case := ⟨b!"rsa-sha256", b!"from", [b!"from"], [], [], libSig,
  [tag b!"v" b!"DKIM1", tag b!"s" b!"tlsrpt", tag b!"p" b!"Bw=="], [7], [], [b!"tlsrpt"]⟩

def edKey : Bytes := List.replicate 32 5

/-- An Ed25519 signature followed by another byte. -/
def longEd : Case :=
  let c : Case := ⟨b!"ed25519-sha256", b!"from", [b!"from"], [], [], [],
    [tag b!"k" b!"ed25519", tag b!"p" (base64 edKey)], edKey, [], []⟩
  { c with sg := fit 64 (edKey ++ 2 :: Rfc.headerData .simple [fromField] [b!"from"] lead c.before (tag b!"b" []) [] []) ++ [0] }

/-- White space before the value of b=, which is hashed. -/
def spaceHashed : Case :=
  let c : Case := ⟨b!"rsa-sha256", b!"from", [b!"from"], [SP], [], [],
    [tag b!"v" b!"DKIM1", tag b!"p" b!"Bw=="], [7], [], []⟩
  { c with sg := 7 :: 2 :: (fromField.header ++ CRLF ++ (lead ++ Rfc.joinSemi ((c.before ++ [(⟨[SP], b!"b", [], [SP], [], []⟩ : TagItem)]).map TagItem.text))) }

/-- h= starts with the name of the signature field itself, which is hashed (with its b=). -/
def ownName : Case := ⟨b!"ed25519-sha256", b!"dkim-signature:from", [b!"dkim-signature", b!"from"], [], [],
  fit 64 (edKey ++ 2 :: b!"DKIM-Signature: v=1; a=ed25519-sha256; d=d.e"),
  [tag b!"k" b!"ed25519", tag b!"p" (base64 edKey)], edKey, [], []⟩

/-- The tags of field and record, by evaluation. -/
def Case.tags (c : Case) (q : TagList → TagList → Bool) : Bool :=
  match TagList.parse (valueText c.field) [], TagList.parse c.record [] with
  | .ok () es, .ok () kes => q es kes
  | _, _ => false

theorem case_tags {c : Case} {q : TagList → TagList → Bool} (h : c.tags q = true) :
    ∃ es kes, TagList.parse (valueText c.field) [] = .ok () es ∧ TagList.parse c.record [] = .ok () kes ∧ q es kes = true := by
  unfold Case.tags at h
  split at h
  · rename_i es kes h1 h2
    exact ⟨es, kes, h1, h2, h⟩
  · cases h

/-- The header data by the RFCs, for a case. -/
def Case.rfcData (c : Case) (off : Nat) (len : Nat) : Bytes :=
  lines ((selected [fromField] c.names).map (fun f => f.header)) ++
    (c.field.header.take c.field.valueOffset ++ ((((valueText c.field).take off).reverse.dropWhile Spec.isLoose).reverse ++
      ((valueText c.field).drop (off + len)).dropWhile Spec.isLoose))

theorem case_data {c : Case} {s : Signature} {p : Rfc.Parts} (h : Rfc.Verifies toyEnv 0 c.msg c.field c.record s p)
    (hc : c.checks = true) (hh : Rfc.ColonList Rfc.FieldName c.h c.names) (hne : c.field ≠ fromField) (off : Nat)
    (ht : c.tags (fun es _ => decide (es.getTag b!"b" = some ⟨base64 c.sg, off⟩) && decide (tagVal es b!"c" = none) &&
      decide (tagVal es b!"h" = some c.h) && decide (b64DecodeRef ((base64 c.sg).filter (fun c => !Spec.isSpace c)) = c.sg)) = true) :
    s.b = c.sg ∧ Rfc.headerData s.canonHeader (p.above ++ p.below) s.headers (c.field.header.take c.field.valueOffset) p.before p.bi p.after
      p.tail = c.rfcData off (base64 c.sg).length := by
  obtain ⟨es, kes, h1, h2, h3⟩ := case_tags ht
  simp only [Bool.and_eq_true, decide_eq_true_eq] at h3
  obtain ⟨⟨⟨a1, a2⟩, a3⟩, a4⟩ := h3
  obtain ⟨r1, r2, pre, bv, post, r3, r4, r5, r6⟩ := verifies_read (E := toyEnv) C18_law_satisfiable h h1 h2
  rw [a1] at r3
  simp only [Option.some.injEq, TagEntry.mk.injEq] at r3
  obtain ⟨rfl, hoff⟩ := r3
  have hoff : off = pre.length := by omega
  subst hoff
  refine ⟨r5.trans a4, ?_⟩
  have hcan : s.canonHeader = .simple := by
    have := h.signature.canon
    rw [r1, a2] at this
    generalize s.canonHeader = m at this
    generalize s.canonBody = m' at this
    cases this
    rfl
  have hnames : s.headers = c.names := by
    obtain ⟨t, t1, t2⟩ := h.signature.headers
    rw [r1, a3] at t1
    cases t1
    exact list_read hh (rfc_list t2).1
  have hab : p.above ++ p.below = [fromField] := by
    obtain ⟨ls, l1, l2⟩ := h.message
    have hc6 := hc
    unfold Case.checks at hc6
    simp only [Bool.and_eq_true] at hc6
    have h6 := hc6.1.1.1.1.2
    obtain ⟨m, s', q1, q3, _⟩ := parseAll_head l1 (freshStream c.msg) (at_fresh c.msg)
    rw [q1] at h6
    simp only [Bool.and_eq_true, decide_eq_true_eq] at h6
    rw [q3, l2] at h6
    have e := h6.1
    generalize p.above = ab at e
    generalize p.below = be at e
    cases ab with
    | nil =>
      simp only [List.nil_append, List.cons.injEq, true_and] at e
      exact e
    | cons x ab =>
      cases ab with
      | nil =>
        simp only [List.nil_append, List.cons_append, List.cons.injEq] at e
        exact absurd e.2.1 hne
      | cons y ab => simp at e
  rw [r6, hcan, hnames, hab, Case.rfcData, r4]
  have e1 : (pre ++ base64 c.sg ++ post).take pre.length = pre := by simp
  have e2 : (pre ++ base64 c.sg ++ post).drop (pre.length + (base64 c.sg).length) = post := by simp
  rw [e1, e2]
  rfl

theorem not_itself {c : Case} (hh : Rfc.ColonList Rfc.FieldName c.h c.names)
    (hm : Rfc.value c.parts.items b!"h" = some c.h ∧ mentions c.names c.field.name = 0) : Rfc.NotItself c.field c.parts := by
  intro t names h1 h2
  rw [hm.1] at h1
  cases h1
  rw [list_read hh (rfc_list h2).1, hm.2]
  exact Nat.zero_le _

theorem single {n : Bytes} (h : Rfc.FieldName n) : Rfc.ColonList Rfc.FieldName n [n] := .one n h

end Dkim.SoundCases

namespace Dkim
open Spec RfcCases SoundCases

/-- h= of the key record lists the hashes that may be used; when the library knows none of them, it takes any. -/
theorem C95_other_hash :
    WronglyAccepted (fun f p => ¬ Rfc.KnownHash p ∧ Rfc.ForMail p ∧ Rfc.RightLength p ∧ Rfc.Tight p ∧ Rfc.NotItself f p) := by
  refine wrongly (c := otherHash) (by decide +kernel) (written (by decide +kernel) names_from ?_ ?_) ?_ ?_
  · exact .present b!"sha512" _ (single ⟨by decide, by decide⟩)
  · exact .absent
  · refine ⟨by unfold Rfc.KnownHash; decide, by unfold Rfc.ForMail; decide, fun h => absurd h (by decide), ⟨rfl, rfl⟩, not_itself names_from (by decide +kernel)⟩
  · intro s p h
    obtain ⟨es, kes, h1, h2, h3⟩ := case_tags (c := otherHash) (q := fun _ kes => decide (tagVal kes b!"h" = some b!"sha512")) (by decide +kernel)
    obtain ⟨_, r2, _⟩ := verifies_read (E := toyEnv) C18_law_satisfiable h h1 h2
    have hv : Rfc.value p.key b!"h" = some b!"sha512" := by rw [r2]; exact of_decide_eq_true h3
    have hw := h.key.hash
    rw [hv] at hw
    rcases h.hashAllowed with hx | hx
    · rw [hv] at hx; cases hx
    · generalize p.hashes = hs at hw hx
      cases hw with
      | present _ ws hl =>
        rw [list_read (single ⟨by decide, by decide⟩) (rfc_list hl).1] at hx
        generalize s.digest = dg at hx
        revert hx
        cases dg <;> decide

/-- s= of the key record lists the services the key may be used for; the library takes any. -/
theorem C95_other_service :
    WronglyAccepted (fun f p => Rfc.KnownHash p ∧ ¬ Rfc.ForMail p ∧ Rfc.RightLength p ∧ Rfc.Tight p ∧ Rfc.NotItself f p) := by
  refine wrongly (c := otherService) (by decide +kernel) (written (by decide +kernel) names_from ?_ ?_) ?_ ?_
  · exact .absent
  · exact .present b!"tlsrpt" _ (single ⟨by decide, by decide⟩)
  · refine ⟨by unfold Rfc.KnownHash; decide, by unfold Rfc.ForMail; decide, fun h => absurd h (by decide), ⟨rfl, rfl⟩, not_itself names_from (by decide +kernel)⟩
  · intro s p h
    obtain ⟨es, kes, h1, h2, h3⟩ := case_tags (c := otherService) (q := fun _ kes => decide (tagVal kes b!"s" = some b!"tlsrpt")) (by decide +kernel)
    obtain ⟨_, r2, _⟩ := verifies_read (E := toyEnv) C18_law_satisfiable h h1 h2
    have hv : Rfc.value p.key b!"s" = some b!"tlsrpt" := by rw [r2]; exact of_decide_eq_true h3
    have hw := h.key.service
    rw [hv] at hw
    have hx := h.service
    rw [hv] at hx
    generalize p.services = ss at hw hx
    cases hw with
    | present _ ws hl =>
      rw [list_read (single ⟨by decide, by decide⟩) (rfc_list hl).1] at hx
      revert hx
      decide

/-- An Ed25519 signature has 64 bytes (RFC 8032); the library ignores what follows them. -/
theorem C95_long_signature :
    WronglyAccepted (fun f p => Rfc.KnownHash p ∧ Rfc.ForMail p ∧ ¬ Rfc.RightLength p ∧ Rfc.Tight p ∧ Rfc.NotItself f p) := by
  refine wrongly (c := longEd) (by decide +kernel) (written (by decide +kernel) names_from ?_ ?_) ?_ ?_
  · exact .absent
  · exact .absent
  · refine ⟨by unfold Rfc.KnownHash; decide, by unfold Rfc.ForMail; decide, ?_, ⟨rfl, rfl⟩, not_itself names_from (by decide +kernel)⟩
    intro h
    obtain ⟨bytes, h1, h2⟩ := h (by decide +kernel)
    have e := (rfc_base64 (E := toyEnv) C18_law_satisfiable h1).2
    rw [e] at h2
    revert h2
    decide +kernel
  · intro s p h
    obtain ⟨hb, _⟩ := case_data h (by decide +kernel) names_from (by decide) 55 (by decide +kernel)
    obtain ⟨es, kes, h1, h2, h3⟩ := case_tags (c := longEd) (q := fun _ kes => decide (tagVal kes b!"k" = some b!"ed25519")) (by decide +kernel)
    obtain ⟨_, r2, _⟩ := verifies_read (E := toyEnv) C18_law_satisfiable h h1 h2
    have hk := h.key.keyType
    rw [r2, of_decide_eq_true h3] at hk
    have hp := h.primitive
    cases hp with
    | rsa key a _ _ => rw [a] at hk; cases hk
    | ed a b c _ =>
      rw [hb] at c
      revert c
      decide +kernel

/-- RFC 6376, 3.7 deletes the value of b= with the white space around it before hashing; the library hashes the white space. -/
theorem C95_space_hashed :
    WronglyAccepted (fun f p => Rfc.KnownHash p ∧ Rfc.ForMail p ∧ Rfc.RightLength p ∧ ¬ Rfc.Tight p ∧ Rfc.NotItself f p) := by
  refine wrongly (c := spaceHashed) (by decide +kernel) (written (by decide +kernel) names_from ?_ ?_) ?_ ?_
  · exact .absent
  · exact .absent
  · refine ⟨by unfold Rfc.KnownHash; decide, by unfold Rfc.ForMail; decide, fun h => absurd h (by decide), by unfold Rfc.Tight; decide, not_itself names_from (by decide +kernel)⟩
  · intro s p h
    obtain ⟨hb, hd⟩ := case_data h (by decide +kernel) names_from (by decide) 52 (by decide +kernel)
    obtain ⟨es, kes, h1, h2, h3⟩ := case_tags (c := spaceHashed) (q := fun _ kes => decide (tagVal kes b!"k" = none)) (by decide +kernel)
    obtain ⟨_, r2, _⟩ := verifies_read (E := toyEnv) C18_law_satisfiable h h1 h2
    have hk := h.key.keyType
    rw [r2, of_decide_eq_true h3] at hk
    have hp := h.primitive
    rw [hd] at hp
    cases hp with
    | rsa key a _ c =>
      rw [hb] at c
      have c : spaceHashed.sg = UInt8.ofNat key :: toyEnv.hash s.digest (spaceHashed.rfcData 52 (base64 spaceHashed.sg).length) := eq_of_beq c
      have c := congrArg (List.drop 2) c
      have c : spaceHashed.sg.drop 2 = spaceHashed.rfcData 52 (base64 spaceHashed.sg).length := c
      revert c
      decide +kernel
    | ed a _ _ _ => rw [a] at hk; cases hk

/-- h= never means the signature field that is verified (RFC 6376, 3.5); the library hashes it, with its b=. -/
theorem C95_signature_hashes_itself :
    WronglyAccepted (fun f p => Rfc.KnownHash p ∧ Rfc.ForMail p ∧ Rfc.RightLength p ∧ Rfc.Tight p ∧ ¬ Rfc.NotItself f p) := by
  have hh : Rfc.ColonList Rfc.FieldName b!"dkim-signature:from" [b!"dkim-signature", b!"from"] :=
    .cons b!"dkim-signature" [] [] b!"from" _ ⟨by decide, by decide⟩ (.inl rfl) (.inl rfl) names_from
  refine wrongly (c := ownName) (by decide +kernel) (written (by decide +kernel) hh ?_ ?_) ?_ ?_
  · exact .absent
  · exact .absent
  · refine ⟨by unfold Rfc.KnownHash; decide, by unfold Rfc.ForMail; decide, fun _ => ⟨ownName.sg, ?_, by decide +kernel⟩, ⟨rfl, rfl⟩, ?_⟩
    · exact spread_refl (by decide +kernel)
    · intro h
      have := h _ _ (by decide +kernel : _ = some b!"dkim-signature:from") hh
      revert this
      decide +kernel
  · intro s p h
    obtain ⟨hb, hd⟩ := case_data h (by decide +kernel) hh (by decide) 70 (by decide +kernel)
    obtain ⟨es, kes, h1, h2, h3⟩ := case_tags (c := ownName) (q := fun _ kes => decide (tagVal kes b!"k" = some b!"ed25519")) (by decide +kernel)
    obtain ⟨_, r2, _⟩ := verifies_read (E := toyEnv) C18_law_satisfiable h h1 h2
    have hk := h.key.keyType
    rw [r2, of_decide_eq_true h3] at hk
    have hp := h.primitive
    rw [hd] at hp
    cases hp with
    | rsa key a _ _ => rw [a] at hk; cases hk
    | ed a b _ c =>
      rw [hb] at c
      have c := (Bool.and_eq_true _ _ ▸ c : _ ∧ _).2
      have c : ownName.sg = fit 64 (p.dat ++ toyEnv.hash s.digest (ownName.rfcData 70 (base64 ownName.sg).length)) := eq_of_beq c
      have c := congrArg (fun l => l[33]?) c
      unfold fit at c
      have hlen : (p.dat ++ toyEnv.hash s.digest (ownName.rfcData 70 (base64 ownName.sg).length) ++ List.replicate 64 0)[33]? =
          (ownName.rfcData 70 (base64 ownName.sg).length ++ List.replicate 64 0)[0]? := by
        rw [List.append_assoc, List.getElem?_append_right (by omega), b]
        rfl
      simp only [List.getElem?_take] at c
      rw [if_pos (by decide), hlen] at c
      revert c
      decide +kernel

/-- A signature with nothing wrong. -/
def SoundCases.good : Case := ⟨b!"rsa-sha256", b!"from", [b!"from"], [], [], libSig,
  [tag b!"v" b!"DKIM1", tag b!"h" b!"sha256", tag b!"s" b!"email", tag b!"p" b!"Bw=="], [7], [b!"sha256"], [b!"email"]⟩

theorem SoundCases.good_written : Rfc.Written good.msg good.field good.record good.parts := by
  refine written (by decide +kernel) names_from ?_ ?_
  · exact .present b!"sha256" _ (single ⟨by decide, by decide⟩)
  · exact .present b!"email" _ (single ⟨by decide, by decide⟩)

/-- The hypotheses of `C95_iff_partial` (and so those of `C95_valid_partial`) are met, and both sides hold. -/
example : ∃ v, Validatory.mk' (freshStream good.msg) .dkim = .ok v ∧
    ((v.verifyOne toyEnv 0 (fun _ => (true, good.record)) good.field false).1 = .ok () ↔
      ∃ s, Rfc.Verifies toyEnv 0 good.msg good.field good.record s good.parts) ∧
    (v.verifyOne toyEnv 0 (fun _ => (true, good.record)) good.field false).1 = .ok () := by
  obtain ⟨v, hv, hs⟩ := ok_of (Validatory.mk' (freshStream good.msg) .dkim)
    (fun v => decide (v.sigs = [good.field]) &&
      (match (v.verifyOne toyEnv 0 (fun _ => (true, good.record)) good.field false).1 with | .ok _ => true | .error _ => false)) (by decide +kernel)
  simp only [Bool.and_eq_true, decide_eq_true_eq] at hs
  refine ⟨v, hv, C95_iff_partial (E := toyEnv) C18_law_satisfiable _ .dkim v hv good.field ?_ ?_ 0 _ good.record good.parts good_written ?_ ?_ ?_ ?_ ?_ ?_ ?_ ?_ ?_, ?_⟩
  · rw [hs.1]; simp
  · decide +kernel
  · intros; rfl
  · unfold Rfc.KnownHash; decide
  · unfold Rfc.ForMail; decide
  · exact fun h => absurd h (by decide)
  · exact ⟨rfl, rfl⟩
  · exact not_itself names_from (by decide +kernel)
  · intro q hq; exact absurd hq (by rw [(by decide +kernel : Rfc.value good.parts.items b!"q" = none)]; simp)
  · intro l hl; exact absurd hl (by rw [(by decide +kernel : Rfc.value good.parts.items b!"l" = none)]; simp)
  · intro _ t loc dom hi; exact absurd hi (by rw [(by decide +kernel : Rfc.value good.parts.items b!"i" = none)]; simp)
  · have := hs.2
    split at this
    · rename_i u hu; rw [hu]
    · cases this

end Dkim

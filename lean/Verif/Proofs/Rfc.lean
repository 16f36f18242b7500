import Verif.Spec.Rfc
import Verif.Props.Verdict
import Verif.Props.Base64
import Verif.Props.Tokens
import Verif.Props.Dns
/-!
# Lemmas: texts allowed by the RFCs
-/

namespace Dkim
open Spec

/-! ### White space -/

theorem wsp_loose {c : Byte} (h : Spec.isWSP c = true) : Spec.isLoose c = true := by
  simp only [Spec.isWSP, Spec.isLoose, Bool.or_eq_true] at *
  rcases h with h | h <;> simp [h]

theorem Spec.Rfc.FWS.loose {w : Bytes} (h : Rfc.FWS w) : AllLoose w := by
  cases h with
  | plain w h _ => exact fun c hc => wsp_loose (h c hc)
  | fold a b ha hb _ =>
    intro c hc
    simp only [List.mem_append, CRLF, List.mem_cons, List.not_mem_nil, or_false] at hc
    rcases hc with (hc | rfl | rfl) | hc
    · exact wsp_loose (ha c hc)
    · decide
    · decide
    · exact wsp_loose (hb c hc)

theorem Spec.Rfc.OptFWS.loose {w : Bytes} (h : Rfc.OptFWS w) : AllLoose w := by
  rcases h with rfl | h
  · intro c hc; cases hc
  · exact h.loose

theorem Spec.Rfc.Gap.loose {w : Bytes} (h : Rfc.Gap w) : AllLoose w := by
  induction h with
  | one w h => exact h.loose
  | more w r h _ ih =>
    intro c hc
    rcases List.mem_append.1 hc with hc | hc
    · exact h.loose c hc
    · exact ih c hc

theorem fwsRun_wsp {w r : Bytes} (h : AllWSP w) (hr : FwsRun r) : FwsRun (w ++ r) := by
  induction w with
  | nil => exact hr
  | cons c w ih => exact .wsp c _ (h c (by simp)) (ih fun x hx => h x (by simp [hx]))

theorem Spec.Rfc.OptFWS.run {w : Bytes} (h : Rfc.OptFWS w) : FwsRun w := by
  rcases h with rfl | h
  · exact .nil
  · cases h with
    | plain w h _ => simpa using fwsRun_wsp h .nil
    | fold a b ha hb hne =>
      cases b with
      | nil => exact absurd rfl hne
      | cons c b =>
        rw [List.append_assoc]
        refine fwsRun_wsp ha (.fold c b (hb c (by simp)) ?_)
        simpa using fwsRun_wsp (fun x hx => hb x (by simp [hx])) .nil

/-! ### Tag lists -/

theorem valChar_val {c : Byte} (h : Rfc.ValChar c) : IsValByte c := h

theorem Spec.Rfc.TagValue.ok {v : Bytes} (h : Rfc.TagValue v) : IsTagValue v := by
  induction h with
  | empty => exact ⟨by simp, by simp, by simp⟩
  | one t ht =>
    refine ⟨fun c hc => .inl (ht.2 c hc), fun c hc => ht.2 c (List.mem_of_head? hc), fun c hc => ht.2 c (List.mem_of_getLast? hc)⟩
  | more t g r ht hg hr _ ih =>
    obtain ⟨h1, h2, h3⟩ := ih
    refine ⟨?_, ?_, ?_⟩
    · intro c hc
      simp only [List.mem_append] at hc
      rcases hc with (hc | hc) | hc
      · exact .inl (ht.2 c hc)
      · exact .inr (hg.loose c hc)
      · exact h1 c hc
    · intro c hc
      have : (t ++ g ++ r).head? = t.head? := by
        cases t with
        | nil => exact absurd rfl ht.1
        | cons x t => rfl
      rw [this] at hc
      exact ht.2 c (List.mem_of_head? hc)
    · intro c hc
      have : (t ++ g ++ r).getLast? = r.getLast? := by
        rw [List.getLast?_append]
        cases hl : r.getLast? with
        | none => exact absurd (List.getLast?_eq_none_iff.1 hl) hr
        | some x => rfl
      rw [this] at hc
      exact h3 c hc

theorem Spec.Rfc.TagName.ok {n : Bytes} (h : Rfc.TagName n) : IsTagName n := by
  obtain ⟨c, r, rfl, hc, hr⟩ := h
  refine ⟨by simp, ?_⟩
  have alpha : ∀ c, Rfc.Alpha c → Spec.isAlnum c = true := by
    intro c h
    simp only [Rfc.Alpha, Spec.isAlnum, Bool.or_eq_true, Bool.and_eq_true, decide_eq_true_eq] at *
    rcases h with h | h
    · exact .inl (.inl h)
    · exact .inl (.inr h)
  intro x hx
  rcases List.mem_cons.1 hx with rfl | hx
  · exact .inl (alpha _ hc)
  · rcases hr x hx with h | h | h
    · exact .inl (alpha _ h)
    · left
      simp only [Spec.isAlnum, Bool.or_eq_true, Bool.and_eq_true, decide_eq_true_eq]
      exact .inr h
    · exact .inr h

/-- The same item, with all white space after an empty value counted as before it. -/
def normItem (i : TagItem) : TagItem := if i.value = [] then { i with gap2 := i.gap2 ++ i.post, post := [] } else i

theorem normItem_text (i : TagItem) : (normItem i).text = i.text := by
  unfold normItem
  split
  · rename_i h; simp [TagItem.text, TagItem.lead, h]
  · rfl

theorem normItem_name (i : TagItem) : (normItem i).name = i.name := by unfold normItem; split <;> rfl
theorem normItem_value (i : TagItem) : (normItem i).value = i.value := by unfold normItem; split <;> rfl
theorem normItem_lead (i : TagItem) (h : i.value ≠ []) : (normItem i).lead = i.lead := by unfold normItem; rw [if_neg h]

theorem Spec.Rfc.TagSpec.wf {i : TagItem} (h : Rfc.TagSpec i) : (normItem i).WF := by
  unfold normItem
  split
  · rename_i hv
    refine ⟨h.pre.loose, h.name.ok, h.gap1.loose, ?_, ?_, (fun c hc => by cases hc), fun _ => rfl⟩
    · intro c hc
      rcases List.mem_append.1 hc with hc | hc
      · exact h.gap2.loose c hc
      · exact h.post.loose c hc
    · show IsTagValue i.value
      exact h.value.ok
  · rename_i hv
    exact ⟨h.pre.loose, h.name.ok, h.gap1.loose, h.gap2.loose, h.value.ok, h.post.loose, fun hx => absurd hx hv⟩

theorem joinSemi_cons (x : Bytes) {r : List Bytes} (h : r ≠ []) : Rfc.joinSemi (x :: r) = x ++ 59 :: Rfc.joinSemi r := by
  cases r with
  | nil => exact absurd rfl h
  | cons y r => rfl

/-- The tags of a conforming tag-list, as read by the library. -/
theorem rfc_tagText (items : List TagItem) (hne : items ≠ []) (hs : ∀ i ∈ items, Rfc.TagSpec i) (w : Bytes)
    (hw : w = [] ∨ ∃ f, Rfc.OptFWS f ∧ w = 59 :: f) (pos : Nat) :
    ∃ es, TagText pos (Rfc.joinSemi (items.map TagItem.text) ++ w) es ∧
      es.map (fun e => (e.1, e.2.value)) = items.map (fun i => (i.name, i.value)) ∧
      ∀ xs bi ys, items = xs ++ bi :: ys → bi.value ≠ [] →
        (bi.name, (⟨bi.value, ((pos + (Rfc.joinSemi (xs.map TagItem.text ++ [bi.lead])).length : Nat) : Int)⟩ : TagEntry)) ∈ es := by
  induction items generalizing pos with
  | nil => exact absurd rfl hne
  | cons i items ih =>
    have hi := (hs i (by simp)).wf
    cases items with
    | nil =>
      have only : ∀ xs bi ys, [i] = xs ++ bi :: ys → xs = [] ∧ bi = i := by
        intro xs bi ys h
        cases xs with
        | nil => simp at h; exact ⟨rfl, h.1.symm⟩
        | cons a xs => simp at h
      rcases hw with rfl | ⟨f, hf, rfl⟩
      · have t := TagText.last pos (normItem i) hi
        rw [normItem_text] at t
        refine ⟨_, by simpa [Rfc.joinSemi] using t, by simp [normItem_name, normItem_value], ?_⟩
        intro xs bi ys h hv
        obtain ⟨rfl, rfl⟩ := only xs bi ys h
        simp only [normItem_name, normItem_value, if_neg hv, normItem_lead _ hv, List.mem_singleton]
        simp [Rfc.joinSemi]
      · have t := TagText.cons pos (normItem i) f [] hi (.done _ f hf.loose)
        rw [normItem_text] at t
        refine ⟨_, by simpa [Rfc.joinSemi] using t, by simp [normItem_name, normItem_value], ?_⟩
        intro xs bi ys h hv
        obtain ⟨rfl, rfl⟩ := only xs bi ys h
        simp only [normItem_name, normItem_value, normItem_lead _ hv, List.mem_singleton]
        simp [Rfc.joinSemi]
    | cons j items =>
      obtain ⟨es, h1, h2, h3⟩ := ih (by simp) (fun k hk => hs k (by simp [hk])) (pos + i.text.length + 1)
      have t := TagText.cons pos (normItem i) _ es hi (by rw [normItem_text]; exact h1)
      rw [normItem_text] at t
      refine ⟨((normItem i).name, { value := (normItem i).value, offset := ((pos + (normItem i).lead.length : Nat) : Int) }) :: es, ?_, ?_, ?_⟩
      · have e : Rfc.joinSemi ((i :: j :: items).map TagItem.text) ++ w =
            i.text ++ SEMI :: (Rfc.joinSemi ((j :: items).map TagItem.text) ++ w) := by
          simp [Rfc.joinSemi, SEMI]
        rw [e]
        exact t
      · simp only [List.map_cons, normItem_name, normItem_value, List.cons.injEq, true_and] at h2 ⊢
        exact h2
      · intro xs bi ys h hv
        cases xs with
        | nil =>
          simp only [List.nil_append, List.cons.injEq] at h
          obtain ⟨rfl, _⟩ := h
          simp only [normItem_name, normItem_value, normItem_lead _ hv, List.map_nil, List.nil_append]
          simp [Rfc.joinSemi]
        | cons x xs =>
          simp only [List.cons_append, List.cons.injEq] at h
          obtain ⟨rfl, h⟩ := h
          have := h3 xs bi ys h hv
          refine List.mem_cons_of_mem _ ?_
          rw [List.map_cons, List.cons_append, joinSemi_cons _ (by simp)]
          have e : pos + (i.text ++ 59 :: Rfc.joinSemi (xs.map TagItem.text ++ [bi.lead])).length =
              pos + i.text.length + 1 + (Rfc.joinSemi (xs.map TagItem.text ++ [bi.lead])).length := by
            rw [List.length_append, List.length_cons]; omega
          rw [e]
          exact this

theorem rfc_value {es : List (Bytes × TagEntry)} {items : List TagItem}
    (h : es.map (fun e => (e.1, e.2.value)) = items.map (fun i => (i.name, i.value))) (n : Bytes) : tagVal es n = Rfc.value items n := by
  induction es generalizing items with
  | nil =>
    cases items with
    | nil => rfl
    | cons i items => simp at h
  | cons e es ih =>
    cases items with
    | nil => simp at h
    | cons i items =>
      simp only [List.map_cons, List.cons.injEq, Prod.mk.injEq] at h
      obtain ⟨⟨h1, h2⟩, h3⟩ := h
      have ih := ih h3
      unfold tagVal Rfc.value at *
      obtain ⟨k, t⟩ := e
      simp only at h1 h2
      rw [List.lookup_cons, List.find?_cons]
      by_cases hn : n = k
      · subst hn
        simp [← h1, h2]
      · have e1 : (n == k) = false := by simpa using hn
        have e2 : decide (i.name = n) = false := by rw [← h1]; simpa using fun h => hn h.symm
        rw [e1, e2]
        exact ih

theorem rfc_names {es : List (Bytes × TagEntry)} {items : List TagItem}
    (h : es.map (fun e => (e.1, e.2.value)) = items.map (fun i => (i.name, i.value))) : es.map Prod.fst = items.map TagItem.name := by
  have := congrArg (List.map Prod.fst) h
  simpa [Function.comp_def] using this

/-! ### Values -/

theorem Spec.Rfc.Spread.ne_nil {p t : Bytes} (h : Rfc.Spread p t) : t ≠ [] := by cases h <;> simp

theorem spread_strip {p t : Bytes} (h : Rfc.Spread p t) (hp : ∀ c ∈ p, Spec.isSpace c = false) : t.filter (fun c => !Spec.isSpace c) = p := by
  have ws : ∀ f, Rfc.OptFWS f → f.filter (fun c => !Spec.isSpace c) = [] := by
    intro f hf
    rw [List.filter_eq_nil_iff]
    intro c hc
    have := hf.loose c hc
    simp only [Spec.isLoose, Bool.or_eq_true, beq_iff_eq] at this
    rcases this with ((rfl | rfl) | rfl) | rfl <;> decide
  induction h with
  | one c => rw [List.filter_cons, hp c (by simp)]; rfl
  | cons c f p t hf _ ih =>
    rw [List.filter_cons, hp c (by simp), List.filter_append, ws f hf, ih (fun x hx => hp x (by simp [hx]))]
    rfl

theorem rfc_base64 {E : Env} (hB : E.B64Law) {bytes t : Bytes} (h : Rfc.Base64String bytes t) :
    t ≠ [] ∧ bytes = E.b64dec (t.filter (fun c => !Spec.isSpace c)) := by
  refine ⟨h.ne_nil, ?_⟩
  have hp : ∀ c ∈ base64 bytes, Spec.isSpace c = false := by
    intro c hc
    rw [← C18_rfc4648] at hc
    exact (b64_not_space hc).1
  rw [spread_strip h hp, ← C18_rfc4648, hB]

theorem clean_of_name {n : Bytes} (h : Rfc.FieldName n) : Clean n := by
  obtain ⟨hne, hc⟩ := h
  have ok : ∀ c : Byte, 33 ≤ c ∧ c ≤ 126 ∧ c ≠ 58 → Spec.isLoose c = false ∧ c ≠ COLON := by
    apply byte_forall
    unfold Spec.isLoose COLON
    decide +kernel
  induction n with
  | nil => exact absurd rfl hne
  | cons c r ih =>
    obtain ⟨h1, h2⟩ := ok c (hc c (by simp))
    cases r with
    | nil => exact .one c h1 h2
    | cons d r => exact .cons c _ h1 h2 (ih (by simp) (fun x hx => hc x (by simp [hx])))

theorem joinColon_cons (x : Bytes) {r : List Bytes} (h : r ≠ []) : joinColon (x :: r) = x ++ COLON :: joinColon r := by
  cases r with
  | nil => exact absurd rfl h
  | cons y r => rfl

theorem rfc_items {s : Bytes} {ns : List Bytes} (h : Rfc.ColonList Rfc.FieldName s ns) : ∃ items : List Item, items ≠ [] ∧
    (∀ i ∈ items, FwsRun i.pre ∧ Clean i.val ∧ FwsRun i.post) ∧ s = joinColon (items.map Item.text) ∧ ns = items.map Item.val ∧
    ∀ i ∈ items.head?, i.pre = [] := by
  induction h with
  | one n hn =>
    refine ⟨[⟨[], n, []⟩], by simp, ?_, ?_, rfl, by simp⟩
    · intro i hi
      rw [List.mem_singleton.1 hi]
      exact ⟨.nil, clean_of_name hn, .nil⟩
    · simp [joinColon, Item.text]
  | cons n f g s ns hn hf hg _ ih =>
    obtain ⟨items, h0, h1, h2, h3, h4⟩ := ih
    cases items with
    | nil => exact absurd rfl h0
    | cons i items =>
      have hpre : i.pre = [] := h4 i rfl
      refine ⟨⟨[], n, f⟩ :: { i with pre := g } :: items, by simp, ?_, ?_, ?_, by simp⟩
      · intro j hj
        rcases List.mem_cons.1 hj with rfl | hj
        · exact ⟨.nil, clean_of_name hn, hf.run⟩
        · rcases List.mem_cons.1 hj with rfl | hj
          · exact ⟨hg.run, (h1 i (by simp)).2⟩
          · exact h1 j (by simp [hj])
      · have e1 : Item.text { i with pre := g } = g ++ i.text := by simp [Item.text, hpre]
        rw [List.map_cons, joinColon_cons _ (by simp), List.map_cons, e1, h2, List.map_cons]
        have e2 : ∀ x (r : List Bytes), joinColon ((g ++ x) :: r) = g ++ joinColon (x :: r) := by
          intro x r
          cases r with
          | nil => rfl
          | cons y r => simp [joinColon]
        rw [e2]
        simp [Item.text, COLON]
      · simp [h3]

theorem rfc_list {s : Bytes} {ns : List Bytes} (h : Rfc.ColonList Rfc.FieldName s ns) : ListText s ns ∧ s ≠ [] := by
  obtain ⟨items, h0, h1, h2, h3, _⟩ := rfc_items h
  refine ⟨(C67_list_iff _ _).1 ?_, ?_⟩
  · rw [h2, h3]; exact C10_values_back items h1
  · cases h with
    | one n hn => exact hn.1
    | cons n f g s ns hn => intro h; simp at h

theorem qpText_append {q : Bool} {s o s' o' : Bytes} (h : QpText q s o) (h' : QpText q s' o') : QpText q (s ++ s') (o ++ o') := by
  induction h with
  | nil => exact h'
  | underscore r o hq _ ih => exact .underscore _ _ hq ih
  | safe c r o h1 h2 _ ih => exact .safe c _ _ h1 h2 ih
  | hex c r o _ ih => rw [List.append_assoc]; exact .hex c _ _ ih
  | wsp w r o hw _ ih => exact .wsp w _ _ hw ih
  | fold w r o hw _ ih => exact .fold w _ _ hw ih

theorem qpText_plain {s : Bytes} (h : ∀ c ∈ s, QpSafe c) : QpText false s s := by
  induction s with
  | nil => exact .nil
  | cons c s ih => exact .safe c _ _ (h c (by simp)) (by simp) (ih fun x hx => h x (by simp [hx]))

theorem domain_bytes {s : Bytes} (h : IsDomain s) : ∀ c ∈ s, IsLetDig c ∨ c = 45 ∨ c = 46 := by
  obtain ⟨ls, _, hl, rfl⟩ := h
  induction ls with
  | nil => intro c hc; cases hc
  | cons l ls ih =>
    have hb : ∀ c ∈ l, IsLetDig c ∨ c = 45 ∨ c = 46 := by
      intro c hc
      rcases (hl l (by simp)).1 c hc with h | h
      · exact .inl h
      · exact .inr (.inl h)
    cases ls with
    | nil => exact hb
    | cons m ls =>
      intro c hc
      unfold joinDots at hc
      rcases List.mem_append.1 hc with hc | hc
      · exact hb c hc
      · rcases List.mem_cons.1 hc with rfl | hc
        · exact .inr (.inr rfl)
        · exact ih (by simp) (fun x hx => hl x (by simp [hx])) c hc

theorem letDig_safe : ∀ c : Byte, (IsLetDig c ∨ c = 45 ∨ c = 46) → QpSafe c := by
  apply byte_forall
  unfold IsLetDig QpSafe
  decide +kernel

theorem digitsVal_lt (ds : Bytes) (h : ∀ c ∈ ds, IsDigit c) : digitsVal ds < 10 ^ ds.length := by
  induction ds with
  | nil => simp [digitsVal]
  | cons c r ih =>
    have ih := ih fun x hx => h x (by simp [hx])
    have hc : c.toNat - 48 ≤ 9 := by
      have := (h c (by simp)).2
      have : c.toNat ≤ 57 := this
      omega
    simp only [digitsVal, List.length_cons, Nat.pow_succ]
    have : (c.toNat - 48) * 10 ^ r.length ≤ 9 * 10 ^ r.length := Nat.mul_le_mul_right _ hc
    omega

theorem number_digits {v : Bytes} (h : IsDigits v) : Number v false (digitsVal v) [] := by
  have := Number.plain [] v [] (by simp) h (by simp)
  simpa using this

theorem digitsVal_short {v : Bytes} (h : IsDigits v) {n : Nat} (hl : v.length ≤ n) : digitsVal v < 10 ^ n :=
  Nat.lt_of_lt_of_le (digitsVal_lt v h.2) (Nat.pow_le_pow_right (by decide) hl)

/-! ### The signature field -/

/-- The tags of a conforming field are acceptable to the library, apart from the listed cases. -/
theorem rfc_claims {E : Env} (hB : E.B64Law) {arc : Bool} {now : Int} {tag : Bytes → Option Bytes} {s : Signature} (h : Rfc.Signature arc now tag s)
    (hq : ∀ q, tag b!"q" = some q → q = b!"dns/txt") (hl : s.bodySize < 2 ^ 63) (ha : arc = false → (64 : Byte) ∉ s.mailLocal) :
    Claims E arc now tag { s with arc := arc } where
  kind := rfl
  version := h.version
  domain := let ⟨d, h1, _, h2⟩ := h.domain; ⟨d, h1, h2⟩
  selector := h.selector.1
  algorithm := h.algorithm
  signature := let ⟨t, h1, h2⟩ := h.signature; ⟨t, h1, (rfc_base64 hB h2).1, (rfc_base64 hB h2).2⟩
  bodyHash := let ⟨t, h1, h2⟩ := h.bodyHash; ⟨t, h1, (rfc_base64 hB h2).2⟩
  canon := h.canon
  headers := let ⟨t, h1, h2⟩ := h.headers; ⟨t, h1, (rfc_list h2).1⟩
  from_signed := h.from_signed
  identity := by
    intro harc
    obtain ⟨hi, h0⟩ := h.identity harc
    refine ⟨?_, h0⟩
    have ha := ha harc
    show Identity s.domain (tag b!"i") s.mailLocal s.mailDomain
    generalize tag b!"i" = o at hi
    generalize s.mailLocal = loc at hi ha
    generalize s.mailDomain = m at hi
    cases hi with
    | absent => exact .absent
    | present t _ dom h1 h2 h3 h4 =>
      refine .present _ _ _ (qpText_append h1 ?_) ha h4
      exact .safe 64 _ _ (by decide) (by simp) (qpText_plain fun c hc => letDig_safe c (domain_bytes h3 c hc))
  arcIdentity := by
    intro harc
    obtain ⟨⟨v, h1, h2, h3, h4, h5, h6⟩, h7⟩ := h.arcInstance harc
    refine ⟨⟨v, h1, ⟨[], false, ?_⟩, h5, h6⟩, h7⟩
    show ULong v s.arcInstance [] false
    rw [h4]
    exact .pos _ _ (number_digits h2) (Nat.lt_trans (digitsVal_short h2 h3) (by decide))
  length := by
    have := h.length
    show LengthTag (tag b!"l") s.bodySize s.bodySizeLimit
    generalize tag b!"l" = o at this
    generalize s.bodySize = n at this hl
    generalize s.bodySizeLimit = b at this
    cases this with
    | absent => exact .absent
    | present v h1 h2 => exact .present v _ h2 (.pos _ _ (number_digits h1) (by omega)) hl
  query := by
    cases hqv : tag b!"q" with
    | none => exact .inl rfl
    | some q => rw [hq q hqv]; exact .inr rfl
  notExpired := by
    intro x hx
    obtain ⟨h1, h2, h3⟩ := h.notExpired x hx
    exact ⟨_, _, .pos _ _ (number_digits h1) (Nat.lt_trans (digitsVal_short h1 h2) (by decide)), h3⟩

/-- A conforming field is acceptable, apart from the listed cases. -/
theorem rfc_acceptable {E : Env} (hB : E.B64Law) {now : Int} {er : Bool} {h : Header} {items : List TagItem} {s : Signature}
    (ht : Rfc.TagList (valueText h) items) (hs : Rfc.Signature (isArcName h.name) now (Rfc.value items) s)
    (hq : ∀ q, Rfc.value items b!"q" = some q → q = b!"dns/txt") (hl : s.bodySize < 2 ^ 63)
    (ha : isArcName h.name = false → (64 : Byte) ∉ s.mailLocal) (her : er = true → s.bodySizeLimit = false) :
    ∃ es, Acceptable E now er h es { s with arc := isArcName h.name } ∧
      ∀ xs bi ys, items = xs ++ bi :: ys → bi.value ≠ [] →
        (bi.name, (⟨bi.value, (((Rfc.joinSemi (xs.map TagItem.text ++ [bi.lead])).length : Nat) : Int)⟩ : TagEntry)) ∈ es := by
  obtain ⟨w, ht1, ht2⟩ := ht.text
  obtain ⟨es, h1, h2, h3⟩ := rfc_tagText items ht.nonempty ht.spec w ht2 0
  refine ⟨es, ⟨by rw [ht1]; exact h1, by rw [rfc_names h2]; exact ht.distinct, ?_, ?_⟩, by simpa using h3⟩
  · have e : tagVal es = Rfc.value items := funext (rfc_value h2)
    rw [e]
    exact rfc_claims hB hs hq hl ha
  · intro he
    have := hs.length
    rw [her he] at this
    rw [rfc_value h2]
    generalize Rfc.value items b!"l" = o at this
    generalize s.bodySize = n at this
    cases this
    rfl

end Dkim

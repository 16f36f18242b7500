import Verif.Spec.RfcSign
import Verif.Proofs.Rfc
import Verif.Props.RoundTrip
/-!
# Proofs: generated fields conform to the RFCs
-/

namespace Dkim
open Spec

variable {E : Env}

/-! ### Folded texts -/

theorem Folded.append {a b : Bytes} (ha : Folded a) (hb : Folded b) : Folded (a ++ b) := by
  induction ha with
  | nil => exact hb
  | char c r h1 h2 _ ih => exact .char c _ h1 h2 ih
  | fold w r hw _ ih => exact .fold w _ hw ih

theorem folded_plain {a : Bytes} (h : ∀ c ∈ a, c ≠ CR ∧ c ≠ LF) : Folded a := by
  induction a with
  | nil => exact .nil
  | cons c a ih => exact .char c a (h c (by simp)).1 (h c (by simp)).2 (ih fun x hx => h x (by simp [hx]))

theorem wsp_ne_crlf {c : Byte} (h : isWSP c = true) : c ≠ CR ∧ c ≠ LF := by
  constructor <;> (rintro rfl; exact absurd h (by decide))

theorem Spec.Rfc.OptFWS.folded {f : Bytes} (h : Rfc.OptFWS f) : Folded f := by
  have hw : ∀ w : Bytes, AllWSP w → Folded w := fun w hw => folded_plain fun c hc => wsp_ne_crlf (by simpa using hw c hc)
  rcases h with rfl | h
  · exact .nil
  · cases h with
    | plain w h _ => exact hw _ h
    | fold a b ha hb hne =>
      cases b with
      | nil => exact absurd rfl hne
      | cons c b =>
        rw [List.append_assoc]
        refine (hw _ ha).append (.fold c b (by simpa using hb c (by simp)) (hw _ fun x hx => hb x (by simp [hx])))

theorem Spec.Rfc.Gap.folded {f : Bytes} (h : Rfc.Gap f) : Folded f := by
  induction h with
  | one w h => exact Rfc.OptFWS.folded (.inr h)
  | more w r h _ ih => exact (Rfc.OptFWS.folded (.inr h)).append ih

theorem val_ne {c : Byte} (h : Rfc.ValChar c) : c ≠ CR ∧ c ≠ LF := by
  constructor <;> (rintro rfl; exact absurd h.1 (by decide))

theorem Spec.Rfc.TagValue.folded {v : Bytes} (h : Rfc.TagValue v) : Folded v := by
  induction h with
  | empty => exact .nil
  | one t ht => exact folded_plain fun c hc => val_ne (ht.2 c hc)
  | more t g r ht hg _ _ ih => exact ((folded_plain fun c hc => val_ne (ht.2 c hc)).append hg.folded).append ih

theorem Spec.Rfc.TagSpec.lead_folded {i : TagItem} (h : Rfc.TagSpec i) : Folded i.lead := by
  have hn : Folded i.name := by
    refine folded_plain ?_
    obtain ⟨c, r, e, hc, hr⟩ := h.name
    rw [e]
    have ok : ∀ c : Byte, (Rfc.Alpha c ∨ IsDigit c ∨ c = 95) → c ≠ CR ∧ c ≠ LF := by
      apply byte_forall
      unfold Rfc.Alpha IsDigit
      decide +kernel
    intro x hx
    rcases List.mem_cons.1 hx with rfl | hx
    · exact ok _ (.inl hc)
    · exact ok _ (hr x hx)
  exact (((h.pre.folded.append hn).append h.gap1.folded).append (folded_plain (by decide))).append h.gap2.folded

theorem Spec.Rfc.TagSpec.folded {i : TagItem} (h : Rfc.TagSpec i) : Folded i.text :=
  (h.lead_folded.append h.value.folded).append h.post.folded

theorem joinSemi_folded {xs : List Bytes} (h : ∀ x ∈ xs, Folded x) : Folded (Rfc.joinSemi xs) := by
  induction xs with
  | nil => exact .nil
  | cons x xs ih =>
    cases xs with
    | nil => exact h x (by simp)
    | cons y ys =>
      rw [joinSemi_cons _ (by simp)]
      exact (h x (by simp)).append (.char 59 _ (by decide) (by decide) (ih fun z hz => h z (by simp [hz])))

/-! ### Values -/

theorem val_iff {c : Byte} : IsValByte c ↔ Rfc.ValChar c := Iff.rfl

theorem tagValue_prepend {x r : Bytes} (hx : ∀ c ∈ x, Rfc.ValChar c) (hr : Rfc.TagValue r) : Rfc.TagValue (x ++ r) := by
  cases x with
  | nil => exact hr
  | cons c x =>
    cases hr with
    | empty => rw [List.append_nil]; exact .one _ ⟨by simp, hx⟩
    | one t ht =>
      refine .one _ ⟨by simp, ?_⟩
      intro y hy
      rcases List.mem_append.1 hy with hy | hy
      · exact hx y hy
      · exact ht.2 y hy
    | more t g r ht hg hne hr =>
      rw [← List.append_assoc, ← List.append_assoc]
      refine .more _ g r ⟨by simp, ?_⟩ hg hne hr
      intro y hy
      rcases List.mem_append.1 hy with hy | hy
      · exact hx y hy
      · exact ht.2 y hy

theorem foldWS_fws : Rfc.FWS foldWS := .fold [] b!"\t " (by intro c hc; cases hc) (by unfold AllWSP; decide) (by simp)

theorem fold_opt {g : Bytes} (h : g = [] ∨ g = foldWS) : Rfc.OptFWS g := by
  rcases h with rfl | rfl
  · exact .inl rfl
  · exact .inr foldWS_fws

theorem name_rfc {n : Bytes} (h : IsFieldName n) : Rfc.FieldName n := ⟨h.1, fun c hc => ⟨(h.2 c hc).1, (h.2 c hc).2.1, (h.2 c hc).2.2.1⟩⟩

theorem name_val {n : Bytes} (h : IsFieldName n) : ∀ c ∈ n, Rfc.ValChar c := fun _ hc => (fieldName_val h hc).1

/-- The h= value by the grammar. -/
theorem hValue_rfc (n : Bytes) (ns : List Bytes) (items : List Item) (hn : ∀ x ∈ n :: ns, IsFieldName x)
    (h1 : items.map Item.val = ns) (h2 : ∀ i ∈ items, (i.pre = [] ∨ i.pre = foldWS) ∧ i.post = []) :
    Rfc.TagValue (joinColon (n :: items.map Item.text)) ∧ Rfc.ColonList Rfc.FieldName (joinColon (n :: items.map Item.text)) (n :: ns) ∧
      joinColon (n :: items.map Item.text) ≠ [] := by
  induction items generalizing n ns with
  | nil =>
    subst h1
    have := hn n (by simp)
    exact ⟨.one _ ⟨this.1, name_val this⟩, .one _ (name_rfc this), this.1⟩
  | cons i items ih =>
    subst h1
    have hN := hn n (by simp)
    obtain ⟨hp, hq⟩ := h2 i (by simp)
    obtain ⟨t1, t2, t3⟩ := ih i.val (items.map Item.val) (fun x hx => hn x (by simp at hx ⊢; exact .inr hx)) rfl
      (fun j hj => h2 j (by simp [hj]))
    have e : joinColon (n :: (i :: items).map Item.text) = n ++ COLON :: (i.pre ++ joinColon (i.val :: items.map Item.text)) := by
      rw [List.map_cons, joinColon, joinColon_flatMap, joinColon_flatMap]
      unfold Item.text
      rw [hq]
      simp
    rw [e]
    refine ⟨?_, ?_, by simp⟩
    · have hv : ∀ c ∈ n ++ [COLON], Rfc.ValChar c := by
        intro c hc
        rcases List.mem_append.1 hc with hc | hc
        · exact name_val hN c hc
        · rw [List.mem_singleton.1 hc]; exact ⟨by decide, by decide, by decide⟩
      rcases hp with hp | hp
      · rw [hp]
        have := tagValue_prepend hv t1
        simpa using this
      · rw [hp]
        have := Rfc.TagValue.more (n ++ [COLON]) foldWS _ ⟨by simp, hv⟩ (.one _ foldWS_fws) t3 t1
        simpa using this
    · have := Rfc.ColonList.cons n [] i.pre _ _ (name_rfc hN) (.inl rfl) (fold_opt hp) t2
      simpa [COLON] using this

theorem spread_append {c f p t : Bytes} (hc : c ≠ []) (hf : Rfc.OptFWS f) (h : Rfc.Spread p t) : Rfc.Spread (c ++ p) (c ++ f ++ t) := by
  induction c with
  | nil => exact absurd rfl hc
  | cons x c ih =>
    cases c with
    | nil => exact .cons x f p t hf h
    | cons y c =>
      have := Rfc.Spread.cons x [] _ _ (.inl rfl) (ih (by simp))
      simpa using this

theorem spread_self {p : Bytes} (h : p ≠ []) : Rfc.Spread p p := by
  induction p with
  | nil => exact absurd rfl h
  | cons c p ih =>
    cases p with
    | nil => exact .one c
    | cons x p => exact .cons c [] _ _ (.inl rfl) (ih (by simp))

/-- The b= value by the grammar. -/
theorem bValue_rfc (c : Bytes) (cs : List Bytes) (hc : c ≠ []) (hcs : ∀ y ∈ cs, y ≠ []) (hv : ∀ y ∈ c :: cs, ∀ b ∈ y, Rfc.ValChar b) :
    Rfc.TagValue (joinLines (c :: cs.map (b!"\t " ++ ·))) ∧ Rfc.Spread (c :: cs).flatten (joinLines (c :: cs.map (b!"\t " ++ ·))) := by
  induction cs generalizing c with
  | nil =>
    have e : (c :: ([] : List Bytes)).flatten = c := by simp
    rw [e]
    exact ⟨.one _ ⟨hc, hv c (by simp)⟩, spread_self hc⟩
  | cons z cs ih =>
    obtain ⟨t1, t2⟩ := ih z (hcs z (by simp)) (fun y hy => hcs y (by simp [hy])) (fun y hy => hv y (by simp at hy ⊢; exact .inr hy))
    have e : joinLines (c :: (z :: cs).map (b!"\t " ++ ·)) = c ++ foldWS ++ joinLines (z :: cs.map (b!"\t " ++ ·)) := by
      cases cs with
      | nil => simp [joinLines, CRLF, CR, LF, foldWS]
      | cons w l => simp [joinLines, CRLF, CR, LF, foldWS]
    rw [e]
    refine ⟨.more c foldWS _ ⟨hc, hv c (by simp)⟩ (.one _ foldWS_fws) t2.ne_nil t1, ?_⟩
    rw [List.flatten_cons]
    exact spread_append hc (.inr foldWS_fws) t2

/-! ### One field -/

theorem rfc_value_lookup (items : List TagItem) (n : Bytes) : Rfc.value items n = (items.map (fun i => (i.name, i.value))).lookup n := by
  unfold Rfc.value
  induction items with
  | nil => rfl
  | cons i items ih =>
    rw [List.find?_cons, List.map_cons, List.lookup_cons]
    by_cases h : i.name = n
    · rw [decide_eq_true h, beq_iff_eq.2 h.symm]; rfl
    · rw [decide_eq_false h, beq_eq_false_iff_ne.2 (Ne.symm h)]
      exact ih

theorem joinSemi_flatMap (items : List TagItem) (last : TagItem) :
    items.flatMap (fun i => i.text ++ [SEMI]) ++ last.text = Rfc.joinSemi ((items ++ [last]).map TagItem.text) := by
  induction items with
  | nil => rfl
  | cons i items ih =>
    rw [List.cons_append, List.map_cons, joinSemi_cons _ (by simp), ← ih, List.flatMap_cons]
    simp [SEMI]

theorem spec_mkItem {pre name value gap : Bytes} (h1 : Rfc.OptFWS pre) (h2 : Rfc.TagName name) (h3 : Rfc.OptFWS gap)
    (h4 : Rfc.TagValue value) : Rfc.TagSpec (mkItem pre name value gap) :=
  ⟨h1, h2, .inl rfl, h3, h4, .inl rfl⟩

theorem tagValue_val {v : Bytes} (h : ∀ c ∈ v, IsValByte c) : Rfc.TagValue v := by
  cases v with
  | nil => exact .empty
  | cons c v => exact .one _ ⟨by simp, h⟩

theorem nl_fws : Rfc.OptFWS b!"\r\n\t" := .inr (.fold [] b!"\t" (by intro c hc; cases hc) (by unfold AllWSP; decide) (by simp))

theorem genItems_rfc (o : Options E) (s : SigOpts E) (now : Int) (gap hv bh : Bytes) (hgap : gap = [] ∨ gap = foldWS)
    (hhv : Rfc.TagValue hv) (hd : ∀ c ∈ s.domain, IsValByte c) (hs : ∀ c ∈ s.selector, IsValByte c) :
    ∀ i ∈ genItems o s now gap hv bh, Rfc.TagSpec i := by
  have sp : Rfc.OptFWS b!" " := .inr (.plain _ (by unfold AllWSP; decide) (by simp))
  have nl := nl_fws
  have no : Rfc.OptFWS [] := .inl rfl
  have lc : ∀ c : Byte, 97 ≤ c ∧ c ≤ 122 → Rfc.TagName [c] := fun c hc => ⟨c, [], rfl, .inr hc, by simp⟩
  have nbh : Rfc.TagName b!"bh" := ⟨98, [104], rfl, .inr (by decide), by
    intro x hx; rw [List.mem_singleton.1 hx]; exact .inl (.inr (by decide))⟩
  have dg : ∀ v : Int, Rfc.TagValue (fmtLu v) := fun v => tagValue_val (fun c hc => digit_val ((fmtLu_digits v).2 c hc))
  unfold genItems
  intro i hi
  simp only [List.mem_cons, List.mem_append, List.not_mem_nil, or_false] at hi
  rcases hi with hi | hi | hi | hi | hi | hi | hi | hi | hi | hi | hi
  · split at hi <;> subst hi
    · exact spec_mkItem sp (lc _ (by decide)) no (dg _)
    · exact spec_mkItem sp (lc _ (by decide)) no (tagValue_val (by decide))
  · subst hi; exact spec_mkItem sp (lc _ (by decide)) no (tagValue_val (algText_val _ _))
  · subst hi; exact spec_mkItem sp (lc _ (by decide)) no (tagValue_val (canonText_val _ _))
  · split at hi
    · simp only [List.mem_singleton] at hi; subst hi; exact spec_mkItem sp (lc _ (by decide)) no (dg _)
    · simp at hi
  · split at hi
    · simp only [List.mem_singleton] at hi; subst hi; exact spec_mkItem sp (lc _ (by decide)) no (dg _)
    · simp at hi
  · subst hi; exact spec_mkItem nl (lc _ (by decide)) no (tagValue_val hd)
  · subst hi; exact spec_mkItem sp (lc _ (by decide)) no (tagValue_val hs)
  · split at hi
    · simp at hi
    · simp only [List.mem_singleton] at hi; subst hi
      exact spec_mkItem sp (lc _ (by decide)) no (tagValue_val (fun c hc => C17_safe_bytes _ c hc))
  · split at hi
    · simp only [List.mem_singleton] at hi; subst hi; exact spec_mkItem sp (lc _ (by decide)) no (dg _)
    · simp at hi
  · subst hi; exact spec_mkItem nl (lc _ (by decide)) (fold_opt hgap) hhv
  · subst hi; exact spec_mkItem nl nbh no (tagValue_val (fun c hc => b64_val hc))

/-- A generated field by the grammar. -/
theorem one_rfc {o : Options E} {s : SigOpts E} {now : Int} {hashed bh t : Bytes} {names : List Bytes}
    (h : oneSignature E o s now hashed names bh = .ok t) (hne : names ≠ []) (hn : ∀ n ∈ names, IsFieldName n)
    (hd : ∀ c ∈ s.domain, IsValByte c) (hs : ∀ c ∈ s.selector, IsValByte c)
    (harc : o.arcInstance ≠ 0 → o.identity = []) :
    ∃ items bv hv t2 sgn, filterHeader o.canonHead (sigFieldName o ++ COLON ::
        Rfc.joinSemi (items.map TagItem.text ++ [b!"\r\n\tb="])) = .ok t2 ∧
      signDigest E s o.digest (E.hash o.digest (hashed ++ t2)) = .ok sgn ∧
      t = sigFieldName o ++ COLON :: Rfc.joinSemi ((items ++ [mkItem b!"\r\n\t" b!"b" bv]).map TagItem.text) ∧
      (o.expirationSign = true → sigExpiration o now = .ok (expOf o now)) ∧
      GenTags o s now names bh sgn (Rfc.value (items ++ [mkItem b!"\r\n\t" b!"b" bv])) ∧
      Rfc.value (items ++ [mkItem b!"\r\n\t" b!"b" bv]) b!"h" = some hv ∧ Rfc.ColonList Rfc.FieldName hv names ∧
      Rfc.value (items ++ [mkItem b!"\r\n\t" b!"b" bv]) b!"b" = some bv ∧
      ((items ++ [mkItem b!"\r\n\t" b!"b" bv]).map TagItem.name).Nodup ∧ (∀ i ∈ items, Rfc.TagSpec i) ∧
      (sgn ≠ [] → Rfc.Base64String sgn bv) ∧ Rfc.TagValue bv := by
  obtain ⟨times, text, t2, sgn, c, cs, h1, h2, h3, h4, h5, h6, h7, h8, h9⟩ := oneSignature_ok h
  obtain ⟨n, ns, rfl⟩ := List.exists_cons_of_ne_nil hne
  obtain ⟨gap, items, k1, k2, k3, k4⟩ := foldH_first b!"\th=" n ns
  obtain ⟨_, v2⟩ := hValue n ns items hn k1 k2
  obtain ⟨r1, r2, _⟩ := hValue_rfc n ns items hn k1 k2
  obtain ⟨b1, b2, b3⟩ := bValue c cs sgn h5 (fun y hy => (h7 y hy).1) h8
  have htext := text_items o s now gap _ bh times (n :: ns) k4 h1
  rw [← h2] at htext
  generalize hG : genItems o s now gap (joinColon (n :: items.map Item.text)) bh = gi at htext
  generalize hB : joinLines (c :: cs.map (b!"\t " ++ ·)) = bv at *
  have hpairs := genItems_pairs o s now gap (joinColon (n :: items.map Item.text)) bh bv
  rw [hG] at hpairs
  have eb : gi.flatMap (fun i => i.text ++ [SEMI]) ++ b!"\r\n\tb=" = Rfc.joinSemi (gi.map TagItem.text ++ [b!"\r\n\tb="]) := by
    have := joinSemi_flatMap gi (mkItem b!"\r\n\t" b!"b" [])
    rw [List.map_append] at this
    exact this
  have et : gi.flatMap (fun i => i.text ++ [SEMI]) ++ b!"\r\n\tb=" ++ bv =
      Rfc.joinSemi ((gi ++ [mkItem b!"\r\n\t" b!"b" bv]).map TagItem.text) := by
    rw [← joinSemi_flatMap]
    simp [mkItem, TagItem.text, TagItem.lead, EQ]
  have hl : ∀ x, Rfc.value (gi ++ [mkItem b!"\r\n\t" b!"b" bv]) x = _ := fun x => (rfc_value_lookup _ x).trans (by rw [hpairs])
  have hf := genPairs_fixed (decide (o.arcInstance ≠ 0)) (if o.arcInstance ≠ 0 then fmtLu o.arcInstance else b!"1")
    (algText o.first.alg o.digest) (o.canonHead.text ++ b!"/" ++ o.canonBody.text)
    (if o.timestampSign then some (fmtLu (sigTimestamp o now)) else none)
    (if o.expirationSign then some (fmtLu (expOf o now)) else none) s.domain s.selector
    (if o.identity.isEmpty then none else some (qpEncode o.identity))
    (if o.bodySignLength then some (fmtLu o.bodyLength) else none) (joinColon (n :: items.map Item.text)) (b64Encode bh) bv
  refine ⟨gi, bv, joinColon (n :: items.map Item.text), t2, sgn, ?_, h4, ?_, (sigTimes_eq h1).2,
    genTags_of o s now (n :: ns) _ bh bv sgn _ v2 b2 hl, (hl _).trans hf.2.2.2.2.2.2.2.1, r2, (hl _).trans hf.2.2.2.2.2.2.2.2.2.1, ?_, ?_, ?_⟩
  · rw [← eb, ← htext]; exact h3
  · rw [h9, htext, ← et]
    simp
  · have : (gi ++ [mkItem b!"\r\n\t" b!"b" bv]).map TagItem.name =
        ((gi ++ [mkItem b!"\r\n\t" b!"b" bv]).map (fun i => (i.name, i.value))).map Prod.fst := by rw [List.map_map]; rfl
    rw [this, hpairs]
    apply genPairs_nodup
    intro ha
    rw [harc (of_decide_eq_true ha)]; rfl
  · rw [← hG]
    exact genItems_rfc o s now gap _ bh k3 r1 hd hs
  · have full : sgn ≠ [] → Rfc.Base64String sgn bv ∧ Rfc.TagValue bv := by
      intro hx
      have hb := b64Encode_ne hx
      obtain ⟨q1, q2⟩ := bValue_rfc c cs (h8 hb) (fun y hy => (h7 y hy).1) (fun y hy b hbb => b64_val (x := sgn) (by
        rw [← h5]; exact List.mem_flatten.2 ⟨y, hy, hbb⟩))
      rw [hB] at q1 q2
      rw [h5, C18_rfc4648] at q2
      exact ⟨q2, q1⟩
    refine ⟨fun hx => (full hx).1, ?_⟩
    by_cases hx : sgn = []
    · subst hx
      have e0 : b64Encode ([] : Bytes) = [] := by decide
      rw [e0] at h5
      cases cs with
      | nil =>
        simp at h5
        subst h5
        rw [← hB]
        exact .empty
      | cons y cs =>
        simp at h5
        exact absurd h5.2.1 (h7 y (by simp)).1
    · exact (full hx).2

end Dkim

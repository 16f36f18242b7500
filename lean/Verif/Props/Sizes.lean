import Verif.Props.QpDecode
import Verif.Props.EncodedWordExact
import Verif.Props.ListText
import Verif.Props.TagList
import Verif.Props.AddressText
import Verif.Props.Body
import Verif.Props.Verdict
import Verif.Props.Dns
import Batteries.Data.List.Perm
/-!
# Property C73: no amplification

The size of every result is bounded by the size of the text it was computed from.
-/

namespace Dkim
open Spec

/-- The bytes of several texts together. -/
def Spec.total (xs : List Bytes) : Nat := (xs.map List.length).sum

theorem total_nil : Spec.total [] = 0 := rfl
theorem total_cons (x : Bytes) (xs : List Bytes) : Spec.total (x :: xs) = x.length + Spec.total xs := by simp [Spec.total]
theorem total_append (xs ys : List Bytes) : Spec.total (xs ++ ys) = Spec.total xs + Spec.total ys := by simp [Spec.total]
theorem total_flatten (xs : List Bytes) : xs.flatten.length = Spec.total xs := by simp [Spec.total, List.length_flatten]

/-! ## Decoders -/

theorem qpText_length {q : Bool} {s o : Bytes} (h : QpText q s o) : o.length ≤ s.length := by
  induction h with
  | nil => simp
  | underscore r o _ _ ih => simp; omega
  | safe c r o _ _ _ ih => simp; omega
  | hex c r o _ ih => simp [hexPair]; omega
  | wsp w r o _ _ ih => simp; omega
  | fold w r o _ _ ih => simp at *; omega

/-- C73: quoted-printable decoding. -/
theorem C73_quoted_printable (q : Bool) (s o : Bytes) (h : qpDecode s q = .ok o) : o.length ≤ s.length :=
  qpText_length ((C64_decode_iff q s o).1 h)

theorem stands_length {E : Env} (hb : ∀ x, (E.b64dec x).length ≤ x.length) {b r x : Bytes} (h : Stands E b r x) : x.length ≤ b.length := by
  obtain ⟨cs, enc, dat, ⟨rfl, _, _, _⟩, _, ⟨_, h⟩ | ⟨_, rfl⟩⟩ := h
  · have := qpText_length h
    simp; omega
  · have := hb dat
    simp; omega

theorem ewText_length {E : Env} (hb : ∀ x, (E.b64dec x).length ≤ x.length) {s o : Bytes} (h : EwText E s o) : o.length ≤ s.length := by
  induction h with
  | done => simp
  | char w c r o _ _ _ _ _ ih =>
    have := List.length_filter_le Spec.isWSP w
    simp at *; omega
  | word w b r o x _ _ _ h _ ih =>
    have := stands_length hb h
    simp; omega
  | other w b r o _ _ _ _ _ ih =>
    have := List.length_filter_le Spec.isWSP w
    simp at *; omega

theorem afterFWS_length {s r : Bytes} (h : AfterFWS s r) : r.length ≤ s.length := by
  induction h with
  | stop => simp
  | step s w r r' h _ _ ih => have := readsFWS_length h; omega

/-- C73: decoding encoded words, provided base64 decoding does not amplify. -/
theorem C73_encoded_words (E : Env) (hb : ∀ x, (E.b64dec x).length ≤ x.length) (s o : Bytes) (h : ewDecode E s = .ok o) :
    o.length ≤ s.length := by
  obtain ⟨r, h1, h2⟩ := (C65_decode_iff E s o).1 h
  exact Nat.le_trans (ewText_length hb h2) (afterFWS_length h1)

/-! ## Lists -/

theorem valueText_length {seg v : Bytes} (h : ValueText seg v) : v.length ≤ seg.length := by
  obtain ⟨s, h1, post, h2, _⟩ := h.value
  have := afterFWS_length h1
  rw [h2] at this
  simp at this; omega

theorem listText_length {s : Bytes} {vs : List Bytes} (h : ListText s vs) : Spec.total vs + vs.length ≤ s.length + 1 := by
  induction h with
  | done => simp [total_nil]
  | last seg v h => have := valueText_length h; simp [total_cons, total_nil]; omega
  | cons seg v s vs h _ ih => have := valueText_length h; simp [total_cons]; omega

/-- C73: a colon-separated list has no more values, and no longer values, than fit into its text. -/
theorem C73_value_list (s : Bytes) (vs : List Bytes) (h : valueList s = .ok vs) :
    (vs.map List.length).sum + vs.length ≤ s.length + 1 := listText_length ((C67_list_iff s vs).1 h)

theorem tagText_length {pos : Nat} {s : Bytes} {es : List (Bytes × TagEntry)} (h : TagText pos s es) :
    (es.map (fun e => e.1.length + e.2.value.length + 2)).sum ≤ s.length + 1 := by
  induction h with
  | done => simp
  | last pos i _ => simp [TagItem.text, TagItem.lead]; omega
  | cons pos i s es _ _ ih => simp [TagItem.text, TagItem.lead]; omega

/-- C73: a tag list stores no more than its text: each tag takes its name, its value, the equals sign and (but for the last) a semicolon. -/
theorem C73_tags (s : Bytes) (m : TagList) (h : TagList.parse s [] = .ok () m) :
    (m.map (fun e => e.1.length + e.2.value.length + 2)).sum ≤ s.length + 1 := by
  obtain ⟨es, h1, _, _, h2⟩ := (C11_parse_iff _ _ _).1 h
  rw [List.nil_append] at h2
  subst h2
  exact tagText_length h1

theorem wordText_total {s a r : Bytes} (h : WordText s a r) : a.length + r.length ≤ s.length := by
  induction h with
  | fin => simp
  | ws s w r h => have := readsFWS_length h; simp; omega
  | special => simp
  | byte c r a r' _ _ _ ih => simp; omega

theorem tokText_total {sc : Bool} {s : Bytes} {t : Tok} {r : Bytes} (h : TokText sc s t r) :
    Spec.total t.content + r.length ≤ s.length := by
  cases h with
  | word w c r1 a _ h1 _ h2 =>
    have := readsFWS_length h1
    have := wordText_total h2
    simp [Tok.content, total_cons, total_nil] at *; omega
  | quoted w text content _ h1 h2 =>
    have := readsFWS_length h1
    have := quoted_length h2
    simp [Tok.content, total_cons, total_nil] at *; omega
  | comment w text _ h1 => have := readsFWS_length h1; simp [Tok.content, total_nil] at *; omega
  | opening w _ h1 => have := readsFWS_length h1; simp [Tok.content, total_nil] at *; omega
  | closing w _ h1 => have := readsFWS_length h1; simp [Tok.content, total_nil] at *; omega
  | separator w c _ h1 => have := readsFWS_length h1; simp [Tok.content, total_nil] at *; omega

theorem contents_append (a b : List Tok) : contents (a ++ b) = contents a ++ contents b := by simp [contents]
theorem contents_cons (t : Tok) (ts : List Tok) : contents (t :: ts) = t.content ++ contents ts := by simp [contents]

theorem tokensText_total {sc : Bool} {s : Bytes} {ts : List Tok} (h : TokensText sc s ts) : Spec.total (contents ts) ≤ s.length := by
  induction h with
  | done => simp [contents, total_nil]
  | cons s t r ts h _ ih =>
    have := tokText_total h
    rw [contents_cons, total_append]; omega

theorem addrPart_total {g part : List Tok} (h : AddrPart g part) : Spec.total (contents part) ≤ Spec.total (contents g) := by
  rcases h.2 with rfl | ⟨n, rfl⟩
  · exact Nat.le_refl _
  · rw [contents_append, contents_cons, total_append, total_append]; omega

theorem group_total {N : Bytes → List Bytes → Prop} (hN : ∀ q as, N q as → Spec.total as ≤ q.length) {g : List Tok} {e : GroupEnd}
    {as : List Bytes} (h : Group N g e as) : Spec.total as ≤ Spec.total (contents g) := by
  cases h with
  | nothing => simp [total_nil]
  | name => simp [total_nil]
  | nested part _ q _ h1 h2 _ h4 =>
    have := addrPart_total h1
    have := hN _ _ h4
    rw [contents_append, contents_cons, total_append, total_append] at *
    simp [Tok.content, total_cons, total_nil] at *; omega
  | address part _ xs x h1 h2 =>
    have := addrPart_total h1
    rw [h2] at this
    rw [total_cons, total_nil, total_flatten]; omega

theorem groups_total {N : Bytes → List Bytes → Prop} (hN : ∀ q as, N q as → Spec.total as ≤ q.length) {ts : List Tok}
    {as : List Bytes} (h : Groups N ts as) : Spec.total as ≤ Spec.total (contents ts) := by
  induction h with
  | last g as _ _ h => exact group_total hN h
  | separator g as ts bs _ _ h _ ih =>
    have := group_total hN h
    rw [contents_append, contents_cons, total_append, total_append, total_append]; omega
  | closing g as ts bs _ h _ ih =>
    have := group_total hN h
    rw [contents_append, contents_cons, total_append, total_append, total_append]; omega

theorem addrTextIn_total (sc : Bool) (n : Nat) : ∀ (s : Bytes) (as : List Bytes), AddrTextIn sc n s as → Spec.total as ≤ s.length := by
  induction n with
  | zero => intro s as h; exact h.elim
  | succ n ih =>
    rintro s as ⟨ts, h1, h2⟩
    exact Nat.le_trans (groups_total ih h2) (tokensText_total h1)

/-- C73: the addresses of an address list together are no longer than its text. -/
theorem C73_addresses (sc : Bool) (s : Bytes) (as : List Bytes) (h : parseAddressList sc s = .ok as) :
    (as.map List.length).sum ≤ s.length := by
  obtain ⟨n, h⟩ := (C72_list_iff sc s as).1 h
  exact addrTextIn_total sc n s as h

/-! ## DNS answers -/

theorem txtLoop_length (a : Bytes) (n : Nat) : ∀ (ptr left : Nat) (o : Bytes), txtLoop a n ptr left = .ok o → o.length ≤ left := by
  induction n with
  | zero => intro ptr left o h; cases h
  | succ n ih =>
    intro ptr left o h
    unfold txtLoop at h
    split at h
    · cases h; simp
    · split at h
      · cases h
      · split at h
        · cases h; simp
        · split at h
          · cases h
          · split at h
            · cases h
            · rename_i r hr
              cases h
              have := ih _ _ _ hr
              simp; omega

theorem answerLoop_length (skip : Bytes → Nat → Option Nat) (a : Bytes) (n : Nat) : ∀ (p : Nat) (b : Bool) (o : Bytes),
    answerLoop skip a n p = .ok (b, o) → o.length ≤ a.length - p := by
  induction n with
  | zero => intro p b o h; cases h; simp
  | succ n ih =>
    intro p b o h
    unfold answerLoop at h
    split at h
    · cases h; simp
    · rename_i s _
      simp only at h
      split at h
      · cases h; simp
      · split at h
        · cases h
        · split at h
          · cases h
          · rename_i t _ _ s2 _
            split at h
            · cases h; simp
            · split at h
              · cases h
              · rename_i txt htxt
                split at h
                · cases h
                · rename_i b' more hm
                  cases h
                  have h1 := ih _ _ _ hm
                  have h2 : txt.length ≤ s2 := by
                    split at htxt
                    · exact txtLoop_length a _ _ _ _ htxt
                    · cases htxt; simp
                  simp; omega

/-- C73: the text taken from a DNS answer is shorter than the answer (whatever `dn_skipname` does). -/
theorem C73_txt (skip : Bytes → Nat → Option Nat) (a : Bytes) (b : Bool) (o : Bytes) (h : getTXT skip (.answer a) = .ok (b, o)) :
    o.length ≤ a.length - 12 ∧ o.length ≤ 65536 := by
  unfold getTXT at h
  simp only at h
  split at h
  · cases h; simp
  · split at h
    · cases h; simp
    · rename_i p hq
      have := answerLoop_length skip a _ _ _ _ h
      have hp : ∀ n p p' b, questionLoop skip a n p = (b, p') → p ≤ p' := by
        intro n
        induction n with
        | zero => intro p p' b h; cases h; omega
        | succ n ih =>
          intro p p' b h
          unfold questionLoop at h
          split at h
          · cases h; omega
          · have := ih _ _ _ h; omega
      have := hp _ _ _ _ hq
      omega

/-! ## Canonical forms -/

theorem squeeze_length (s : Bytes) : (squeeze s).length ≤ s.length := by
  induction s with
  | nil => simp [squeeze]
  | cons c r ih =>
    unfold squeeze
    split
    · split
      · simp
      · split
        · simp at *; omega
        · simp at *; omega
    · simp; omega

theorem rstrip_length {α : Type} (p : α → Bool) (l : List α) : (rstrip p l).length ≤ l.length := by
  unfold rstrip
  have := (List.dropWhile_suffix p (l := l.reverse)).length_le
  simpa using this

theorem canonLine_length (mode : CanonMode) (l : Bytes) : (canonLine mode l).length ≤ l.length := by
  cases mode with
  | simple => exact Nat.le_refl _
  | relaxed => exact Nat.le_trans (rstrip_length _ _) (squeeze_length _)

theorem splitLF_total (s : Bytes) : Spec.total (splitLF s) + (splitLF s).length = s.length + 1 := by
  induction s with
  | nil => rfl
  | cons c r ih =>
    unfold splitLF
    split
    · simp [total_cons]; omega
    · split
      · rename_i h; rw [h] at ih; simp [total_nil] at ih
      · rename_i l ls h
        rw [h] at ih
        simp [total_cons] at *; omega

theorem total_map_canonLine (mode : CanonMode) (ls : List Bytes) : Spec.total (ls.map (canonLine mode)) ≤ Spec.total ls := by
  induction ls with
  | nil => exact Nat.le_refl _
  | cons l ls ih => have := canonLine_length mode l; simp only [List.map_cons, total_cons]; omega

theorem total_lines (ls : List Bytes) : (ls.flatMap (· ++ CRLF)).length = Spec.total ls + 2 * ls.length := by
  induction ls with
  | nil => rfl
  | cons l ls ih => simp [total_cons, ih, CRLF]; omega

theorem total_rstrip (ls : List Bytes) : Spec.total (rstrip List.isEmpty ls) ≤ Spec.total ls := by
  have h : ∃ t, ls = rstrip List.isEmpty ls ++ t := by
    unfold rstrip
    obtain ⟨t, ht⟩ := List.dropWhile_suffix List.isEmpty (l := ls.reverse)
    refine ⟨t.reverse, ?_⟩
    have := congrArg List.reverse ht
    simp only [List.reverse_append, List.reverse_reverse] at this
    exact this.symm
  obtain ⟨t, ht⟩ := h
  have := congrArg Spec.total ht
  rw [total_append] at this
  omega

/-- The canonical body is at most twice as long as the body, but for the final line end. -/
theorem canonBody_length (mode : CanonMode) (x : Bytes) : (Spec.canonBody mode x).length ≤ 2 * x.length + 2 := by
  have h1 : (canonLines mode x).length ≤ (splitLF (x.filter (· ≠ CR))).length := by
    unfold canonLines
    exact Nat.le_trans (rstrip_length _ _) (by simp)
  have h2 : Spec.total (canonLines mode x) ≤ Spec.total (splitLF (x.filter (· ≠ CR))) := by
    unfold canonLines
    exact Nat.le_trans (total_rstrip _) (total_map_canonLine _ _)
  have h3 := splitLF_total (x.filter (· ≠ CR))
  have h4 : ∀ y : Bytes, y = x.filter (· ≠ CR) → y.length ≤ x.length := by rintro y rfl; exact List.length_filter_le _ _
  have h5 := Nat.le_trans (Nat.le_of_eq h3) (Nat.add_le_add_right (h4 _ rfl) 1)
  unfold Spec.canonBody
  split
  · simp [CRLF]
  · rw [total_lines]; omega

/-- C73: the canonical body delivered is at most twice as long as the body, plus two bytes. -/
theorem C73_body (s : IStream) (mode : CanonMode) (off : Int) (hoff : ValidOffset s off) :
    ∃ calls s', Dkim.canonBody s mode off false 0 = .ok ((calls, true), s') ∧
      calls.flatten.length ≤ 2 * (bodyPart s.data off).length + 2 := by
  obtain ⟨calls, s', h1, h2⟩ := C01_body_canonical s mode off 0 hoff
  exact ⟨calls, s', h1, by rw [h2]; exact canonBody_length _ _⟩

theorem canonField_length {mode : CanonMode} {s c : Bytes} (h : CanonField mode s c) : c.length ≤ s.length := by
  have sp : ∀ s : Bytes, COLON ∈ s → (fieldName s).length + 1 + (fieldValue s).length = s.length := by
    intro s hc
    induction s with
    | nil => cases hc
    | cons c r ih =>
      by_cases h : c = COLON
      · subst h
        simp [fieldName, fieldValue]; omega
      · have hr : COLON ∈ r := by
          rcases List.mem_cons.1 hc with h1 | h1
          · exact absurd h1.symm h
          · exact h1
        have := ih hr
        simp [fieldName, fieldValue, h] at *; omega
  have uf : ∀ x, (Spec.unfold x).length ≤ x.length := fun x => List.length_filter_le _ _
  have dw : ∀ x : Bytes, (x.dropWhile Spec.isWSP).length ≤ x.length := fun x => (List.dropWhile_suffix _).length_le
  cases h with
  | simple => exact Nat.le_refl _
  | relaxed =>
    rename_i hc _ _
    have h0 := sp s hc
    have h1 := canonLine_length .relaxed (Spec.unfold (fieldName s))
    have h2 := uf (fieldName s)
    have h3 := canonLine_length .relaxed (Spec.unfold (fieldValue s))
    have h4 := uf (fieldValue s)
    have h5 := dw (canonLine .relaxed (Spec.unfold (fieldValue s)))
    have h6 : ∀ x : Bytes, (Spec.lower x).length = x.length := fun x => by simp [Spec.lower]
    unfold canonHeader
    simp only [List.length_append, List.length_cons, h6] at *
    omega
  | blank =>
    rename_i hc _ hb
    have h0 := sp s hc
    have h2 := uf (fieldName s)
    have h3 := canonLine_length .relaxed (Spec.unfold (fieldValue s))
    have h4 := uf (fieldValue s)
    have h5 := dw (canonLine .relaxed (Spec.unfold (fieldValue s)))
    split
    · simp only [List.nil_append, List.length_cons]; omega
    · rename_i hne
      have := List.length_pos_iff.2 hne
      simp only [List.length_append, List.length_cons, List.length_nil]; omega

/-- C73: the canonical form of a field of a message is no longer than the field. -/
theorem C73_field (d : Bytes) (m : Message) (s' : IStream) (h : Message.parseAll {} (freshStream d) = .ok (m, s'))
    (f : Header) (hf : f ∈ m.headers) (mode : CanonMode) (c : Bytes) (hc : filterHeader mode f.header = .ok c) :
    c.length ≤ f.header.length :=
  canonField_length ((canonField_iff (C22_fields d m s' h f hf).1).2 hc)

/-! ## The hashed header fields -/

theorem selectAux_key (rev : Bytes → List Header) (hrev : ∀ k, ∀ h ∈ rev k, lower h.name = k) (k : Bytes) (names : List Bytes) :
    ∀ cnt : Bytes → Nat, (selectAux rev cnt names).filter (fun h => lower h.name = k) =
      ((rev k).drop (cnt k)).take (names.countP (fun m => lower m = k)) := by
  induction names with
  | nil => intro cnt; simp [selectAux]
  | cons n ns ih =>
    intro cnt
    unfold selectAux
    have hbump : ∀ k', bump cnt k' k = if k = k' then cnt k + 1 else cnt k := fun k' => rfl
    by_cases hk : lower n = k
    · subst hk
      cases hx : (rev (lower n))[cnt (lower n)]? with
      | none =>
        rw [List.getElem?_eq_none_iff] at hx
        rw [Option.toList_none, List.nil_append, ih, hbump, if_pos rfl, List.drop_eq_nil_of_le (by omega), List.drop_eq_nil_of_le hx]
        simp
      | some x =>
        obtain ⟨hlt, he⟩ := List.getElem?_eq_some_iff.1 hx
        have hn : lower x.name = lower n := hrev _ x (List.mem_of_getElem? hx)
        rw [Option.toList_some, List.singleton_append, List.filter_cons_of_pos (by simpa using hn), ih, hbump, if_pos rfl, List.drop_eq_getElem_cons hlt, he]
        simp
    · have hc : (n :: ns).countP (fun m => lower m = k) = ns.countP (fun m => lower m = k) := by simp [hk]
      rw [hc]
      have hb : bump cnt (lower n) k = cnt k := by rw [hbump, if_neg (fun e => hk e.symm)]
      cases hx : (rev (lower n))[cnt (lower n)]? with
      | none => rw [Option.toList_none, List.nil_append, ih, hb]
      | some x =>
        have hn : lower x.name = lower n := hrev _ x (List.mem_of_getElem? hx)
        rw [Option.toList_some, List.singleton_append, List.filter_cons_of_neg (by simpa [hn] using hk), ih, hb]

/-- The hashed fields are some of the fields of the message, each at most once (in another order). -/
theorem selected_subperm (hs : List Header) (names : List Bytes) : (selected hs names).Subperm hs := by
  classical
  rw [List.subperm_ext_iff]
  intro x _
  have h1 := selectAux_key (fun k => (byKey hs k).reverse) (by
    intro k h hh
    have := (List.mem_filter.1 (List.mem_reverse.1 hh)).2
    simpa using this) (lower x.name) names (fun _ => 0)
  rw [← selected_eq] at h1
  have h2 : List.count x (selected hs names) = List.count x ((selected hs names).filter (fun h => lower h.name = lower x.name)) := by
    rw [List.count_filter (by simp)]
  rw [h2, h1, List.drop_zero]
  have h3 := (List.take_sublist (names.countP (fun m => lower m = lower x.name)) (byKey hs (lower x.name)).reverse).count_le x
  have h4 : List.count x (byKey hs (lower x.name)).reverse = List.count x hs := by
    rw [(List.reverse_perm _).count_eq]
    unfold byKey
    rw [List.count_filter (by simp)]
  omega

theorem sum_subperm {l₁ l₂ : List Header} (h : l₁.Subperm l₂) (w : Header → Nat) : (l₁.map w).sum ≤ (l₂.map w).sum := by
  obtain ⟨l, h1, h2⟩ := h
  rw [← (h1.map w).sum_nat]
  clear h1
  induction h2 with
  | slnil => exact Nat.le_refl _
  | cons a _ ih => simp; omega
  | cons_cons a _ ih => simp; omega

theorem canonFields_length {mode : CanonMode} {fs : List Header} {cs : List Bytes} (h : CanonFields mode fs cs) :
    (lines cs).length ≤ (fs.map (fun f => f.header.length + 2)).sum := by
  induction h with
  | nil => simp [lines]
  | cons f fs c cs h _ ih =>
    have := canonField_length h
    unfold lines at *
    simp [CRLF] at *; omega

theorem groupLines_total (ls : List Bytes) : ((groupLines ls).map (fun g => (joinLines g).length + 2)).sum = (ls.map (fun l => l.length + 2)).sum ∧
    ∀ l ls', ls = l :: ls' → ∃ g gs, groupLines ls = (g :: gs) ∧ g ≠ [] := by
  induction ls with
  | nil => simp [groupLines]
  | cons l ls ih =>
    cases ls with
    | nil => simp [groupLines, joinLines]
    | cons l2 ls =>
      obtain ⟨g, gs, hg, hne⟩ := ih.2 l2 ls rfl
      have h1 := ih.1
      unfold groupLines
      split
      · rw [hg] at h1 ⊢
        cases g with
        | nil => exact absurd rfl hne
        | cons x xs =>
          simp [joinLines, CRLF] at *; omega
      · simp [joinLines] at *; omega

theorem headText_total {pos : Nat} {d : Bytes} {ls : List Bytes} {off : Int} (h : HeadText pos d ls off) :
    (ls.map (fun l => l.length + 2)).sum ≤ 2 * d.length + 1 := by
  induction h with
  | lastLine pos l h => have := List.length_pos_iff.2 h; simp; omega
  | lastLineCR pos l h => have := List.length_pos_iff.2 h; simp; omega
  | lineLF pos l r ls off h _ _ _ ih => have := List.length_pos_iff.2 h; simp; omega
  | lineCRLF pos l r ls off h _ _ ih => have := List.length_pos_iff.2 h; simp; omega
  | _ => simp

/-- The fields of a message, each with a line end, are at most twice as long as the message. -/
theorem fields_total {d : Bytes} {m : Message} {s' : IStream} (h : Message.parseAll {} (freshStream d) = .ok (m, s')) :
    (m.headers.map (fun f => f.header.length + 2)).sum ≤ 2 * d.length + 1 := by
  obtain ⟨m2, s2, ls, h1, h2, h3, _⟩ := C20_parse d
  rw [h] at h1
  cases h1
  rw [h3, List.map_map]
  have he : ((fun f : Header => f.header.length + 2) ∘ mkField) = fun g => (joinLines g).length + 2 := by
    funext g
    simp [mkField_header]
  rw [he, (groupLines_total ls).1]
  exact headText_total h2

/-- C73: whatever names a signature lists, and however often, the fields it covers are some of the fields of the message, each at most once. -/
theorem C73_hashed_once (hs : List Header) (names : List Bytes) : ∃ fs : List Header, fs.Sublist hs ∧ fs.Perm (selected hs names) := by
  obtain ⟨l, h1, h2⟩ := selected_subperm hs names
  exact ⟨l, h2, h1⟩

/-- C73: so the header hash input is no longer than all fields, each with a line end, and the signature field. -/
theorem C73_hash_input {E : Env} (d : Bytes) (type : ValidatorType) (v : Validatory) (hv : Validatory.mk' (freshStream d) type = .ok v)
    (h : Header) (hh : h ∈ v.sigs) (hlen : h.header.length < 2 ^ 31) (now : Int) (er : Bool) (st : SigSt)
    (hp : Signature.parse E now h { erange := er } = .ok () st) (input : Bytes)
    (hi : headerHashInput v.msg h st.sig = .ok input) :
    input.length ≤ (v.msg.headers.map (fun f => f.header.length + 2)).sum + h.header.length ∧
    input.length ≤ 2 * d.length + 1 + h.header.length := by
  obtain ⟨sig, er'⟩ := st
  have hi' : Input d h sig.tags sig input := (input_iff (es := sig.tags) (s := sig) hv hh hlen hp).2 hi
  obtain ⟨ls, off, hd, bval, before, after, cs, c, _, h2, h3, h4, rfl⟩ := hi'
  rw [← (headText_msg hv hd).1] at h3
  have l1 := canonFields_length h3
  have l2 := sum_subperm (selected_subperm v.msg.headers sig.headers) (fun f => f.header.length + 2)
  have l3 := canonField_length h4
  have l4 : (h.header.take h.valueOffset ++ (before ++ after)).length ≤ h.header.length := by
    have := congrArg List.length h2
    unfold valueText at this
    simp only [List.length_append, List.length_take, List.length_drop] at *
    omega
  have l5 : (v.msg.headers.map (fun f => f.header.length + 2)).sum ≤ 2 * d.length + 1 := by
    unfold Validatory.mk' at hv
    split at hv
    · cases hv
    · rename_i m s hm
      cases hv
      exact fields_total hm
  rw [List.length_append]
  omega

/-- Names without end, but each field once. -/
theorem hashed_once_example : selected [⟨b!"a", b!"a: 1", 2⟩, ⟨b!"A", b!"A: 2", 2⟩] [b!"a", b!"a", b!"a", b!"a"] =
    [⟨b!"A", b!"A: 2", 2⟩, ⟨b!"a", b!"a: 1", 2⟩] := by decide +kernel

/-- The bounds are reached: line ends are doubled, and every byte of a list can count. -/
theorem sizes_example : Spec.canonBody .simple [LF, 65] = [CR, LF, 65, CR, LF] ∧ valueList b!"a:b" = .ok [b!"a", b!"b"] ∧
    qpDecode b!"abc" false = .ok b!"abc" ∧ parseAddressList true b!"a@b" = .ok [b!"a@b"] := by decide +kernel

/-- C73 applies to verification of a signed message: the bytes hashed for its signature. -/
example : ∃ v h st input, Validatory.mk' (freshStream (Samples.signed Samples.rsaOpts Samples.message)) .dkim = .ok v ∧ h ∈ v.sigs ∧
    Signature.parse toyEnv 0 h { erange := false } = .ok () st ∧ headerHashInput v.msg h st.sig = .ok input ∧
    input.length ≤ 2 * (Samples.signed Samples.rsaOpts Samples.message).length + 1 + h.header.length := by
  obtain ⟨v, hv, h1⟩ := ok_of (Validatory.mk' (freshStream (Samples.signed Samples.rsaOpts Samples.message)) .dkim)
    (fun v => match v.sigs with
      | [h] => decide (h.header.length < 2 ^ 31) && (match Signature.parse toyEnv 0 h { erange := false } with
        | .ok _ st => (match headerHashInput v.msg h st.sig with | .ok _ => true | .error _ => false)
        | .error _ _ => false)
      | _ => false) (by decide +kernel)
  split at h1
  · rename_i h hs
    simp only [Bool.and_eq_true, decide_eq_true_eq] at h1
    obtain ⟨hl, h1⟩ := h1
    split at h1
    · rename_i st hp
      split at h1
      · rename_i input hi
        exact ⟨v, h, st, input, hv, by rw [hs]; simp, hp, hi,
          (C73_hash_input _ _ v hv h (by rw [hs]; simp) hl 0 false st hp input hi).2⟩
      · cases h1
    · cases h1
  · cases h1

end Dkim

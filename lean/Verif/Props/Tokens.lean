import Verif.Proofs.ValueList
/-!
# Properties C08 (white space) and C10 (colon lists)

Spec: `Verif/Spec/Tokens.lean`.
-/

namespace Dkim
open Spec

/-- C08, FWS mode: the result (consumed, left) is exactly the one the specification allows. -/
theorem C08_fws_exact (s w r : Bytes) : readFWS s = .ok (w, r) ↔ ReadsFWS s w r := by
  constructor
  · intro h
    rcases readFWS_cases s with ⟨a, q, rfl, ha, hq⟩ | ⟨a, b, q, rfl, ha, hb, hne, hq⟩ |
      ⟨a, q, rfl, ha, hq⟩ | ⟨a, q, rfl, ha, hq⟩
    · rw [readFWS_plain ha hq] at h
      injection h with h; injection h with h1 h2; subst h1 h2; exact .plain _ _ ha hq
    · rw [readFWS_fold ha hb hne hq] at h
      injection h with h; injection h with h1 h2; subst h1 h2; exact .fold _ _ _ ha hb hne hq
    · rw [readFWS_unwind ha hq] at h
      injection h with h; injection h with h1 h2; subst h1 h2; exact .unwind _ _ ha hq
    · rw [readFWS_bad ha hq] at h; cases h
  · rintro (⟨_, _, ha, hq⟩ | ⟨_, _, _, ha, hb, hne, hq⟩ | ⟨_, _, ha, hq⟩)
    · exact readFWS_plain ha hq
    · exact readFWS_fold ha hb hne hq
    · exact readFWS_unwind ha hq

/-- C08, FWS mode: it throws exactly on a CR without LF after the WSP, with a permanent error. -/
theorem C08_fws_throws (s : Bytes) (e : Err) :
    readFWS s = .error e ↔ e = .p .crWithoutLf ∧ BareCR s := by
  constructor
  · exact readFWS_error
  · rintro ⟨rfl, a, r, rfl, ha, hr⟩
    exact readFWS_bad ha hr

/-- C08: nothing is lost, and what is consumed is an FWS. -/
theorem C08_fws_lossless (s w r : Bytes) (h : readFWS s = .ok (w, r)) : s = w ++ r ∧ IsFWS w :=
  readFWS_ok h

/-- C08: a CRLF not followed by WSP leaves the stream untouched (WSP before it included). -/
theorem C08_unwind (a r : Bytes) (ha : AllWSP a) (hr : NotHead Spec.isWSP r) :
    readFWS (a ++ CRLF ++ r) = .ok ([], a ++ CRLF ++ r) := readFWS_unwind ha hr

/-- C08, CRLF mode. -/
theorem C08_crlf (s : Bytes) :
    (∃ r, s = CRLF ++ r ∧ readCRLF s = .ok (CRLF, r)) ∨
    (∃ r, s = CR :: r ∧ NotHead (· == LF) r ∧ readCRLF s = .error (.p .crWithoutLf)) ∨
    (NotHead (· == CR) s ∧ readCRLF s = .ok ([], s)) := by
  cases s with
  | nil => right; right; simp [NotHead, readCRLF]
  | cons c r =>
    by_cases hc : c = CR
    · subst hc
      cases r with
      | nil => right; left; exact ⟨[], rfl, by simp [NotHead], by simp [readCRLF]⟩
      | cons d r =>
        by_cases hd : d = LF
        · subst hd; left; exact ⟨r, rfl, by simp [readCRLF]⟩
        · right; left
          exact ⟨d :: r, rfl, by simpa [NotHead] using hd, by simp [readCRLF, hd]⟩
    · right; right
      exact ⟨by simpa [NotHead] using hc, by simp [readCRLF, hc]⟩

/-- C08, WSP mode: one byte of WSP, or nothing. -/
theorem C08_wsp (s : Bytes) :
    (∃ c r, s = c :: r ∧ (c = SP ∨ c = TAB) ∧ readWSP s = ([c], r)) ∨
    ((∀ c ∈ s.head?, c ≠ SP ∧ c ≠ TAB) ∧ readWSP s = ([], s)) := by
  cases s with
  | nil => right; simp [readWSP]
  | cons c r =>
    by_cases h : c = SP ∨ c = TAB
    · left; exact ⟨c, r, rfl, h, by rcases h with rfl | rfl <;> simp [readWSP, isWSP]⟩
    · right; simpa [readWSP, isWSP, not_or] using h

/-- C08, loose mode: one byte of SP, TAB, CR, LF, or nothing. -/
theorem C08_loose (s : Bytes) :
    (∃ c r, s = c :: r ∧ (c = SP ∨ c = TAB ∨ c = CR ∨ c = LF) ∧ readLoose s = ([c], r)) ∨
    ((∀ c ∈ s.head?, c ≠ SP ∧ c ≠ TAB ∧ c ≠ CR ∧ c ≠ LF) ∧ readLoose s = ([], s)) := by
  cases s with
  | nil => right; simp [readLoose]
  | cons c r =>
    by_cases h : c = SP ∨ c = TAB ∨ c = CR ∨ c = LF
    · left; exact ⟨c, r, rfl, h, by rcases h with rfl | rfl | rfl | rfl <;> simp [readLoose, isLoose]⟩
    · right
      simp only [not_or] at h
      refine ⟨by simpa using h, ?_⟩
      simp [readLoose, isLoose, h.1, h.2.1, h.2.2.1, h.2.2.2]

example : ReadsFWS b!" \t\r\n \tx" b!" \t\r\n \t" b!"x" := (C08_fws_exact _ _ _).1 (by decide)
example : ReadsFWS b!" \r\nx" [] b!" \r\nx" := (C08_fws_exact _ _ _).1 (by decide)
example : BareCR b!" \rx" := ((C08_fws_throws _ (.p .crWithoutLf)).1 (by decide)).2

/-- C10: clean values joined by colons, with any folding white space around each of them, are
returned exactly, in order. -/
theorem C10_values_back (items : List Item)
    (hi : ∀ i ∈ items, FwsRun i.pre ∧ Clean i.val ∧ FwsRun i.post) :
    valueList (joinColon (items.map Item.text)) = .ok (items.map Item.val) :=
  valueListLoop_items items hi _ (by omega)

/-- C10: whatever is accepted is such a list: the values are non-empty, colon-free, contiguous
pieces of the input, in order, separated by nothing but colons and folding white space (a trailing
colon is tolerated). -/
theorem C10_values_sound (s : Bytes) (vs : List Bytes) (h : valueList s = .ok vs) :
    ∃ (items : List Item) (tail : Bytes), s = joinColon (items.map Item.text) ++ tail ∧
      vs = items.map Item.val ∧
      (∀ i ∈ items, FwsRun i.pre ∧ i.val ≠ [] ∧ COLON ∉ i.val ∧ FwsRun i.post) ∧
      (if items = [] then FwsRun tail else tail = [] ∨ ∃ f, FwsRun f ∧ tail = COLON :: f) :=
  valueListLoop_ok h

/-- C10: the consequence for a single value. -/
theorem C10_value_piece (s : Bytes) (vs : List Bytes) (h : valueList s = .ok vs) (v : Bytes)
    (hv : v ∈ vs) : v ≠ [] ∧ COLON ∉ v ∧ v <:+: s := by
  obtain ⟨items, tail, rfl, rfl, hi, _⟩ := valueListLoop_ok h
  obtain ⟨i, hmem, rfl⟩ := List.mem_map.1 hv
  refine ⟨(hi i hmem).2.1, (hi i hmem).2.2.1, ?_⟩
  have h1 : i.val <:+: i.text := ⟨i.pre, i.post, rfl⟩
  have h2 : ∀ (l : List Bytes) (x : Bytes), x ∈ l → x <:+: joinColon l := by
    intro l
    induction l with
    | nil => simp
    | cons y l ih =>
      intro x hx
      cases l with
      | nil =>
        simp only [List.mem_singleton] at hx; subst hx; exact List.infix_rfl
      | cons z l =>
        rw [joinColon_cons_ne y (by simp)]
        rcases List.mem_cons.1 hx with rfl | hx
        · exact (List.prefix_append _ _).isInfix
        · exact (ih x hx).trans ((List.suffix_cons _ _).trans (List.suffix_append _ _)).isInfix
  exact (h1.trans (h2 _ _ (List.mem_map_of_mem hmem))).trans (List.prefix_append _ _).isInfix

/-- Non-vacuity: a folded list as found in real `h=` tags. -/
example : (∀ i ∈ ([⟨[], b!"from", b!" "⟩, ⟨b!"\r\n\t", b!"reply to", []⟩] : List Item),
    FwsRun i.pre ∧ Clean i.val ∧ FwsRun i.post) ∧
    joinColon (([⟨[], b!"from", b!" "⟩, ⟨b!"\r\n\t", b!"reply to", []⟩] : List Item).map Item.text)
      = b!"from :\r\n\treply to" := by
  refine ⟨?_, by decide⟩
  intro i hi
  simp only [List.mem_cons, List.not_mem_nil, or_false] at hi
  rcases hi with rfl | rfl
  · refine ⟨.nil, ?_, .wsp _ _ (by decide) .nil⟩
    exact .cons _ _ (by decide) (by decide) (.cons _ _ (by decide) (by decide)
      (.cons _ _ (by decide) (by decide) (.one _ (by decide) (by decide))))
  · refine ⟨.fold _ _ (by decide) .nil, ?_, .nil⟩
    exact .cons _ _ (by decide) (by decide) (.cons _ _ (by decide) (by decide)
      (.cons _ _ (by decide) (by decide) (.cons _ _ (by decide) (by decide)
      (.gap 121 [32] _ (by decide) (by decide) (.wsp _ _ (by decide) .nil)
        (.cons _ _ (by decide) (by decide) (.one _ (by decide) (by decide)))))))

end Dkim

import Verif.Proofs.TagList
/-!
# Properties C11–C13: tag lists

Spec: `Verif/Spec/TagText.lean`. `TagList.parse s m` runs `Parse(s)` on an object holding `m`.
-/

namespace Dkim
open Spec

/-- C11/C13: `Parse` succeeds on an object holding `m` iff the text is in the grammar, no name
occurs twice in it, and none is already stored; the object then holds the old tags and the new. -/
theorem C11_parse_iff (s : Bytes) (m m' : TagList) :
    TagList.parse s m = .ok () m' ↔
      ∃ es, TagText 0 s es ∧ (es.map Prod.fst).Nodup ∧
        (∀ k ∈ es.map Prod.fst, k ∉ m.map Prod.fst) ∧ m' = m ++ es := by
  constructor
  · intro h
    obtain ⟨es, h1, h2, h3, h4⟩ := tagLoop_ok (Nat.le_refl _) h
    rw [Nat.sub_self] at h1
    exact ⟨es, h1, h3, h4, h2⟩
  · rintro ⟨es, h1, h2, h3, rfl⟩
    exact tagLoop_of h1 _ (by omega) _ (by omega) m h2 h3

/-- Lookup in a list of tags with distinct names. -/
theorem getTag_eq_some_iff {es : TagList} (hnd : (es.map Prod.fst).Nodup) (n : Bytes) (t : TagEntry) :
    es.getTag n = some t ↔ (n, t) ∈ es := by
  unfold TagList.getTag
  induction es with
  | nil => simp
  | cons p es ih =>
    obtain ⟨k, v⟩ := p
    simp only [List.map_cons, List.nodup_cons] at hnd
    rw [List.lookup_cons]
    by_cases h : n = k
    · subst h
      simp only [beq_self_eq_true, Option.some.injEq, List.mem_cons, Prod.mk.injEq, true_and]
      constructor
      · intro h; exact Or.inl h.symm
      · rintro (h | h)
        · exact h.symm
        · exact absurd (List.mem_map_of_mem (f := Prod.fst) h) hnd.1
    · have hb : (n == k) = false := by simpa using h
      rw [hb]
      simp only [List.mem_cons, Prod.mk.injEq, h, false_and, false_or]
      exact ih hnd.2

/-- C11: on a fresh object: accepted iff the text is in the grammar with distinct names, and then
`GetTag` finds exactly the names of the text, each with its own value. -/
theorem C11_fresh (s : Bytes) :
    (∃ m, TagList.parse s [] = .ok () m) ↔ ∃ es, TagText 0 s es ∧ (es.map Prod.fst).Nodup := by
  constructor
  · rintro ⟨m, h⟩
    obtain ⟨es, h1, h2, _, _⟩ := (C11_parse_iff _ _ _).1 h
    exact ⟨es, h1, h2⟩
  · rintro ⟨es, h1, h2⟩
    exact ⟨es, (C11_parse_iff _ _ _).2 ⟨es, h1, h2, by simp, by simp⟩⟩

theorem C11_getTag (s : Bytes) (m : TagList) (h : TagList.parse s [] = .ok () m) :
    ∃ es, TagText 0 s es ∧ ∀ n t, m.getTag n = some t ↔ (n, t) ∈ es := by
  obtain ⟨es, h1, h2, _, h3⟩ := (C11_parse_iff _ _ _).1 h
  rw [List.nil_append] at h3
  exact ⟨es, h1, fun n t => by rw [h3]; exact getTag_eq_some_iff h2 n t⟩

/-- C12: whatever the grammar says about positions is a slice of the text. -/
theorem TagText.slice {pos : Nat} {s : Bytes} {es : List (Bytes × TagEntry)} (h : TagText pos s es)
    (pre : Bytes) (hp : pre.length = pos) (n : Bytes) (t : TagEntry) (hm : (n, t) ∈ es) (hv : t.value ≠ []) :
    ∃ off : Nat, t.offset = off ∧ ((pre ++ s).drop off).take t.value.length = t.value ∧
      off + t.value.length ≤ (pre ++ s).length := by
  induction h generalizing pre with
  | done => simp at hm
  | last pos i hwf =>
    simp only [List.mem_singleton, Prod.mk.injEq] at hm
    obtain ⟨rfl, rfl⟩ := hm
    have hv' : i.value ≠ [] := hv
    refine ⟨pos + i.lead.length, by simp [hv'], ?_, ?_⟩
    · have : pre ++ i.text = (pre ++ i.lead) ++ (i.value ++ i.post) := by simp [TagItem.text]
      rw [this, List.drop_append_of_le_length (by simp [hp])]
      simp [← hp]
    · simp [TagItem.text, hp]; omega
  | cons pos i s es hwf htt ih =>
    rcases List.mem_cons.1 hm with hm | hm
    · simp only [Prod.mk.injEq] at hm
      obtain ⟨rfl, rfl⟩ := hm
      refine ⟨pos + i.lead.length, rfl, ?_, ?_⟩
      · have : pre ++ (i.text ++ SEMI :: s) = (pre ++ i.lead) ++ (i.value ++ (i.post ++ SEMI :: s)) := by
          simp [TagItem.text]
        rw [this, List.drop_append_of_le_length (by simp [hp])]
        simp [← hp]
      · simp [TagItem.text, hp]; omega
    · obtain ⟨off, h1, h2, h3⟩ := ih (pre ++ i.text ++ [SEMI]) (by simp [hp]; omega) hm
      refine ⟨off, h1, ?_, ?_⟩
      · simpa using h2
      · simp at h3 ⊢; omega

/-- C12: after a successful `Parse` on a fresh object, the range [offset, offset + length) recorded
for any tag with a non-empty value holds exactly that value, and erasing it leaves everything else. -/
theorem C12_offset_delimits (s : Bytes) (m : TagList) (h : TagList.parse s [] = .ok () m)
    (n : Bytes) (t : TagEntry) (ht : m.getTag n = some t) (hv : t.value ≠ []) :
    ∃ (before after : Bytes), s = before ++ t.value ++ after ∧ t.offset = before.length ∧
      s.take t.offset.toNat ++ s.drop (t.offset.toNat + t.value.length) = before ++ after := by
  obtain ⟨es, h1, h2, _, rfl⟩ := (C11_parse_iff _ _ _).1 h
  have hmem := (getTag_eq_some_iff h2 n t).1 ht
  obtain ⟨off, h3, h4, h5⟩ := TagText.slice h1 [] rfl n t hmem hv
  rw [List.nil_append] at h4 h5
  have hs : s = s.take off ++ t.value ++ s.drop (off + t.value.length) := by
    conv => lhs; rw [← List.take_append_drop off s, ← List.take_append_drop t.value.length (s.drop off), h4]
    simp
  refine ⟨s.take off, s.drop (off + t.value.length), hs, ?_, ?_⟩
  · rw [h3]; simp; omega
  · rw [h3]; rfl

/-- C13: a name that occurs twice in a text of the grammar is rejected with a permanent error. -/
theorem C13_duplicate_rejected (s : Bytes) (es : List (Bytes × TagEntry)) (h : TagText 0 s es)
    (m : TagList) (hd : ¬ (es.map Prod.fst).Nodup ∨ ∃ k ∈ es.map Prod.fst, k ∈ m.map Prod.fst) :
    ∃ k m', TagList.parse s m = .error (.p (.duplicateTag k)) m' := by
  rcases tagLoop_text h (s.length + 1) (by omega) s.length (by omega) m with ⟨h1, h2, _⟩ | ⟨_, h2⟩
  · rcases hd with hd | ⟨k, hk, hk2⟩
    · exact absurd h1 hd
    · exact absurd hk2 (h2 k hk)
  · exact h2

/-- State of the object after one `Parse` call, successful or not. -/
def afterParse (m : TagList) (s : Bytes) : TagList :=
  match TagList.parse s m with
  | .ok _ m' => m'
  | .error _ m' => m'

/-- C13: one call never changes or loses a stored tag, whether it succeeds or throws. -/
theorem afterParse_keeps (m : TagList) (s : Bytes) (n : Bytes) (t : TagEntry)
    (h : m.getTag n = some t) : (afterParse m s).getTag n = some t := by
  unfold afterParse
  cases hp : TagList.parse s m with
  | ok u m' =>
    obtain ⟨es, _, _, _, rfl⟩ := (C11_parse_iff s m m').1 hp
    simp [getTag_append, h]
  | error e m' =>
    obtain ⟨_, es, rfl, _⟩ := tagLoop_error (by omega) hp
    simp [getTag_append, h]

/-- C13: no history of `Parse` calls (including failing ones) changes or loses a stored tag. -/
theorem C13_history_keeps (inputs : List Bytes) (m : TagList) (n : Bytes) (t : TagEntry)
    (h : m.getTag n = some t) : (inputs.foldl afterParse m).getTag n = some t := by
  induction inputs generalizing m with
  | nil => exact h
  | cons s r ih => exact ih _ (afterParse_keeps m s n t h)

/-- C13: no history stores two tags under one name. -/
theorem C13_history_nodup (inputs : List Bytes) :
    ((inputs.foldl afterParse []).map Prod.fst).Nodup := by
  have step : ∀ (m : TagList) (s : Bytes), (m.map Prod.fst).Nodup → ((afterParse m s).map Prod.fst).Nodup := by
    intro m s hm
    have app : ∀ es : TagList, (es.map Prod.fst).Nodup → (∀ k ∈ es.map Prod.fst, k ∉ m.map Prod.fst) →
        ((m ++ es).map Prod.fst).Nodup := by
      intro es h1 h2
      rw [List.map_append, List.nodup_append]
      refine ⟨hm, h1, ?_⟩
      rintro a ha b hb rfl
      exact h2 a hb ha
    unfold afterParse
    cases hp : TagList.parse s m with
    | ok u m' =>
      obtain ⟨es, _, h1, h2, rfl⟩ := (C11_parse_iff s m m').1 hp
      exact app es h1 h2
    | error e m' =>
      obtain ⟨_, es, rfl, h1, h2⟩ := tagLoop_error (by omega) hp
      exact app es h1 h2
  have : ∀ (m : TagList), (m.map Prod.fst).Nodup → ((inputs.foldl afterParse m).map Prod.fst).Nodup := by
    induction inputs with
    | nil => exact fun m h => h
    | cons s r ih => exact fun m h => ih _ (step m s h)
  exact this [] (by simp)

/-- Every failure is one of the four permanent errors (nothing else can come out of `Parse`). -/
theorem C11_errors (s : Bytes) (m m' : TagList) (e : Err) (h : TagList.parse s m = .error e m') :
    e = .p .emptyTagName ∨ (∃ k, e = .p (.duplicateTag k)) ∨ e = .p .expectedEq ∨ e = .p .badTagValue :=
  (tagLoop_error (by omega) h).1

/-! Non-vacuity: a realistic list, its values and positions. -/
example : TagText 0 b!"v=1; b = ab\r\n\tcd ;l=" [(b!"v", ⟨b!"1", 2⟩), (b!"b", ⟨b!"ab\r\n\tcd", 9⟩), (b!"l", ⟨[], -1⟩)] := by
  have hp : TagList.parse b!"v=1; b = ab\r\n\tcd ;l=" [] = .ok ()
      [(b!"v", ⟨b!"1", 2⟩), (b!"b", ⟨b!"ab\r\n\tcd", 9⟩), (b!"l", ⟨[], -1⟩)] := rfl
  obtain ⟨es, h1, _, _, h4⟩ := (C11_parse_iff _ [] _).1 hp
  rw [List.nil_append] at h4
  rw [h4]; exact h1
example : ∃ m', TagList.parse b!"v=1; v=2" [] = .error (.p (.duplicateTag b!"v")) m' := by
  exact ⟨_, rfl⟩
example : ∃ m', TagList.parse b!"v=2" [(b!"v", ⟨b!"1", 2⟩)] = .error (.p (.duplicateTag b!"v")) m' := by
  exact ⟨_, rfl⟩

end Dkim

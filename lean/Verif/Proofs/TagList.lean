import Verif.Proofs.Ascii
import Verif.Model.TagList
import Verif.Proofs.ValueList
import Verif.Spec.TagText
/-! Lemmas about `TagList::Parse`. -/

namespace Dkim
open Spec

theorem tagLoop_eq (total n : Nat) (s : Bytes) (m : TagList) :
    tagLoop total (n + 1) s m =
      if (skipLoose s).isEmpty then .ok () m
      else
        let (name, s2) := readName (skipLoose s)
        if name.isEmpty then .error (.p .emptyTagName) m
        else if (m.getTag name).isSome then .error (.p (.duplicateTag name)) m
        else
          match skipLoose s2 with
          | [] => .error (.p .expectedEq) m
          | c :: s3 =>
            if c ≠ EQ then .error (.p .expectedEq) m
            else
              match readValue [] [] (skipLoose s3) with
              | .error e => .error e m
              | .ok (value, s5) =>
                let m' := m ++ [(name, { value := value, offset := tellgAfterPeek total (skipLoose s3) })]
                match s5 with
                | [] => .ok () m'
                | _ :: s6 => tagLoop total n s6 m' := by
  rw [tagLoop]
  by_cases h1 : (skipLoose s).isEmpty
  · simp [h1]; rfl
  · simp only [h1, Bool.false_eq_true, if_false]
    rcases hn : readName (skipLoose s) with ⟨name, s2⟩
    simp only []
    by_cases h2 : name.isEmpty
    · simp [h2]; rfl
    · simp only [h2, Bool.false_eq_true, if_false]
      show EStateM.bind _ _ m = _
      simp only [EStateM.bind, get, getThe, MonadStateOf.get, EStateM.get]
      by_cases h3 : (m.getTag name).isSome
      · simp [h3]; rfl
      · simp only [h3, Bool.false_eq_true, if_false]
        cases hs3 : skipLoose s2 with
        | nil => rfl
        | cons c s3 =>
          by_cases h4 : c = EQ
          · simp only [h4, ne_eq, not_true_eq_false, if_false]
            cases hv : readValue [] [] (skipLoose s3) with
            | error e => rfl
            | ok p =>
              obtain ⟨value, s5⟩ := p
              cases s5 <;> rfl
          · simp [h4]; rfl

/-! ### byte classes -/

theorem isValChar_iff (c : Byte) : isValChar c = true ↔ IsValByte c := by
  revert c
  simp only [isValChar, IsValByte]
  intro c
  simp only [Bool.or_eq_true, Bool.and_eq_true, decide_eq_true_eq, SEMI, UInt8.le_iff_toNat_le, ne_eq,
    ← UInt8.toNat_inj]
  simp only [UInt8.reduceToNat]
  omega

theorem isNameChar_iff (c : Byte) : isNameChar c = true ↔ (isAlnum c = true ∨ c = 95) := by
  simp [isNameChar]

theorem loose_not_name {c : Byte} (h : isLoose c = true) : isNameChar c = false := by
  simp only [isLoose, Bool.or_eq_true, beq_iff_eq] at h
  rcases h with ((h | h) | h) | h <;> subst h <;> decide

theorem loose_not_val {c : Byte} (h : isLoose c = true) : isValChar c = false := by
  simp only [isLoose, Bool.or_eq_true, beq_iff_eq] at h
  rcases h with ((h | h) | h) | h <;> subst h <;> decide

theorem val_not_loose {c : Byte} (h : isValChar c = true) : isLoose c = false := by
  cases h' : isLoose c with
  | false => rfl
  | true => rw [loose_not_val h'] at h; cases h

theorem val_ne_semi {c : Byte} (h : isValChar c = true) : c ≠ SEMI := by
  rintro rfl; exact absurd h (by decide)

/-! ### skipLoose -/

theorem skipLoose_split (s : Bytes) : ∃ f, s = f ++ skipLoose s ∧ AllLoose f ∧
    NotHead isLoose (skipLoose s) := by
  induction s with
  | nil => exact ⟨[], rfl, by simp [AllLoose], by simp [skipLoose, NotHead]⟩
  | cons c r ih =>
    unfold skipLoose
    split
    · rename_i h
      obtain ⟨f, h1, h2, h3⟩ := ih
      refine ⟨c :: f, by simpa using h1, ?_, h3⟩
      intro d hd
      simp only [List.mem_cons] at hd
      rcases hd with rfl | hd
      · exact h
      · exact h2 d hd
    · rename_i h
      exact ⟨[], rfl, by simp [AllLoose], by simpa [NotHead] using h⟩

theorem skipLoose_of {f t : Bytes} (hf : AllLoose f) (ht : NotHead isLoose t) :
    skipLoose (f ++ t) = t := by
  induction f with
  | nil =>
    cases t with
    | nil => rfl
    | cons c t =>
      have : isLoose c = false := by simpa [NotHead] using ht
      simp [skipLoose, this]
  | cons c f ih =>
    have : isLoose c = true := hf c (by simp)
    simp [skipLoose, this, ih (fun d hd => hf d (by simp [hd]))]

theorem skipLoose_all {f : Bytes} (hf : AllLoose f) : skipLoose f = [] := by
  simpa using skipLoose_of (t := []) hf (by simp [NotHead])

/-! ### names -/

theorem nameLoop_append (s : Bytes) : (nameLoop s).1 ++ (nameLoop s).2 = s := by
  induction s with
  | nil => rfl
  | cons c r ih => unfold nameLoop; split <;> simp [ih]

theorem nameLoop_all (s : Bytes) : ∀ c ∈ (nameLoop s).1, isNameChar c = true := by
  induction s with
  | nil => simp [nameLoop]
  | cons c r ih =>
    unfold nameLoop
    split
    · rename_i h
      intro d hd
      simp only [List.mem_cons] at hd
      rcases hd with rfl | hd
      · exact h
      · exact ih d hd
    · simp

theorem nameLoop_head (s : Bytes) : NotHead isNameChar (nameLoop s).2 := by
  induction s with
  | nil => simp [nameLoop, NotHead]
  | cons c r ih =>
    unfold nameLoop
    split
    · exact ih
    · rename_i h; simpa [NotHead] using h

theorem readName_eq (s : Bytes) : readName s = nameLoop s := by
  cases s with
  | nil => rfl
  | cons c r =>
    by_cases h : isAlnum c = true
    · have h2 : isNameChar c = true := by simp [isNameChar, h]
      simp [readName, nameLoop, h, h2]
    · simp [readName, h]

theorem nameLoop_of {a t : Bytes} (ha : ∀ c ∈ a, isNameChar c = true) (ht : NotHead isNameChar t) :
    nameLoop (a ++ t) = (a, t) := by
  induction a with
  | nil =>
    cases t with
    | nil => rfl
    | cons c t =>
      have : isNameChar c = false := by simpa [NotHead] using ht
      simp [nameLoop, this]
  | cons c a ih =>
    have hc := ha c (by simp)
    simp [nameLoop, hc, ih (fun d hd => ha d (by simp [hd]))]

/-! ### values -/

theorem readValue_ok {buf val s v rest : Bytes} (hbuf : AllLoose buf)
    (h : readValue buf val s = .ok (v, rest)) :
    ∃ y post, s = y ++ rest ∧ val ++ buf ++ y = v ++ post ∧ AllLoose post ∧
      (rest = [] ∨ ∃ r, rest = SEMI :: r) ∧
      ((v = val ∧ AllLoose y) ∨ (∃ z c, v = val ++ buf ++ z ++ [c] ∧ isValChar c = true ∧
        (∀ d ∈ z, isValChar d = true ∨ isLoose d = true))) := by
  induction s generalizing buf val with
  | nil =>
    simp only [readValue, Except.ok.injEq, Prod.mk.injEq] at h
    obtain ⟨rfl, rfl⟩ := h
    exact ⟨[], buf, rfl, by simp, hbuf, Or.inl rfl, Or.inl ⟨rfl, by simp [AllLoose]⟩⟩
  | cons c r ih =>
    unfold readValue at h
    split at h
    · rename_i hc
      subst hc
      simp only [Except.ok.injEq, Prod.mk.injEq] at h
      obtain ⟨rfl, rfl⟩ := h
      exact ⟨[], buf, rfl, by simp, hbuf, Or.inr ⟨r, rfl⟩, Or.inl ⟨rfl, by simp [AllLoose]⟩⟩
    · split at h
      · rename_i hv
        obtain ⟨y, post, h1, h2, h3, h4, h5⟩ := ih (by simp [AllLoose]) h
        refine ⟨c :: y, post, by simp [h1], by rw [← h2]; simp, h3, h4, Or.inr ?_⟩
        rcases h5 with ⟨rfl, hy⟩ | ⟨z, d, rfl, hd, hz⟩
        · exact ⟨[], c, by simp, hv, by simp⟩
        · refine ⟨c :: z, d, by simp, hd, ?_⟩
          intro e he
          simp only [List.mem_cons] at he
          rcases he with rfl | he
          · exact Or.inl hv
          · exact hz e he
      · split at h
        · rename_i hl
          have hb2 : AllLoose (buf ++ [c]) := by
            intro d hd
            simp only [List.mem_append, List.mem_singleton] at hd
            rcases hd with hd | rfl
            · exact hbuf d hd
            · exact hl
          obtain ⟨y, post, h1, h2, h3, h4, h5⟩ := ih hb2 h
          refine ⟨c :: y, post, by simp [h1], by rw [← h2]; simp, h3, h4, ?_⟩
          rcases h5 with ⟨rfl, hy⟩ | ⟨z, d, rfl, hd, hz⟩
          · left
            refine ⟨rfl, ?_⟩
            intro e he
            simp only [List.mem_cons] at he
            rcases he with rfl | he
            · exact hl
            · exact hy e he
          · right
            refine ⟨c :: z, d, by simp, hd, ?_⟩
            intro e he
            simp only [List.mem_cons] at he
            rcases he with rfl | he
            · exact Or.inr hl
            · exact hz e he
        · cases h

theorem readValue_loose {f t : Bytes} (hf : AllLoose f) (buf val : Bytes) :
    readValue buf val (f ++ t) = readValue (buf ++ f) val t := by
  induction f generalizing buf with
  | nil => simp
  | cons c f ih =>
    have hc : isLoose c = true := hf c (by simp)
    have h1 : c ≠ SEMI := by rintro rfl; exact absurd hc (by decide)
    have h2 := loose_not_val hc
    rw [List.cons_append, readValue]
    simp only [h1, if_false, h2, Bool.false_eq_true, hc, if_true]
    rw [ih (fun d hd => hf d (by simp [hd]))]
    simp

theorem readValue_text {x t : Bytes} (hx : ∀ c ∈ x, isValChar c = true ∨ isLoose c = true)
    (hne : x ≠ []) (hl : ∀ c ∈ x.getLast?, isValChar c = true) (buf val : Bytes) :
    readValue buf val (x ++ t) = readValue [] (val ++ buf ++ x) t := by
  induction x generalizing buf val with
  | nil => exact absurd rfl hne
  | cons c x ih =>
    have hx' : ∀ c ∈ x, isValChar c = true ∨ isLoose c = true := fun d hd => hx d (by simp [hd])
    by_cases hxe : x = []
    · subst hxe
      have hc : isValChar c = true := hl c (by simp)
      rw [List.cons_append, readValue]
      simp [hc, val_ne_semi hc]
    · have hl' : ∀ d ∈ x.getLast?, isValChar d = true := by
        intro d hd
        apply hl
        cases x with
        | nil => exact absurd rfl hxe
        | cons e x => rw [List.getLast?_cons_cons]; exact hd
      rw [List.cons_append, readValue]
      rcases hx c (by simp) with hc | hc
      · simp only [val_ne_semi hc, if_false, hc, if_true]
        rw [ih hx' hxe hl']
        simp
      · have h1 : c ≠ SEMI := by rintro rfl; exact absurd hc (by decide)
        simp only [h1, if_false, loose_not_val hc, Bool.false_eq_true, hc, if_true]
        rw [ih hx' hxe hl']
        simp

theorem readValue_end {rest : Bytes} (hr : rest = [] ∨ ∃ r, rest = SEMI :: r) (buf val : Bytes) :
    readValue buf val rest = .ok (val, rest) := by
  rcases hr with rfl | ⟨r, rfl⟩ <;> simp [readValue]

theorem readValue_value {v post rest : Bytes} (hv : IsTagValue v) (hp : AllLoose post)
    (hr : rest = [] ∨ ∃ r, rest = SEMI :: r) :
    readValue [] [] (v ++ (post ++ rest)) = .ok (v, rest) := by
  by_cases hne : v = []
  · subst hne
    rw [List.nil_append, readValue_loose hp, readValue_end hr]
  · rw [readValue_text (fun c hc => (hv.1 c hc).imp_left (isValChar_iff c).2) hne
      (fun c hc => (isValChar_iff c).2 (hv.2.2 c hc)), readValue_loose hp, readValue_end hr]
    simp

theorem tagValue_of {z : Bytes} {c : Byte} (hz : ∀ d ∈ z, isValChar d = true ∨ isLoose d = true)
    (hc : isValChar c = true) (hh : NotHead isLoose (z ++ [c])) : IsTagValue (z ++ [c]) := by
  refine ⟨?_, ?_, ?_⟩
  · intro d hd
    simp only [List.mem_append, List.mem_singleton] at hd
    rcases hd with hd | rfl
    · exact (hz d hd).imp_left (isValChar_iff d).1
    · exact Or.inl ((isValChar_iff _).1 hc)
  · intro d hd
    have h1 := hh d hd
    rw [← isValChar_iff]
    cases z with
    | nil =>
      have : d = c := by simpa using hd.symm
      rw [this]; exact hc
    | cons e z =>
      have : d = e := by simpa using hd.symm
      subst this
      rcases hz d (by simp) with h | h
      · exact h
      · rw [h1] at h; cases h
  · intro d hd
    have : d = c := by simpa using hd.symm
    rw [this, ← isValChar_iff]; exact hc

/-! ### the loop -/

theorem getTag_isSome_iff (m : TagList) (n : Bytes) : (m.getTag n).isSome = true ↔ n ∈ m.map Prod.fst := by
  unfold TagList.getTag
  induction m with
  | nil => simp
  | cons p m ih =>
    obtain ⟨k, v⟩ := p
    rw [List.lookup_cons]
    by_cases h : n = k
    · subst h; simp
    · have : (n == k) = false := by simpa using h
      rw [this]
      simp [ih, h]

theorem getTag_append (m es : TagList) (n : Bytes) :
    (m ++ es).getTag n = (m.getTag n).or (es.getTag n) := by
  unfold TagList.getTag
  rw [List.lookup_append]

theorem eq_not_loose : isLoose EQ = false := by decide
theorem eq_not_name : isNameChar EQ = false := by decide

theorem name_not_loose {c : Byte} (h : isNameChar c = true) : isLoose c = false := by
  cases h' : isLoose c with
  | false => rfl
  | true => rw [loose_not_name h'] at h; cases h

/-- One item read from the front. -/
theorem item_of_reads {total : Nat} {s s3 value s5 : Bytes}
    (hname : (readName (skipLoose s)).1 ≠ [])
    (h3 : skipLoose (readName (skipLoose s)).2 = EQ :: s3)
    (hv : readValue [] [] (skipLoose s3) = .ok (value, s5)) (hs : s.length ≤ total) :
    ∃ i : TagItem, i.WF ∧ i.name = (readName (skipLoose s)).1 ∧ i.value = value ∧
      s = i.text ++ s5 ∧ (s5 = [] ∨ ∃ r, s5 = SEMI :: r) ∧
      tellgAfterPeek total (skipLoose s3) =
        (if i.value ++ s5 = [] then -1 else ((total - s.length + i.lead.length : Nat) : Int)) := by
  obtain ⟨pre, e1, hp1, hp2⟩ := skipLoose_split s
  have e2 := nameLoop_append (skipLoose s)
  rw [readName_eq] at hname h3 ⊢
  have hn1 := nameLoop_all (skipLoose s)
  generalize (nameLoop (skipLoose s)).1 = name at *
  generalize (nameLoop (skipLoose s)).2 = s2 at *
  obtain ⟨gap1, e3, hg1, _⟩ := skipLoose_split s2
  rw [h3] at e3
  obtain ⟨gap2, e4, hg2, hh⟩ := skipLoose_split s3
  generalize skipLoose s3 = s4 at *
  obtain ⟨y, post, e5, e6, hpost, hrest, hval⟩ := readValue_ok (by simp [AllLoose]) hv
  simp only [List.nil_append] at e6
  have etxt : s4 = value ++ post ++ s5 := by rw [e5, e6]
  have hvalue : IsTagValue value := by
    rcases hval with ⟨rfl, _⟩ | ⟨z, c, e7, hc, hz⟩
    · simp [IsTagValue]
    · simp only [List.nil_append] at e7
      subst e7
      apply tagValue_of hz hc
      intro d hd
      apply hh
      rw [etxt]
      simp only [List.head?_append, Option.mem_def] at hd ⊢
      rw [hd]
      rfl
  have hvp : value = [] → post = [] := by
    rintro rfl
    cases post with
    | nil => rfl
    | cons c post =>
      have h1 := hpost c (by simp)
      have h2 := hh c (by simp [etxt])
      rw [Spec.isLoose_eq] at h1
      rw [h1] at h2; cases h2
  refine ⟨⟨pre, name, gap1, gap2, value, post⟩, ?_, rfl, rfl, ?_, hrest, ?_⟩
  · exact ⟨hp1, ⟨hname, fun c hc => (isNameChar_iff c).1 (hn1 c hc)⟩, hg1, hg2, hvalue, hpost, hvp⟩
  · conv => lhs; rw [e1, ← e2, e3, e4, etxt]
    simp [TagItem.text, TagItem.lead]
  · have hlen : s.length = pre.length + name.length + gap1.length + 1 + gap2.length + s4.length := by
      have h1 := congrArg List.length e1
      have h2 := congrArg List.length e2
      have h3 := congrArg List.length e3
      have h4 := congrArg List.length e4
      simp at h1 h2 h3 h4
      omega
    unfold tellgAfterPeek
    simp only [TagItem.lead]
    rw [etxt]
    by_cases he : value ++ s5 = []
    · simp only [List.append_eq_nil_iff] at he
      simp [he.1, he.2, hvp he.1]
    · have : (value ++ post ++ s5).isEmpty = false := by
        cases h : (value ++ post ++ s5) with
        | nil => simp at h; simp [h] at he
        | cons => rfl
      rw [this, if_neg he, ← etxt]
      simp only [Bool.false_eq_true, if_false, List.length_append, List.length_cons, List.length_nil]
      omega

theorem tagLoop_ok {total n : Nat} {s : Bytes} {m m' : TagList} (hs : s.length ≤ total)
    (h : tagLoop total n s m = .ok () m') :
    ∃ es, TagText (total - s.length) s es ∧ m' = m ++ es ∧ (es.map Prod.fst).Nodup ∧
      (∀ k ∈ es.map Prod.fst, k ∉ m.map Prod.fst) := by
  induction n generalizing s m with
  | zero => simp [tagLoop, throw, throwThe, MonadExceptOf.throw, EStateM.throw] at h
  | succ n ih =>
    rw [tagLoop_eq] at h
    split at h
    · rename_i he
      injection h with _ h
      subst h
      obtain ⟨f, h1, h2, _⟩ := skipLoose_split s
      have : skipLoose s = [] := by simpa using he
      rw [this, List.append_nil] at h1
      subst h1
      exact ⟨[], .done _ _ h2, by simp, by simp, by simp⟩
    · simp only [] at h
      split at h
      · cases h
      · rename_i hname
        split at h
        · cases h
        · rename_i hdup
          split at h
          · cases h
          · rename_i c s3 h3
            split at h
            · cases h
            · rename_i hc
              have hc : c = EQ := by simpa using hc
              subst hc
              split at h
              · cases h
              · rename_i value s5 hv
                obtain ⟨i, hwf, hn, hval, e1, hrest, hoff⟩ := item_of_reads (total := total)
                  (by simpa using hname) h3 hv hs
                have hnew : i.name ∉ m.map Prod.fst := by
                  rw [hn, ← getTag_isSome_iff]; exact hdup
                split at h
                · injection h with _ h
                  subst h
                  refine ⟨[(i.name, { value := i.value, offset := tellgAfterPeek total (skipLoose s3) })],
                    ?_, by rw [hn, hval], by simp, by simpa using hnew⟩
                  rw [hoff, e1]
                  simp only [List.append_nil]
                  exact .last _ i hwf
                · rename_i d s6
                  have hd : d = SEMI := by
                    rcases hrest with h' | ⟨_, h'⟩
                    · cases h'
                    · injection h'
                  subst hd
                  have hlen : s.length = i.text.length + 1 + s6.length := by
                    have := congrArg List.length e1; simp at this; omega
                  obtain ⟨es, h4, h5, h6, h7⟩ := ih (by omega) h
                  have hlt : i.lead.length ≤ i.text.length := by simp [TagItem.text]
                  have hne : i.value ++ SEMI :: s6 ≠ [] := by simp
                  rw [if_neg hne] at hoff
                  refine ⟨(i.name, { value := i.value, offset := tellgAfterPeek total (skipLoose s3) }) :: es,
                    ?_, by rw [h5, hn, hval]; simp, ?_, ?_⟩
                  · rw [hoff]
                    have := TagText.cons (total - s.length) i s6 es hwf (by
                      rwa [show total - s.length + i.text.length + 1 = total - s6.length by omega])
                    rw [← e1] at this
                    exact this
                  · simp only [List.map_cons, List.nodup_cons]
                    refine ⟨?_, h6⟩
                    intro hmem
                    apply h7 _ hmem
                    simp [hn]
                  · intro k hk
                    simp only [List.map_cons, List.mem_cons] at hk
                    rcases hk with rfl | hk
                    · exact hnew
                    · intro hk2
                      apply h7 k hk
                      simp only [List.map_append, List.mem_append]
                      exact Or.inl hk2

/-- Reading a well-formed item back. -/
theorem reads_of_item (i : TagItem) (hwf : i.WF) (s5 : Bytes) (hr : s5 = [] ∨ ∃ r, s5 = SEMI :: r) :
    skipLoose (i.text ++ s5) = i.name ++ (i.gap1 ++ EQ :: (i.gap2 ++ (i.value ++ (i.post ++ s5)))) ∧
    readName (i.name ++ (i.gap1 ++ EQ :: (i.gap2 ++ (i.value ++ (i.post ++ s5))))) =
      (i.name, i.gap1 ++ EQ :: (i.gap2 ++ (i.value ++ (i.post ++ s5)))) ∧
    skipLoose (i.gap1 ++ EQ :: (i.gap2 ++ (i.value ++ (i.post ++ s5)))) =
      EQ :: (i.gap2 ++ (i.value ++ (i.post ++ s5))) ∧
    ∃ s4, skipLoose (i.gap2 ++ (i.value ++ (i.post ++ s5))) = s4 ∧
      readValue [] [] s4 = .ok (i.value, s5) ∧
      (i.value ≠ [] → s4 = i.value ++ (i.post ++ s5)) ∧
      (i.value = [] → s4 = s5) := by
  obtain ⟨h1, ⟨h2, h2'⟩, h3, h4, h5, h6, _⟩ := hwf
  have hnm : ∀ c ∈ i.name, isNameChar c = true := fun c hc => (isNameChar_iff c).2 (h2' c hc)
  refine ⟨?_, ?_, ?_, ?_⟩
  · have : i.text ++ s5 = i.pre ++ (i.name ++ (i.gap1 ++ EQ :: (i.gap2 ++ (i.value ++ (i.post ++ s5))))) := by
      simp [TagItem.text, TagItem.lead]
    rw [this]
    apply skipLoose_of h1
    cases hn : i.name with
    | nil => exact absurd hn h2
    | cons c r =>
      have := name_not_loose (hnm c (by simp [hn]))
      simpa [NotHead] using this
  · rw [readName_eq]
    apply nameLoop_of hnm
    cases hg : i.gap1 with
    | nil => simp [NotHead, eq_not_name]
    | cons c r =>
      have := loose_not_name (h3 c (by simp [hg]))
      simpa [NotHead] using this
  · exact skipLoose_of h3 (by simp [NotHead, eq_not_loose])
  · have hs5 : NotHead isLoose s5 := by
      rcases hr with rfl | ⟨r, rfl⟩
      · simp [NotHead]
      · simp [NotHead]; decide
    by_cases hv : i.value = []
    · refine ⟨s5, ?_, ?_, by simp [hv], by simp⟩
      · rw [hv, List.nil_append, ← List.append_assoc]
        apply skipLoose_of _ hs5
        intro c hc
        simp only [List.mem_append] at hc
        exact hc.elim (h4 c) (h6 c)
      · rw [hv, readValue_end hr]
    · refine ⟨i.value ++ (i.post ++ s5), ?_, readValue_value h5 h6 hr, by simp, by simp [hv]⟩
      apply skipLoose_of h4
      cases hvv : i.value with
      | nil => exact absurd hvv hv
      | cons c r =>
        have := val_not_loose ((isValChar_iff c).2 (h5.2.1 c (by simp [hvv])))
        simpa [NotHead] using this

theorem tagLoop_last (pos : Nat) (i : TagItem) (hwf : i.WF) (n total : Nat)
    (ht : total = pos + i.text.length) (m : TagList) :
    tagLoop total (n + 1) i.text m =
      if i.name ∈ m.map Prod.fst then .error (.p (.duplicateTag i.name)) m
      else .ok () (m ++ [(i.name, ⟨i.value, if i.value = [] then -1 else ((pos + i.lead.length : Nat) : Int)⟩)]) := by
  obtain ⟨h1, h2, h3, s4, h4, h5, h6, h7⟩ := reads_of_item i hwf [] (Or.inl rfl)
  simp only [List.append_nil] at h1 h2 h3 h4 h5 h6 h7
  have hne : i.name ≠ [] := hwf.2.1.1
  have hnee : i.name.isEmpty = false := by cases h : i.name <;> simp_all
  have hse : (skipLoose i.text).isEmpty = false := by
    rw [h1]; cases h : i.name <;> simp_all
  have hoff : tellgAfterPeek total s4 =
      (if i.value = [] then -1 else ((pos + i.lead.length : Nat) : Int)) := by
    unfold tellgAfterPeek
    by_cases hv : i.value = []
    · simp [h7 hv, hv]
    · have hee : (i.value ++ i.post).isEmpty = false := by cases h : i.value <;> simp_all
      rw [h6 hv, hee, if_neg hv, ht]
      simp only [TagItem.text, Bool.false_eq_true, if_false, List.length_append]
      omega
  rw [tagLoop_eq]
  simp only [hse, Bool.false_eq_true, if_false]
  rw [h1]
  simp only [h2, hnee, getTag_isSome_iff, Bool.false_eq_true, if_false, h3, h4, h5, ne_eq,
    not_true_eq_false, hoff]

theorem tagLoop_cons (pos : Nat) (i : TagItem) (hwf : i.WF) (s : Bytes) (n total : Nat)
    (ht : total = pos + (i.text ++ SEMI :: s).length) (m : TagList) :
    tagLoop total (n + 1) (i.text ++ SEMI :: s) m =
      if i.name ∈ m.map Prod.fst then .error (.p (.duplicateTag i.name)) m
      else tagLoop total n s (m ++ [(i.name, ⟨i.value, ((pos + i.lead.length : Nat) : Int)⟩)]) := by
  obtain ⟨h1, h2, h3, s4, h4, h5, h6, h7⟩ := reads_of_item i hwf (SEMI :: s) (Or.inr ⟨s, rfl⟩)
  have hne : i.name ≠ [] := hwf.2.1.1
  have hnee : i.name.isEmpty = false := by cases h : i.name <;> simp_all
  have hse : (skipLoose (i.text ++ SEMI :: s)).isEmpty = false := by
    rw [h1]; cases h : i.name <;> simp_all
  have hoff : tellgAfterPeek total s4 = ((pos + i.lead.length : Nat) : Int) := by
    unfold tellgAfterPeek
    by_cases hv : i.value = []
    · have hp := hwf.2.2.2.2.2.2 hv
      rw [h7 hv, ht]
      simp only [TagItem.text, hv, hp, List.isEmpty_cons, Bool.false_eq_true, if_false, List.length_append,
        List.length_cons, List.length_nil]
      omega
    · have hee : (i.value ++ (i.post ++ SEMI :: s)).isEmpty = false := by
        cases h : i.value <;> simp_all
      rw [h6 hv, hee, ht]
      simp only [TagItem.text, Bool.false_eq_true, if_false, List.length_append]
      omega
  rw [tagLoop_eq]
  simp only [hse, Bool.false_eq_true, if_false]
  rw [h1]
  simp only [h2, hnee, getTag_isSome_iff, Bool.false_eq_true, if_false, h3, h4, h5, ne_eq,
    not_true_eq_false, hoff]

/-- The text is in the grammar: the outcome depends only on whether names repeat. -/
theorem tagLoop_text {pos : Nat} {s : Bytes} {es : List (Bytes × TagEntry)} (h : TagText pos s es)
    (n : Nat) (hn : s.length < n) (total : Nat) (ht : total = pos + s.length) (m : TagList) :
    ((es.map Prod.fst).Nodup ∧ (∀ k ∈ es.map Prod.fst, k ∉ m.map Prod.fst) ∧
      tagLoop total n s m = .ok () (m ++ es)) ∨
    (¬ ((es.map Prod.fst).Nodup ∧ (∀ k ∈ es.map Prod.fst, k ∉ m.map Prod.fst)) ∧
      ∃ k m', tagLoop total n s m = .error (.p (.duplicateTag k)) m') := by
  induction h generalizing n m with
  | done pos s hs =>
    cases n with
    | zero => omega
    | succ n => left; rw [tagLoop_eq, skipLoose_all hs]; simp
  | last pos i hwf =>
    cases n with
    | zero => omega
    | succ n =>
      rw [tagLoop_last pos i hwf n total ht m]
      by_cases hm : i.name ∈ m.map Prod.fst
      · right
        rw [if_pos hm]
        refine ⟨?_, _, m, rfl⟩
        rintro ⟨_, h⟩
        exact h i.name (by simp) hm
      · left
        rw [if_neg hm]
        exact ⟨by simp, by simpa using hm, rfl⟩
  | cons pos i s es hwf htt ih =>
    cases n with
    | zero => omega
    | succ n =>
      rw [tagLoop_cons pos i hwf s n total ht m]
      by_cases hm : i.name ∈ m.map Prod.fst
      · right
        rw [if_pos hm]
        refine ⟨?_, _, m, rfl⟩
        rintro ⟨_, h⟩
        exact h i.name (by simp) hm
      · rw [if_neg hm]
        have hiff : (((i.name, ({ value := i.value, offset := ((pos + i.lead.length : Nat) : Int) } : TagEntry)) :: es).map Prod.fst).Nodup ∧
            (∀ k ∈ ((i.name, ({ value := i.value, offset := ((pos + i.lead.length : Nat) : Int) } : TagEntry)) :: es).map Prod.fst, k ∉ m.map Prod.fst) ↔
            (es.map Prod.fst).Nodup ∧ (∀ k ∈ es.map Prod.fst, k ∉ (m ++ [(i.name, ({ value := i.value, offset := ((pos + i.lead.length : Nat) : Int) } : TagEntry))]).map Prod.fst) := by
          simp only [List.map_cons, List.nodup_cons, List.map_append, List.map_nil, List.mem_append,
            List.mem_cons, List.not_mem_nil, or_false]
          constructor
          · rintro ⟨⟨h1, h2⟩, h3⟩
            refine ⟨h2, fun k hk hk2 => ?_⟩
            rcases hk2 with hk2 | rfl
            · exact h3 k (Or.inr hk) hk2
            · exact h1 hk
          · rintro ⟨h2, h3⟩
            refine ⟨⟨fun hk => h3 _ hk (Or.inr rfl), h2⟩, fun k hk hk2 => ?_⟩
            rcases hk with rfl | hk
            · exact hm hk2
            · exact h3 k hk (Or.inl hk2)
        rcases ih n (by simp at hn; omega) (by simp at ht; omega)
          (m ++ [(i.name, { value := i.value, offset := ((pos + i.lead.length : Nat) : Int) })]) with
          ⟨h1, h2, h3⟩ | ⟨h1, h2⟩
        · left
          have := hiff.2 ⟨h1, h2⟩
          exact ⟨this.1, this.2, by rw [h3]; simp⟩
        · right
          exact ⟨fun h => h1 (hiff.1 h), h2⟩

theorem tagLoop_of {pos : Nat} {s : Bytes} {es : List (Bytes × TagEntry)} (h : TagText pos s es)
    (n : Nat) (hn : s.length < n) (total : Nat) (ht : total = pos + s.length) (m : TagList)
    (hnd : (es.map Prod.fst).Nodup) (hdis : ∀ k ∈ es.map Prod.fst, k ∉ m.map Prod.fst) :
    tagLoop total n s m = .ok () (m ++ es) := by
  rcases tagLoop_text h n hn total ht m with ⟨_, _, h⟩ | ⟨h, _⟩
  · exact h
  · exact absurd ⟨hnd, hdis⟩ h

theorem readValue_error {buf val s : Bytes} {e : Err} (h : readValue buf val s = .error e) :
    e = .p .badTagValue := by
  induction s generalizing buf val with
  | nil => simp [readValue] at h
  | cons c r ih =>
    unfold readValue at h
    split at h
    · cases h
    · split at h
      · exact ih h
      · split at h
        · exact ih h
        · injection h with h; exact h.symm

theorem readValue_length {buf val s v rest : Bytes} (h : readValue buf val s = .ok (v, rest)) :
    rest.length ≤ s.length := by
  induction s generalizing buf val with
  | nil =>
    simp only [readValue, Except.ok.injEq, Prod.mk.injEq] at h
    simp [← h.2]
  | cons c r ih =>
    unfold readValue at h
    split at h
    · simp only [Except.ok.injEq, Prod.mk.injEq] at h
      simp [← h.2]
    · split at h
      · have := ih h; simp; omega
      · split at h
        · have := ih h; simp; omega
        · cases h

theorem skipLoose_length (s : Bytes) : (skipLoose s).length ≤ s.length := by
  obtain ⟨f, h, _⟩ := skipLoose_split s
  have := congrArg List.length h
  simp at this; omega

/-- Failing parses keep what was stored, add only fresh names, and fail with a permanent error. -/
theorem tagLoop_error {total n : Nat} {s : Bytes} {m m' : TagList} {e : Err} (hn : s.length < n)
    (h : tagLoop total n s m = .error e m') :
    (e = .p .emptyTagName ∨ (∃ k, e = .p (.duplicateTag k)) ∨ e = .p .expectedEq ∨ e = .p .badTagValue) ∧
    ∃ es, m' = m ++ es ∧ (es.map Prod.fst).Nodup ∧ (∀ k ∈ es.map Prod.fst, k ∉ m.map Prod.fst) := by
  induction n generalizing s m with
  | zero => omega
  | succ n ih =>
    rw [tagLoop_eq] at h
    split at h
    · cases h
    · simp only [] at h
      split at h
      · injection h with h1 h2; exact ⟨Or.inl h1.symm, [], by simp [h2], by simp, by simp⟩
      · rename_i hname
        split at h
        · injection h with h1 h2; exact ⟨Or.inr (Or.inl ⟨_, h1.symm⟩), [], by simp [h2], by simp, by simp⟩
        · rename_i hdup
          split at h
          · injection h with h1 h2
            exact ⟨Or.inr (Or.inr (Or.inl h1.symm)), [], by simp [h2], by simp, by simp⟩
          · rename_i c s3 h3
            split at h
            · injection h with h1 h2
              exact ⟨Or.inr (Or.inr (Or.inl h1.symm)), [], by simp [h2], by simp, by simp⟩
            · split at h
              · rename_i e' he
                injection h with h1 h2
                rw [← h1]
                exact ⟨Or.inr (Or.inr (Or.inr (readValue_error he))), [], by simp [h2], by simp, by simp⟩
              · rename_i value s5 hv
                split at h
                · cases h
                · rename_i d s6
                  have l1 := skipLoose_length s
                  have l2 := congrArg List.length (nameLoop_append (skipLoose s))
                  rw [← readName_eq] at l2
                  have l3 := skipLoose_length (readName (skipLoose s)).2
                  have l4 := skipLoose_length s3
                  have l5 := readValue_length hv
                  rw [h3] at l3
                  simp at l2 l3 l5
                  obtain ⟨h4, es, h5, h6, h7⟩ := ih (by omega) h
                  refine ⟨h4, (_, { value := value, offset := tellgAfterPeek total (skipLoose s3) }) :: es,
                    by rw [h5]; simp; rfl, ?_, ?_⟩
                  · simp only [List.map_cons, List.nodup_cons]
                    refine ⟨?_, h6⟩
                    intro hmem
                    apply h7 _ hmem
                    simp
                  · intro k hk
                    simp only [List.map_cons, List.mem_cons] at hk
                    rcases hk with rfl | hk
                    · rw [← getTag_isSome_iff]; exact hdup
                    · intro hk2
                      apply h7 k hk
                      simp only [List.map_append, List.mem_append]
                      exact Or.inl hk2

end Dkim

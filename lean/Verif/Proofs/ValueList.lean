import Verif.Proofs.Tokenizer
/-! Lemmas about `ValueList`. -/

namespace Dkim
open Spec

theorem Spec.FwsRun.loose {f : Bytes} (hf : FwsRun f) : ∀ c ∈ f, isLoose c = true := by
  induction hf with
  | nil => simp
  | wsp w r hw _ ih =>
    intro c hc
    simp only [List.mem_cons] at hc
    rcases hc with rfl | hc
    · simp only [isWSP, Bool.or_eq_true] at hw
      rcases hw with hw | hw <;> simp [isLoose, hw]
    · exact ih c hc
  | fold w r hw _ ih =>
    intro c hc
    simp only [List.mem_cons] at hc
    rcases hc with rfl | rfl | rfl | hc
    · decide
    · decide
    · simp only [isWSP, Bool.or_eq_true] at hw
      rcases hw with hw | hw <;> simp [isLoose, hw]
    · exact ih c hc

theorem Spec.FwsRun.no_colon {f : Bytes} (hf : FwsRun f) : COLON ∉ f := by
  intro h
  exact absurd (hf.loose _ h) (by decide)

theorem valueLoop_no_hang (n : Nat) (buf val s : Bytes) (h : s.length < n) :
    valueLoop n buf val s ≠ .error .hang := by
  induction n generalizing buf val s with
  | zero => omega
  | succ n ih =>
    unfold valueLoop
    split
    · rename_i e he
      rw [(readFWS_error he).1]; simp
    · rename_i ws r hw
      have hl := readFWS_length hw
      split
      · split
        · simp
        · split
          · simp
          · apply ih; simp at hl; omega
      · rename_i hne
        have : 0 < ws.length := by cases ws <;> simp_all
        apply ih; omega

theorem valueLoop_ok {n : Nat} {buf val s v rest : Bytes} (hbuf : FwsRun buf)
    (h : valueLoop n buf val s = .ok (v, rest)) :
    ∃ post, val ++ buf ++ s = v ++ post ++ rest ∧ FwsRun post ∧
      (rest = [] ∨ ∃ r, rest = COLON :: r) ∧ (COLON ∉ val → COLON ∉ v) := by
  induction n generalizing buf val s with
  | zero => simp [valueLoop] at h
  | succ n ih =>
    unfold valueLoop at h
    split at h
    · cases h
    · rename_i ws r hw
      obtain ⟨rfl, hfw⟩ := readFWS_ok hw
      split at h
      · rename_i he
        have : ws = [] := by simpa using he
        subst this
        split at h
        · injection h with h; injection h with h1 h2
          subst h1 h2
          exact ⟨buf, by simp, hbuf, Or.inl rfl, id⟩
        · rename_i c r'
          split at h
          · rename_i hc
            subst hc
            injection h with h; injection h with h1 h2
            subst h1 h2
            exact ⟨buf, by simp, hbuf, Or.inr ⟨r', rfl⟩, id⟩
          · rename_i hc
            obtain ⟨post, h1, h2, h3, h4⟩ := ih .nil h
            refine ⟨post, by rw [← h1]; simp, h2, h3, ?_⟩
            intro hv
            apply h4
            simp [hv, hbuf.no_colon, Ne.symm hc]
      · obtain ⟨post, h1, h2, h3, h4⟩ := ih (hbuf.append (.of_isFWS hfw)) h
        exact ⟨post, by rw [← h1]; simp, h2, h3, h4⟩

theorem valueLoop_run {f t : Bytes} (hf : FwsRun f) (ht : Stop t) (buf val : Bytes) (n : Nat)
    (hn : (f ++ t).length < n) :
    ∃ m, t.length < m ∧ valueLoop n buf val (f ++ t) = valueLoop m (buf ++ f) val t := by
  induction n generalizing f buf with
  | zero => omega
  | succ n ih =>
    by_cases hne : f = []
    · subst hne
      exact ⟨n + 1, by simpa using hn, by simp⟩
    · obtain ⟨f1, f2, rfl, h1, h2, h3⟩ := readFWS_run hf hne ht
      have hl : 0 < f1.length := by cases f1 <;> simp_all
      obtain ⟨m, hm, he⟩ := ih h2 (buf ++ f1) (by simp at hn ⊢; omega)
      refine ⟨m, hm, ?_⟩
      rw [valueLoop, h3]
      have : f1.isEmpty = false := by cases f1 <;> simp_all
      simp only [this, Bool.false_eq_true, if_false]
      rw [he]; simp

theorem not_loose_stop {c : Byte} (h : isLoose c = false) (r : Bytes) : Stop (c :: r) := by
  intro d hd
  have : d = c := by simpa using hd.symm
  subst this
  simp only [isLoose, Bool.or_eq_false_iff] at h
  simp only [Spec.isWSP, Bool.or_eq_false_iff]
  exact ⟨⟨h.1.1.1, h.1.1.2⟩, h.1.2⟩

theorem valueLoop_char {c : Byte} (hc : isLoose c = false) (hcol : c ≠ COLON) (r buf val : Bytes)
    (n : Nat) : valueLoop (n + 1) buf val (c :: r) = valueLoop n [] (val ++ buf ++ [c]) r := by
  have h := readFWS_plain (a := []) (r := c :: r) (by simp [AllWSP]) (not_loose_stop hc r)
  simp only [List.nil_append] at h
  rw [valueLoop, h]
  simp [hcol]

theorem valueLoop_end (rest : Bytes) (hr : rest = [] ∨ ∃ r, rest = COLON :: r) (buf val : Bytes)
    (n : Nat) : valueLoop (n + 1) buf val rest = .ok (val, rest) := by
  have hs : Stop rest := by
    rcases hr with rfl | ⟨r, rfl⟩
    · simp [Stop, NotHead]
    · exact not_loose_stop (by decide) r
  have h := readFWS_plain (a := []) (r := rest) (by simp [AllWSP]) hs
  simp only [List.nil_append] at h
  rw [valueLoop, h]
  rcases hr with rfl | ⟨r, rfl⟩ <;> simp

theorem Spec.Clean.head {v : Bytes} (h : Clean v) : ∃ c r, v = c :: r ∧ isLoose c = false ∧ c ≠ COLON := by
  cases h with
  | one c h1 h2 => exact ⟨c, [], rfl, h1, h2⟩
  | cons c r h1 h2 => exact ⟨c, r, rfl, h1, h2⟩
  | gap c f r h1 h2 => exact ⟨c, _, rfl, h1, h2⟩

theorem Spec.Clean.stop {v : Bytes} (h : Clean v) (t : Bytes) : Stop (v ++ t) := by
  obtain ⟨c, r, rfl, h1, _⟩ := h.head
  exact not_loose_stop h1 _

theorem rest_stop {rest : Bytes} (hr : rest = [] ∨ ∃ r, rest = COLON :: r) : Stop rest := by
  rcases hr with rfl | ⟨r, rfl⟩
  · simp [Stop, NotHead]
  · exact not_loose_stop (by decide) r

theorem valueLoop_clean {v : Bytes} (hv : Clean v) (post rest : Bytes) (hp : FwsRun post)
    (hr : rest = [] ∨ ∃ r, rest = COLON :: r) (buf val : Bytes) (n : Nat)
    (hn : (v ++ (post ++ rest)).length < n) :
    valueLoop n buf val (v ++ (post ++ rest)) = .ok (val ++ buf ++ v, rest) := by
  induction hv generalizing buf val n with
  | one c h1 h2 =>
    cases n with
    | zero => omega
    | succ n =>
      simp only [List.cons_append, List.nil_append]
      rw [valueLoop_char h1 h2]
      obtain ⟨m, hm, he⟩ := valueLoop_run hp (rest_stop hr) [] (val ++ buf ++ [c]) n (by simp at hn ⊢; omega)
      rw [he]
      cases m with
      | zero => omega
      | succ m => rw [valueLoop_end rest hr]
  | cons c r h1 h2 h3 ih =>
    cases n with
    | zero => omega
    | succ n =>
      simp only [List.cons_append]
      rw [valueLoop_char h1 h2, ih _ _ n (by simp at hn ⊢; omega)]
      simp
  | gap c f r h1 h2 h3 h4 ih =>
    cases n with
    | zero => omega
    | succ n =>
      simp only [List.cons_append, List.append_assoc]
      rw [valueLoop_char h1 h2]
      obtain ⟨m, hm, he⟩ := valueLoop_run h3 (h4.stop (post ++ rest)) [] (val ++ buf ++ [c]) n
        (by simp at hn ⊢; omega)
      rw [he, ih _ _ m hm]
      simp

theorem valueListLoop_no_hang (n : Nat) (s : Bytes) (h : s.length < n) :
    valueListLoop n s ≠ .error .hang := by
  induction n generalizing s with
  | zero => omega
  | succ n ih =>
    unfold valueListLoop
    have h1 := skipFWS_no_hang (s.length + 1) s (by omega)
    split
    · rename_i e he; rw [he] at h1; simpa using h1
    · simp
    · rename_i b c r hs
      obtain ⟨f, hf, _, _⟩ := skipFWS_ok hs
      have h2 := valueLoop_no_hang ((c :: r).length + 1) [] [] (c :: r) (by omega)
      split
      · rename_i e he; rw [he] at h2; simpa using h2
      · rename_i val rest hv
        split
        · simp
        · split
          · simp
          · rename_i d rest'
            obtain ⟨post, h3, _, _, _⟩ := valueLoop_ok .nil hv
            have hl : rest'.length < n := by
              have := congrArg List.length h3
              have := congrArg List.length hf
              simp at *
              omega
            have h4 := ih rest' hl
            split
            · rename_i e he; rw [he] at h4; simpa using h4
            · simp

theorem valueListLoop_items (items : List Item)
    (hi : ∀ i ∈ items, FwsRun i.pre ∧ Clean i.val ∧ FwsRun i.post) (n : Nat)
    (hn : (joinColon (items.map Item.text)).length < n) :
    valueListLoop n (joinColon (items.map Item.text)) = .ok (items.map Item.val) := by
  induction items generalizing n with
  | nil =>
    cases n with
    | zero => omega
    | succ n =>
      have := skipFWS_run (f := []) (t := []) .nil (by simp [Stop, NotHead]) 1 (by simp)
      simp only [List.append_nil] at this
      simp [valueListLoop, joinColon, this]
  | cons i items ih =>
    cases n with
    | zero => omega
    | succ n =>
      obtain ⟨h1, h2, h3⟩ := hi i (by simp)
      have hi' : ∀ i ∈ items, FwsRun i.pre ∧ Clean i.val ∧ FwsRun i.post :=
        fun j hj => hi j (by simp [hj])
      -- the text after the value
      obtain ⟨rest, hrest, hr⟩ : ∃ rest, joinColon ((i :: items).map Item.text) = i.pre ++ (i.val ++ (i.post ++ rest)) ∧
          ((items = [] ∧ rest = []) ∨ (items ≠ [] ∧ rest = COLON :: joinColon (items.map Item.text))) := by
        cases items with
        | nil => exact ⟨[], by simp [joinColon, Item.text], Or.inl ⟨rfl, rfl⟩⟩
        | cons j js =>
          exact ⟨COLON :: joinColon ((j :: js).map Item.text), by
            simp [joinColon, Item.text], Or.inr ⟨by simp, rfl⟩⟩
      have hr2 : rest = [] ∨ ∃ r, rest = COLON :: r := by
        rcases hr with ⟨_, h⟩ | ⟨_, h⟩
        · exact Or.inl h
        · exact Or.inr ⟨_, h⟩
      rw [hrest] at hn ⊢
      unfold valueListLoop
      rw [skipFWS_run h1 (h2.stop _) _ (by simp; omega)]
      have hv := valueLoop_clean h2 i.post rest h3 hr2 [] []
        ((i.val ++ (i.post ++ rest)).length + 1) (by omega)
      obtain ⟨c, r, hc, _, _⟩ := h2.head
      have hcons : i.val ++ (i.post ++ rest) = c :: (r ++ (i.post ++ rest)) := by rw [hc]; rfl
      rw [hcons] at hv
      rw [hcons]
      simp only [hv, List.nil_append]
      have hne : i.val.isEmpty = false := by rw [hc]; rfl
      simp only [hne, Bool.false_eq_true, if_false]
      rcases hr with ⟨rfl, rfl⟩ | ⟨hne', rfl⟩
      · simp
      · simp only []
        rw [ih hi' n (by simp at hn; omega)]
        simp

theorem joinColon_cons_ne (x : Bytes) {l : List Bytes} (h : l ≠ []) :
    joinColon (x :: l) = x ++ COLON :: joinColon l := by
  cases l with
  | nil => exact absurd rfl h
  | cons y l => rfl

theorem valueListLoop_ok {n : Nat} {s : Bytes} {vs : List Bytes} (h : valueListLoop n s = .ok vs) :
    ∃ (items : List Item) (tail : Bytes), s = joinColon (items.map Item.text) ++ tail ∧
      vs = items.map Item.val ∧
      (∀ i ∈ items, FwsRun i.pre ∧ i.val ≠ [] ∧ COLON ∉ i.val ∧ FwsRun i.post) ∧
      (if items = [] then FwsRun tail else tail = [] ∨ ∃ f, FwsRun f ∧ tail = COLON :: f) := by
  induction n generalizing s vs with
  | zero => simp [valueListLoop] at h
  | succ n ih =>
    unfold valueListLoop at h
    split at h
    · cases h
    · rename_i b hs
      obtain ⟨f, hf, hf2, _⟩ := skipFWS_ok hs
      injection h with h
      subst h
      simp only [List.append_nil] at hf
      subst hf
      exact ⟨[], s, by simp [joinColon], rfl, by simp, by simpa using hf2⟩
    · rename_i b c r hs
      obtain ⟨f, rfl, hf2, _⟩ := skipFWS_ok hs
      split at h
      · cases h
      · rename_i val rest hv
        obtain ⟨post, h3, h4, h5, h6⟩ := valueLoop_ok .nil hv
        split at h
        · cases h
        · rename_i hne
          have hne : val ≠ [] := by simpa using hne
          split at h
          · injection h with h
            subst h
            refine ⟨[⟨f, val, post⟩], [], ?_, rfl, ?_, by simp⟩
            · simp only [List.nil_append, List.append_nil] at h3
              simp [joinColon, Item.text, h3]
            · simp [hf2, hne, h4, h6]
          · rename_i d rest'
            split at h
            · cases h
            · rename_i vs' hvs
              injection h with h
              subst h
              obtain ⟨items, tail, h7, h8, h9, h10⟩ := ih hvs
              have hd : d = COLON := by
                rcases h5 with h5 | ⟨_, h5⟩
                · cases h5
                · injection h5
              subst hd
              by_cases hit : items = []
              · subst hit
                simp only [if_true] at h10
                refine ⟨[⟨f, val, post⟩], COLON :: tail, ?_, by simp [h8], by simp [hf2, hne, h4, h6], ?_⟩
                · simp only [List.nil_append] at h3
                  simp [joinColon, Item.text, h3, h7]
                · simp [h10]
              · simp only [hit, if_false] at h10
                refine ⟨⟨f, val, post⟩ :: items, tail, ?_, by simp [h8], ?_, by simpa using h10⟩
                · simp only [List.nil_append] at h3
                  rw [h3, List.map_cons, joinColon_cons_ne _ (by simpa using hit)]
                  simp [Item.text, h7]
                · intro i hi
                  simp only [List.mem_cons] at hi
                  rcases hi with rfl | hi
                  · exact ⟨hf2, hne, h6 (by simp), h4⟩
                  · exact h9 i hi

end Dkim

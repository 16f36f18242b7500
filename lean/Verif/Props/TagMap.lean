import Verif.Props.TagList
import Verif.Spec.TagMap
/-!
# Property C97: iterating over a tag list

`TagMap.history ops` is what `cbegin()` to `cend()` visits on an object after the calls `ops`.
-/

namespace Dkim
open Spec

theorem nameLess_iff (a b : Bytes) : nameLess a b = true ↔ NameBefore a b := by
  induction a generalizing b with
  | nil =>
    cases b with
    | nil =>
      simp only [nameLess, Bool.false_eq_true, false_iff]
      rintro (⟨c, t, h⟩ | ⟨p, x, y, s, t, h, _⟩) <;> simp at h
    | cons c t => simp only [nameLess, true_iff]; exact Or.inl ⟨c, t, rfl⟩
  | cons x a ih =>
    cases b with
    | nil =>
      simp only [nameLess, Bool.false_eq_true, false_iff]
      rintro (⟨c, t, h⟩ | ⟨p, x, y, s, t, _, h, _⟩) <;> simp at h
    | cons y b =>
      rw [nameLess]
      by_cases h1 : x < y
      · simp only [h1, if_true, true_iff]
        exact Or.inr ⟨[], x, y, a, b, rfl, rfl, UInt8.lt_iff_toNat_lt.1 h1⟩
      · by_cases h2 : y < x
        · simp only [h1, h2, if_true, if_false, Bool.false_eq_true, false_iff]
          rintro (⟨c, t, h⟩ | ⟨p, u, v, s, t, h, h', hl⟩)
          · simp only [List.cons_append, List.cons.injEq] at h
            rw [h.1] at h2; exact absurd h2 (UInt8.lt_irrefl x)
          · cases p with
            | nil =>
              simp only [List.nil_append, List.cons.injEq] at h h'
              rw [h.1, h'.1] at h1; exact h1 (UInt8.lt_iff_toNat_lt.2 hl)
            | cons q p =>
              simp only [List.cons_append, List.cons.injEq] at h h'
              rw [h.1, h'.1] at h2; exact absurd h2 (UInt8.lt_irrefl q)
        · have hxy : x = y := by
            rw [UInt8.lt_iff_toNat_lt] at h1 h2
            exact UInt8.toNat_inj.1 (by omega)
          subst hxy
          simp only [h1, if_false]
          rw [ih]
          constructor
          · rintro (⟨c, t, rfl⟩ | ⟨p, u, v, s, t, rfl, rfl, hl⟩)
            · exact Or.inl ⟨c, t, rfl⟩
            · exact Or.inr ⟨x :: p, u, v, s, t, rfl, rfl, hl⟩
          · rintro (⟨c, t, h⟩ | ⟨p, u, v, s, t, h, h', hl⟩)
            · simp only [List.cons_append, List.cons.injEq, true_and] at h
              exact Or.inl ⟨c, t, h⟩
            · cases p with
              | nil =>
                simp only [List.nil_append, List.cons.injEq] at h h'
                rw [← h.1, ← h'.1] at hl; omega
              | cons q p =>
                simp only [List.cons_append, List.cons.injEq] at h h'
                exact Or.inr ⟨p, u, v, s, t, h.2, h'.2, hl⟩

theorem nameLess_irrefl (a : Bytes) : nameLess a a = false := by
  induction a with
  | nil => rfl
  | cons x a ih => simp [nameLess, ih]

theorem nameLess_trans {a b c : Bytes} (h1 : nameLess a b = true) (h2 : nameLess b c = true) :
    nameLess a c = true := by
  induction a generalizing b c with
  | nil => cases b with
    | nil => simp [nameLess] at h1
    | cons => cases c with
      | nil => simp [nameLess] at h2
      | cons => rfl
  | cons x a ih => cases b with
    | nil => simp [nameLess] at h1
    | cons y b => cases c with
      | nil => simp [nameLess] at h2
      | cons z c =>
        rw [nameLess] at *
        simp only [UInt8.lt_iff_toNat_lt] at *
        split at h1
        · split at h2
          · rw [if_pos (by omega)]
          · split at h2
            · simp at h2
            · rw [if_pos (by omega)]
        · split at h1
          · simp at h1
          · split at h2
            · rw [if_pos (by omega)]
            · split at h2
              · simp at h2
              · rw [if_neg (by omega), if_neg (by omega)]
                exact ih h1 h2

theorem nameLess_total {a b : Bytes} (h1 : nameLess a b = false) (h2 : nameLess b a = false) :
    a = b := by
  induction a generalizing b with
  | nil => cases b with
    | nil => rfl
    | cons => simp [nameLess] at h1
  | cons x a ih => cases b with
    | nil => simp [nameLess] at h2
    | cons y b =>
      rw [nameLess] at h1 h2
      simp only [UInt8.lt_iff_toNat_lt] at *
      split at h1
      · simp at h1
      · split at h2
        · simp at h2
        · rw [if_neg (by omega)] at h1
          rw [UInt8.toNat_inj.1 (show x.toNat = y.toNat by omega), ih h1 h2]

/-! ### the map operations on a sorted sequence -/

/-- Sorted, with the comparison the code uses. -/
def SortedMap (m : TagMap) : Prop := m.Pairwise fun a b => nameLess a.1 b.1 = true

theorem sortedMap_iff (m : TagMap) : SortedMap m ↔ AscendingNames m := by
  unfold SortedMap AscendingNames
  rw [List.pairwise_map]
  constructor <;> exact fun h => h.imp (fun h => by first | exact (nameLess_iff _ _).1 h | exact (nameLess_iff _ _).2 h)

theorem SortedMap.nodup {m : TagMap} (h : SortedMap m) : (m.map Prod.fst).Nodup := by
  unfold List.Nodup
  rw [List.pairwise_map]
  exact h.imp fun h e => by rw [e, nameLess_irrefl] at h; cases h

theorem find_iff {m : TagMap} (h : SortedMap m) (n : Bytes) (t : TagEntry) :
    m.find n = some t ↔ (n, t) ∈ m := by
  induction m with
  | nil => simp [TagMap.find]
  | cons p m ih =>
    obtain ⟨k, e⟩ := p
    have h' := List.pairwise_cons.1 h
    rw [TagMap.find]
    split
    · rename_i hl
      rw [ih h'.2, List.mem_cons]
      constructor
      · exact Or.inr
      · rintro (he | he)
        · simp only [Prod.mk.injEq] at he
          rw [he.1, nameLess_irrefl] at hl; cases hl
        · exact he
    · split
      · rename_i hl hl'
        simp only [List.mem_cons, Prod.mk.injEq, reduceCtorEq, false_iff]
        rintro (he | he)
        · rw [he.1] at hl'; rw [nameLess_irrefl] at hl'; cases hl'
        · exact hl (h'.1 _ he)
      · rename_i hl hl'
        have hk : k = n := nameLess_total (by simpa using hl) (by simpa using hl')
        subst hk
        simp only [Option.some.injEq, List.mem_cons, Prod.mk.injEq, true_and]
        constructor
        · intro h; exact Or.inl h.symm
        · rintro (he | he)
          · exact he.symm
          · have := h'.1 _ he
            rw [nameLess_irrefl] at this; cases this

theorem assign_new {m : TagMap} (h : SortedMap m) {n : Bytes} (hn : m.find n = none) (t : TagEntry) :
    (m.assign n t).Perm ((n, t) :: m) ∧ SortedMap (m.assign n t) := by
  induction m with
  | nil => exact ⟨List.Perm.refl _, by simp [TagMap.assign, SortedMap]⟩
  | cons p m ih =>
    obtain ⟨k, e⟩ := p
    have h' := List.pairwise_cons.1 h
    rw [TagMap.find] at hn
    rw [TagMap.assign]
    split at hn
    · rename_i hl
      rw [if_pos hl]
      obtain ⟨i1, i2⟩ := ih h'.2 hn
      refine ⟨(i1.cons _).trans (List.Perm.swap _ _ _), List.pairwise_cons.2 ⟨?_, i2⟩⟩
      intro q hq
      rcases List.mem_cons.1 (i1.subset hq) with rfl | hq
      · exact hl
      · exact h'.1 q hq
    · rename_i hl
      split at hn
      · rename_i hl'
        rw [if_neg hl, if_pos hl']
        refine ⟨List.Perm.refl _, List.pairwise_cons.2 ⟨?_, h⟩⟩
        intro q hq
        rcases List.mem_cons.1 hq with rfl | hq
        · exact hl'
        · exact nameLess_trans hl' (h'.1 q hq)
      · cases hn

/-! ### the loop on the map and the loop on the list -/

theorem mapLoop_eq (total n : Nat) (s : Bytes) (m : TagMap) :
    mapLoop total (n + 1) s m =
      if (skipLoose s).isEmpty then .ok () m
      else
        let (name, s2) := readName (skipLoose s)
        if name.isEmpty then .error (.p .emptyTagName) m
        else if (m.find name).isSome then .error (.p (.duplicateTag name)) m
        else
          match skipLoose s2 with
          | [] => .error (.p .expectedEq) m
          | c :: s3 =>
            if c ≠ EQ then .error (.p .expectedEq) m
            else
              match readValue [] [] (skipLoose s3) with
              | .error e => .error e m
              | .ok (value, s5) =>
                let m' := m.assign name { value := value, offset := tellgAfterPeek total (skipLoose s3) }
                match s5 with
                | [] => .ok () m'
                | _ :: s6 => mapLoop total n s6 m' := by
  rw [mapLoop]
  by_cases h1 : (skipLoose s).isEmpty
  · simp [h1]; rfl
  · simp only [h1, Bool.false_eq_true, if_false]
    rcases hn : readName (skipLoose s) with ⟨name, s2⟩
    simp only []
    by_cases h2 : name.isEmpty
    · simp [h2]; rfl
    · simp only [h2, Bool.false_eq_true, if_false]
      show EStateM.bind _ _ m = _
      simp only [EStateM.bind, get, getThe, MonadStateOf.get, EStateM.get]
      by_cases h3 : (m.find name).isSome
      · simp [h3]; rfl
      · simp only [h3, Bool.false_eq_true, if_false]
        cases hs3 : skipLoose s2 with
        | nil => rfl
        | cons c s3 =>
          by_cases h4 : c = EQ
          · simp only [h4, ne_eq, not_true_eq_false, if_false]
            cases hv : readValue [] [] (skipLoose s3) with
            | error e => rfl
            | ok p =>
              obtain ⟨value, s5⟩ := p
              cases s5 <;> rfl
          · simp [h4]; rfl

/-- The map holds the same tags as the list, sorted. -/
def SameTags (m : TagList) (M : TagMap) : Prop := SortedMap M ∧ M.Perm m

/-- The same outcome, with the same tags. -/
inductive SameEnd : EStateM.Result Err TagList Unit → EStateM.Result Err TagMap Unit → Prop
  | ok (m M) : SameTags m M → SameEnd (.ok () m) (.ok () M)
  | error (e m M) : SameTags m M → SameEnd (.error e m) (.error e M)

theorem SameTags.find {m : TagList} {M : TagMap} (h : SameTags m M) (n : Bytes) :
    M.find n = m.getTag n := by
  have hnd : (m.map Prod.fst).Nodup := (h.2.map _).nodup_iff.1 h.1.nodup
  apply Option.ext
  intro t
  rw [find_iff h.1, getTag_eq_some_iff hnd]
  exact h.2.mem_iff

theorem mapLoop_sim (total n : Nat) (s : Bytes) (m : TagList) (M : TagMap) (h : SameTags m M) :
    SameEnd (tagLoop total n s m) (mapLoop total n s M) := by
  induction n generalizing s m M with
  | zero => exact .error _ _ _ h
  | succ n ih =>
    rw [tagLoop_eq, mapLoop_eq]
    split
    · exact .ok _ _ h
    · dsimp only
      split
      · exact .error _ _ _ h
      · rw [h.find]
        split
        · exact .error _ _ _ h
        · rename_i hd
          have hn : M.find (readName (skipLoose s)).1 = none := by
            rw [h.find]; simpa using hd
          have hm : ∀ t, SameTags (m ++ [((readName (skipLoose s)).1, t)])
              (M.assign (readName (skipLoose s)).1 t) := fun t =>
            ⟨(assign_new h.1 hn t).2, (assign_new h.1 hn t).1.trans
              ((h.2.cons _).trans (List.perm_append_comm (l₁ := [_])))⟩
          cases skipLoose (readName (skipLoose s)).2 with
          | nil => exact .error _ _ _ h
          | cons c s3 =>
            dsimp only
            by_cases hc : c ≠ EQ
            · rw [if_pos hc, if_pos hc]; exact .error _ _ _ h
            · rw [if_neg hc, if_neg hc]
              cases readValue [] [] (skipLoose s3) with
              | error e => exact .error _ _ _ h
              | ok p =>
                obtain ⟨value, s5⟩ := p
                cases s5 with
                | nil => exact .ok _ _ (hm _)
                | cons => exact ih _ _ _ (hm _)

theorem parse_sim (s : Bytes) {m : TagList} {M : TagMap} (h : SameTags m M) :
    SameEnd (TagList.parse s m) (TagMap.parse s M) := mapLoop_sim _ _ _ _ _ h

/-- The list model's tags after one call. -/
def TagList.after (m : TagList) : TagOp → TagList
  | .reset => []
  | .parse s => afterParse m s

theorem after_sim (o : TagOp) {m : TagList} {M : TagMap} (h : SameTags m M) :
    SameTags (m.after o) (M.after o) := by
  cases o with
  | reset => exact ⟨List.Pairwise.nil, List.Perm.refl _⟩
  | parse s =>
    have := parse_sim s h
    unfold TagList.after TagMap.after afterParse
    dsimp only
    revert this
    generalize TagList.parse s m = a
    generalize TagMap.parse s M = b
    intro h
    cases h with
    | ok _ _ h => exact h
    | error _ _ _ h => exact h

theorem history_sim (ops : List TagOp) :
    SameTags (ops.foldl TagList.after []) (TagMap.history ops) := by
  have : ∀ (m : TagList) (M : TagMap), SameTags m M →
      SameTags (ops.foldl TagList.after m) (ops.foldl TagMap.after M) := by
    induction ops with
    | nil => exact fun _ _ h => h
    | cons o ops ih => exact fun m M h => ih _ _ (after_sim o h)
  exact this [] [] ⟨List.Pairwise.nil, List.Perm.refl _⟩

/-! ### C97 -/

/-- C97: after any sequence of `Parse` and `Reset` calls, also ones that throw, iterating visits
the names in ascending order, and the pairs it visits are exactly those `GetTag` gives. -/
theorem C97_iteration (ops : List TagOp) :
    AscendingNames (TagMap.history ops) ∧
    ∀ n t, (TagMap.history ops).find n = some t ↔ (n, t) ∈ TagMap.history ops :=
  ⟨(sortedMap_iff _).1 (history_sim ops).1, fun n t => find_iff (history_sim ops).1 n t⟩

/-- C97: the map and the list of `Model/TagList`, on which all other properties are stated, cannot
be told apart by `Parse`, its exceptions and `GetTag`. -/
theorem C97_same_tags (ops : List TagOp) (s n : Bytes) :
    (TagMap.history ops).find n = (ops.foldl TagList.after []).getTag n ∧
    ((∃ m, TagList.parse s (ops.foldl TagList.after []) = .ok () m) ↔
      ∃ M, TagMap.parse s (TagMap.history ops) = .ok () M) ∧
    ∀ e, (∃ m, TagList.parse s (ops.foldl TagList.after []) = .error e m) ↔
      ∃ M, TagMap.parse s (TagMap.history ops) = .error e M := by
  refine ⟨(history_sim ops).find n, ?_⟩
  have := parse_sim s (history_sim ops)
  revert this
  generalize TagList.parse s _ = a
  generalize TagMap.parse s _ = b
  intro h
  cases h <;> simp

/-- C97: `Parse` on a fresh object accepts exactly the tag lists without duplicates, and iterating
then visits the items of the text, each once, by ascending name. -/
theorem C97_parse_iff (s : Bytes) (M : TagMap) :
    TagMap.parse s [] = .ok () M ↔
      ∃ es, TagText 0 s es ∧ (es.map Prod.fst).Nodup ∧ M.Perm es ∧ AscendingNames M := by
  have hs := parse_sim s (m := []) (M := []) ⟨List.Pairwise.nil, List.Perm.refl _⟩
  have sub : ∀ A B : TagMap, SortedMap A → SortedMap B → A.Perm B → A = B := fun A B ha hb hp =>
    hp.eq_of_pairwise (fun a b _ _ h1 h2 => by
      have := nameLess_trans h1 h2; rw [nameLess_irrefl] at this; cases this) ha hb
  constructor
  · intro h
    rw [h] at hs
    generalize hp : TagList.parse s [] = a at hs
    cases hs with
    | ok m _ hm =>
      obtain ⟨es, h1, h2, _, h4⟩ := (C11_parse_iff _ _ _).1 hp
      rw [List.nil_append] at h4
      subst h4
      exact ⟨_, h1, h2, hm.2, (sortedMap_iff _).1 hm.1⟩
  · rintro ⟨es, h1, h2, h3, h4⟩
    have hp : TagList.parse s [] = .ok () es := (C11_parse_iff _ _ _).2 ⟨es, h1, h2, by simp, rfl⟩
    rw [hp] at hs
    generalize TagMap.parse s [] = b at hs
    cases hs with
    | ok _ M' hm =>
      rw [sub M' M hm.1 ((sortedMap_iff _).2 h4) (hm.2.trans h3.symm)]

/-- C97: two texts with the same items in any order, of distinct names, iterate alike: the visited
names and values are the same sequence, however the items were arranged and spaced. -/
theorem C97_order_irrelevant (s s' : Bytes) (es es' : List (Bytes × TagEntry))
    (h : TagText 0 s es) (h' : TagText 0 s' es') (hn : (es.map Prod.fst).Nodup)
    (hp : (tagPairs es).Perm (tagPairs es')) :
    ∃ M M', TagMap.parse s [] = .ok () M ∧ TagMap.parse s' [] = .ok () M' ∧
      tagPairs M = tagPairs M' := by
  have names : ∀ A : TagMap, (tagPairs A).map Prod.fst = A.map Prod.fst := by
    intro A; simp [tagPairs, List.map_map, Function.comp_def]
  have hn' : (es'.map Prod.fst).Nodup := by
    rw [← names] at hn ⊢; exact (hp.map _).nodup_iff.1 hn
  have get : ∀ {s es}, TagText 0 s es → (es.map Prod.fst).Nodup →
      ∃ M : TagMap, TagMap.parse s [] = .ok () M ∧ SameTags es M := by
    intro s es h hn
    have hp : TagList.parse s [] = .ok () es := (C11_parse_iff _ _ _).2 ⟨es, h, hn, by simp, rfl⟩
    have hs := parse_sim s (m := []) (M := []) ⟨List.Pairwise.nil, List.Perm.refl _⟩
    rw [hp] at hs
    generalize TagMap.parse s [] = b at hs
    cases hs with
    | ok _ M hm => exact ⟨M, rfl, hm⟩
  obtain ⟨M, e1, s1, f3⟩ := get h hn
  obtain ⟨M', e2, s2, g3⟩ := get h' hn'
  refine ⟨M, M', e1, e2, ?_⟩
  have hh : (tagPairs M).Perm (tagPairs M') := (f3.map _).trans (hp.trans (g3.map _).symm)
  have srt : ∀ A : TagMap, SortedMap A →
      (tagPairs A).Pairwise fun a b => nameLess a.1 b.1 = true := by
    intro A hA
    unfold tagPairs
    rw [List.pairwise_map]
    exact hA
  exact hh.eq_of_pairwise (fun a b _ _ h1 h2 => by
    have := nameLess_trans h1 h2; rw [nameLess_irrefl] at this; cases this) (srt M s1) (srt M' s2)

/-- Three items, one of which is written last but visited first. -/
example : TagMap.parse b!"s= x; bh=a b ;b=c; a_=" [] =
    .ok () [(b!"a_", ⟨b!"", -1⟩), (b!"b", ⟨b!"c", 16⟩), (b!"bh", ⟨b!"a b", 9⟩), (b!"s", ⟨b!"x", 3⟩)] := by
  rfl

/-- A history in which a call throws after storing a tag, and a reset. -/
example : TagMap.history [.parse b!"z=1", .reset, .parse b!"v=1; d=2; d=3", .parse b!"A=4"] =
    [(b!"A", ⟨b!"4", 2⟩), (b!"d", ⟨b!"2", 7⟩), (b!"v", ⟨b!"1", 2⟩)] := by
  rfl

end Dkim

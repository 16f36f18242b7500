import Verif.Proofs.SignatureParse
import Verif.Proofs.Errors
import Verif.Tests.Toy
/-!
# Properties C25–C30: parsing signature headers

Spec: `Verif/Spec/SigHeader.lean` (`Legal`), `Verif/Spec/TagText.lean` (tag lists).
`Signature.parse E now h ⟨sig, erange⟩` runs `Parse(h)` at time `now` on the object `sig`; `erange`
says whether the thread's `errno` is ERANGE from an earlier library call.
-/

namespace Dkim
open Spec

/-- All failures of a computation on an object are permanent errors. -/
def FailsPerm {σ α : Type} (x : EStateM Err σ α) : Prop := ∀ st e st', x st = .error e st' → IsPerm e

theorem FailsPerm.bind {σ α β : Type} {x : EStateM Err σ α} {f : α → EStateM Err σ β} (hx : FailsPerm x)
    (hf : ∀ a, FailsPerm (f a)) : FailsPerm (x >>= f) := by
  intro st e st' h
  rw [es_bind] at h
  cases hr : x st with
  | ok a s1 => rw [hr, esBind_ok] at h; exact hf a _ _ _ h
  | error e1 s1 => rw [hr, esBind_error] at h; cases h; exact hx _ _ _ hr

theorem FailsPerm.pure {σ α : Type} (a : α) : FailsPerm (pure a : EStateM Err σ α) := by
  intro st e st' h; rw [es_pure] at h; cases h
theorem FailsPerm.throw {σ α : Type} (r : Reason) : FailsPerm (throw (.p r) : EStateM Err σ α) := by
  intro st e st' h; rw [es_throw] at h; cases h; exact ⟨r, rfl⟩
theorem FailsPerm.get {σ : Type} : FailsPerm (get : EStateM Err σ σ) := by
  intro st e st' h; rw [es_get] at h; cases h
theorem FailsPerm.modify {σ : Type} (f : σ → σ) : FailsPerm (modify f : EStateM Err σ PUnit) := by
  intro st e st' h; rw [es_modify] at h; cases h
theorem FailsPerm.lift {σ α : Type} {x : Except Err α} (hx : OnlyPerm x) : FailsPerm (liftE x : EStateM Err σ α) := by
  unfold liftE
  cases x with
  | ok a => exact .pure a
  | error e => obtain ⟨r, rfl⟩ := hx e rfl; exact .throw r
theorem FailsPerm.setSig (f : Signature → Signature) : FailsPerm (setSig f) := .modify _
theorem FailsPerm.sigTag (n : Bytes) : FailsPerm (sigTag n) := .bind .get (fun _ => .pure _)
theorem FailsPerm.needTag (n : Bytes) (r : Reason) : FailsPerm (needTag n r) :=
  .bind (.sigTag n) (fun a => by cases a <;> first | exact .throw _ | exact .pure _)
theorem FailsPerm.ite {σ α : Type} {c : Prop} [Decidable c] {x y : EStateM Err σ α} (hx : FailsPerm x)
    (hy : FailsPerm y) : FailsPerm (if c then x else y) := by split <;> assumption

theorem TagList.parse_perm (s : Bytes) : FailsPerm (TagList.parse s) := by
  intro st e st' h
  rcases C11_errors _ _ _ _ h with h | ⟨_, h⟩ | h | h <;> exact ⟨_, h⟩

/-- C25: `Parse` never fails in any other way than by a permanent error, on any object. -/
theorem C25_fails_permanently (E : Env) (now : Int) (h : Header) (st : SigSt) (e : Err) (st' : SigSt)
    (hp : Signature.parse E now h st = .error e st') : ∃ r, e = .perm r .permerror := by
  have main : FailsPerm (Signature.parse E now h) := by
    unfold Signature.parse
    refine .bind ?_ fun _ => .bind ?_ fun _ => .bind ?_ fun _ => .bind ?_ fun _ => .bind ?_ fun _ => .bind ?_ fun _ =>
      .bind ?_ fun _ => .bind ?_ fun _ => .bind ?_ fun _ => .bind ?_ fun _ => .bind ?_ fun _ => .bind ?_ fun _ =>
      .bind ?_ fun _ => ?_
    · intro st e st' h
      unfold sigTagList at h
      split at h
      · cases h
      · rename_i heq; cases h; exact TagList.parse_perm _ _ _ _ heq
    · exact .ite (.setSig _) (.pure _)
    · exact .bind (.needTag _ _) fun _ => .setSig _
    · exact .bind .get fun _ => .ite (.bind (.needTag _ _) fun _ => .ite (.throw _) (.pure _)) (.pure _)
    · exact .bind (.needTag _ _) fun _ => .ite (.setSig _) (.ite (.setSig _) (.ite (.setSig _) (.throw _)))
    · exact .bind (.needTag _ _) fun _ => .ite (.bind (.throw _) fun _ => .setSig _) (.setSig _)
    · exact .bind (.needTag _ _) fun _ => .setSig _
    · refine .bind (.sigTag _) fun a => ?_
      cases a with
      | none => exact .pure _
      | some c =>
        have tl : FailsPerm (match canonOf (splitC c.value).2 with
            | none => throw (.p (.badC (splitC c.value).2))
            | some m => setSig ({ · with canonBody := m }) : SigM Unit) := by
          split
          · exact .throw _
          · exact .setSig _
        simp only
        split
        · exact .bind (.throw _) fun _ => tl
        · exact .bind (.setSig _) fun _ => tl
    · exact .bind (.needTag _ _) fun _ => .bind (.lift (valueList_perm _)) fun _ => .bind (.setSig _) fun _ =>
        .ite (.throw _) (.pure _)
    · refine .bind .get fun _ => .ite ?_ ?_
      · exact .bind (.needTag _ _) fun _ => .bind (.modify _) fun _ => .bind (.setSig _) fun _ =>
          .ite (.throw _) (.pure _)
      · refine .bind (.sigTag _) fun a => ?_
        cases a with
        | none => exact .setSig _
        | some c =>
          refine .bind (.lift (qpDecode_perm _ _)) fun mail => ?_
          simp only
          split
          · exact .throw _
          · refine .bind (.setSig _) fun _ => .bind .get fun _ => .bind (.lift ?_) fun _ => .ite (.throw _) (.pure _)
            intro e he
            obtain ⟨r, hr, _⟩ := isSubdomainOf_ok _ _
            rw [hr] at he
            simp at he
    · refine .bind (.sigTag _) fun a => ?_
      cases a with
      | none => exact .pure _
      | some c =>
        have t1 : ∀ (b : Nat) (r : Bytes), FailsPerm (do
            if b ≥ 2 ^ 63 then throw (.p .lNegative)
            if !r.isEmpty then throw (.p .lGarbage)
            setSig ({ · with bodySize := b, bodySizeLimit := true }) : SigM Unit) := by
          intro b r
          exact .ite (.bind (.throw _) fun _ => .ite (.bind (.throw _) fun _ => .setSig _) (.setSig _))
            (.ite (.bind (.throw _) fun _ => .setSig _) (.setSig _))
        have t2 : FailsPerm (do
            raiseErange (strtoul (cstr c.value)).2.2
            if (← get).erange then throw (.p .lRange)
            if (strtoul (cstr c.value)).1 ≥ 2 ^ 63 then throw (.p .lNegative)
            if !(strtoul (cstr c.value)).2.1.isEmpty then throw (.p .lGarbage)
            setSig ({ · with bodySize := (strtoul (cstr c.value)).1, bodySizeLimit := true }) : SigM Unit) :=
          .bind (.modify _) fun _ => .bind .get fun _ => .ite (.bind (.throw _) fun _ => t1 _ _) (t1 _ _)
        exact .ite (.bind (.throw _) fun _ => t2) t2
    · refine .bind (.sigTag _) fun a => ?_
      cases a with
      | none => exact .pure _
      | some c => exact .ite (.throw _) (.pure _)
    · exact .bind (.needTag _ _) fun _ => .setSig _
    · refine .bind (.sigTag _) fun a => ?_
      cases a with
      | none => exact .pure _
      | some c => exact .bind (.modify _) fun _ => .ite (.throw _) (.pure _)
  exact main st e st' hp

/-- `Legal` does not look at the stored tag list. -/
theorem Spec.Legal.tags_irrelevant {E : Env} {arc : Bool} {now : Int} {tag : Bytes → Option Bytes} {s : Signature}
    (L : Legal E arc now tag s) (m : TagList) : Legal E arc now tag { s with tags := m } := by
  obtain ⟨h1, h2, h3, h4, h5, h6, h7, h8, h9, h10, h11, h12, h13, h14, h15⟩ := L
  exact ⟨h1, h2, h3, h4, h5, h6, h7, h8, h9, h10, h11, h12, h13, h14, h15⟩

/-- C25: a fresh object accepts a header iff its value is a tag list with distinct names whose tags
are legal (`Legal` lists every requirement). -/
theorem C25_accepts_iff (E : Env) (now : Int) (h : Header) :
    (∃ st', Signature.parse E now h {} = .ok () st') ↔
      ∃ es s, TagText 0 (valueText h) es ∧ (es.map Prod.fst).Nodup ∧
        Legal E (isArcName h.name) now (tagVal es) s := by
  constructor
  · rintro ⟨st', hp⟩
    obtain ⟨es, h1, h2, _, h4, _⟩ := (parse_ok_iff E now h false st').1 hp
    exact ⟨es, st'.sig, h1, h2, h4⟩
  · rintro ⟨es, s, h1, h2, h3⟩
    exact ⟨⟨{ s with tags := es }, xRange es⟩, (parse_ok_iff E now h false _).2
      ⟨es, h1, h2, rfl, h3.tags_irrelevant es, by simp, by simp⟩⟩

/-- C25: after acceptance the getters return what the tags say. -/
theorem C25_getters (E : Env) (now : Int) (h : Header) (e0 : Bool) (st' : SigSt)
    (hp : Signature.parse E now h { erange := e0 } = .ok () st') :
    ∃ es, TagText 0 (valueText h) es ∧ (es.map Prod.fst).Nodup ∧
      Legal E (isArcName h.name) now (tagVal es) st'.sig := by
  obtain ⟨es, h1, h2, _, h4, _⟩ := (parse_ok_iff E now h e0 st').1 hp
  exact ⟨es, h1, h2, h4⟩

/-- C25: a header without one of the mandatory tags is rejected with a permanent error. -/
theorem C25_mandatory (E : Env) (now : Int) (h : Header) (e0 : Bool) (es : List (Bytes × TagEntry))
    (ht : TagText 0 (valueText h) es) (n : Bytes)
    (hn : n ∈ [b!"d", b!"a", b!"b", b!"bh", b!"h", b!"s", if isArcName h.name then b!"i" else b!"v"])
    (hmiss : n ∉ es.map Prod.fst) :
    ∃ r st', Signature.parse E now h { erange := e0 } = .error (.perm r .permerror) st' := by
  cases hp : Signature.parse E now h { erange := e0 } with
  | error e st' =>
    obtain ⟨r, rfl⟩ := C25_fails_permanently E now h _ e st' hp
    exact ⟨r, st', rfl⟩
  | ok u st' =>
    exfalso
    obtain ⟨es', h1, h2, _, L, _⟩ := (parse_ok_iff E now h e0 st').1 hp
    -- the tags of a text are unique
    have hes : es' = es := by
      have h3 := (C11_parse_iff (valueText h) [] es').2 ⟨es', h1, h2, by simp, by simp⟩
      rcases tagLoop_text ht ((valueText h).length + 1) (by omega) (valueText h).length (by omega) [] with ⟨_, _, h4⟩ | ⟨_, _, m', h4⟩
      · have : (EStateM.Result.ok () es' : EStateM.Result Err TagList Unit) = .ok () ([] ++ es) := h3.symm.trans h4
        simpa using this
      · have : (EStateM.Result.ok () es' : EStateM.Result Err TagList Unit) = .error _ m' := h3.symm.trans h4
        cases this
    subst hes
    have miss : ∀ v, tagVal es' n = some v → False := by
      intro v hv
      obtain ⟨t, ht, _⟩ := tagVal_some.1 hv
      exact hmiss ((getTag_isSome_iff es' n).1 (by rw [ht]; rfl))
    simp only [List.mem_cons, List.not_mem_nil, or_false] at hn
    rcases hn with rfl | rfl | rfl | rfl | rfl | rfl | hn
    · obtain ⟨d, hd, _⟩ := L.domain; exact miss _ hd
    · obtain ⟨d, hd, _⟩ := L.algorithm; exact miss _ hd
    · obtain ⟨d, hd, _⟩ := L.signature; exact miss _ hd
    · obtain ⟨d, hd, _⟩ := L.bodyHash; exact miss _ hd
    · obtain ⟨d, hd, _⟩ := L.headers; exact miss _ hd
    · exact miss _ L.selector
    · cases ha : isArcName h.name with
      | true =>
        rw [ha] at hn L
        simp only [if_true] at hn
        subst hn
        obtain ⟨⟨v, hv, _⟩, _⟩ := L.arcIdentity rfl
        exact miss _ hv
      | false =>
        rw [ha] at hn L
        simp only [Bool.false_eq_true, if_false] at hn
        subst hn
        exact miss _ (L.version rfl)

/-- C26: the identity's domain of every accepted DKIM signature lies inside the signing domain. -/
theorem C26_identity (E : Env) (now : Int) (h : Header) (e0 : Bool) (st' : SigSt)
    (hp : Signature.parse E now h { erange := e0 } = .ok () st') (hd : isArcName h.name = false) :
    ∃ es d, TagText 0 (valueText h) es ∧ tagVal es b!"d" = some d ∧ st'.sig.domain = Spec.lower d ∧
      InDomain st'.sig.mailDomain (Spec.lower d) ∧
      (tagVal es b!"i" = none → st'.sig.mailDomain = Spec.lower d ∧ st'.sig.mailLocal = []) ∧
      (∀ i, tagVal es b!"i" = some i → ∃ dom, qpDecode i = .ok (st'.sig.mailLocal ++ 64 :: dom) ∧
        st'.sig.mailDomain = Spec.lower dom) := by
  obtain ⟨es, h1, h2, _, L, _⟩ := (parse_ok_iff E now h e0 st').1 hp
  obtain ⟨d, hd1, hd2⟩ := L.domain
  obtain ⟨hi, _⟩ := L.identity hd
  refine ⟨es, d, h1, hd1, hd2, ?_⟩
  rw [← hd2]
  generalize tagVal es b!"i" = i at hi
  generalize st'.sig.mailLocal = loc at hi
  generalize st'.sig.mailDomain = md at hi
  cases hi with
  | absent => exact ⟨Or.inl rfl, fun _ => ⟨rfl, rfl⟩, by simp⟩
  | present v loc dom hq hno hin =>
    refine ⟨hin, by simp, ?_⟩
    intro i hi
    cases hi
    exact ⟨dom, hq, rfl⟩

/-! ## C27: the body length -/

theorem takeWhile_all {α : Type} {p : α → Bool} {l : List α} (h : ∀ c ∈ l, p c = true) :
    l.takeWhile p = l ∧ l.dropWhile p = [] := by
  induction l with
  | nil => exact ⟨rfl, rfl⟩
  | cons c l ih =>
    have := ih (fun d hd => h d (by simp [hd]))
    simp [h c (by simp), this]

/-- Reading a number that does not start with white space; `s2` is the text after the sign. -/
theorem scanNum_cons {c : Byte} (r s2 : Bytes) (hc : isSpace c = false)
    (h2 : s2 = if c = 45 ∨ c = 43 then r else c :: r) :
    scanNum (c :: r) = if (s2.takeWhile isDigit).isEmpty then none
      else some (decide (c = 45), decVal (s2.takeWhile isDigit), s2.dropWhile isDigit) := by
  unfold scanNum
  have e1 : (c :: r).dropWhile isSpace = c :: r := by simp [hc]
  rw [e1, h2]
  simp

theorem scanNum_digits {s : Bytes} (h : IsDigits s) : scanNum s = some (false, decVal s, []) := by
  obtain ⟨hne, hd⟩ := h
  replace hd := fun c hc => isDigit_iff.2 (hd c hc)
  match s, hne with
  | c :: r, _ =>
    obtain ⟨h1, h2, h3⟩ := digit_not_space (hd c (by simp))
    obtain ⟨h4, h5⟩ := takeWhile_all hd
    rw [scanNum_cons r (c :: r) h1 (by simp [h2, h3]), h4, h5]
    simp [h2]

theorem strtoul_digits {s : Bytes} (h : IsDigits s) :
    strtoul s = if decVal s ≥ 2 ^ 64 then (2 ^ 64 - 1, [], true) else (decVal s, [], false) := by
  unfold strtoul
  rw [scanNum_digits h]
  simp

theorem strtol_digits {s : Bytes} (h : IsDigits s) :
    strtol s = if decVal s ≥ 2 ^ 63 then (2 ^ 63 - 1, true) else ((decVal s : Int), false) := by
  unfold strtol
  rw [scanNum_digits h]

/-- C27 (plain decimal values): if l= consists of decimal digits and the header is accepted, the
number is below 2^63 and `GetBodySize` returns exactly it. -/
theorem C27_length_partial (E : Env) (now : Int) (h : Header) (e0 : Bool) (st' : SigSt)
    (hp : Signature.parse E now h { erange := e0 } = .ok () st') :
    ∃ es, TagText 0 (valueText h) es ∧
      (tagVal es b!"l" = none → st'.sig.bodySizeLimit = false) ∧
      (∀ v, tagVal es b!"l" = some v → st'.sig.bodySizeLimit = true ∧ st'.sig.bodySize < 2 ^ 63) ∧
      (∀ v, tagVal es b!"l" = some v → IsDigits v → st'.sig.bodySize = digitsVal v) := by
  obtain ⟨es, h1, h2, _, L, _⟩ := (parse_ok_iff E now h e0 st').1 hp
  refine ⟨es, h1, ?_⟩
  have hl := L.length
  generalize tagVal es b!"l" = l at hl
  generalize st'.sig.bodySize = n at hl
  generalize st'.sig.bodySizeLimit = lim at hl
  cases hl with
  | absent => simp
  | present v n hlen hs hn =>
    refine ⟨by simp, ?_, ?_⟩
    · intro _ _; exact ⟨rfl, hn⟩
    · intro v' hv hd
      cases hv
      rw [uLong_iff, strtoul_digits hd] at hs
      split at hs
      · simp at hs
      · simp at hs; rw [digitsVal_eq]; exact hs.symm

/-- Values of tags in a parsed text. -/
theorem Spec.TagText.value_ok {pos : Nat} {s : Bytes} {es : List (Bytes × TagEntry)} (h : TagText pos s es)
    (n : Bytes) (t : TagEntry) (hm : (n, t) ∈ es) : IsTagValue t.value := by
  induction h with
  | done => simp at hm
  | last pos i hwf =>
    simp only [List.mem_singleton, Prod.mk.injEq] at hm
    obtain ⟨rfl, rfl⟩ := hm
    exact hwf.2.2.2.2.1
  | cons pos i s es hwf htt ih =>
    rcases List.mem_cons.1 hm with hm | hm
    · simp only [Prod.mk.injEq] at hm
      obtain ⟨rfl, rfl⟩ := hm
      exact hwf.2.2.2.2.1
    · exact ih hm

theorem takeWhile_dropWhile_nil {α : Type} {p : α → Bool} {l : List α} (h : l.dropWhile p = []) :
    ∀ c ∈ l, p c = true := by
  intro c hc
  have := List.takeWhile_append_dropWhile (p := p) (l := l)
  rw [h, List.append_nil] at this
  rw [← this] at hc
  exact mem_takeWhile_imp hc
where
  mem_takeWhile_imp {α : Type} {p : α → Bool} {l : List α} {x : α} (h : x ∈ l.takeWhile p) : p x = true := by
    induction l with
    | nil => simp at h
    | cons c l ih =>
      rw [List.takeWhile_cons] at h
      split at h
      · rcases List.mem_cons.1 h with rfl | h
        · assumption
        · exact ih h
      · simp at h

/-- C27: the exact set of accepted l= values and the number each one stands for. -/
theorem C27_accepted_forms (E : Env) (now : Int) (h : Header) (e0 : Bool) (st' : SigSt)
    (hp : Signature.parse E now h { erange := e0 } = .ok () st') :
    ∃ es, TagText 0 (valueText h) es ∧
      ∀ v, tagVal es b!"l" = some v → LengthText v st'.sig.bodySize := by
  obtain ⟨es, h1, h2, _, L, _⟩ := (parse_ok_iff E now h e0 st').1 hp
  refine ⟨es, h1, ?_⟩
  intro v hv
  have hl := L.length
  rw [hv] at hl
  generalize st'.sig.bodySize = n at hl
  generalize st'.sig.bodySizeLimit = lim at hl
  cases hl with
  | present v n hlen hs hn =>
    rw [uLong_iff] at hs
    obtain ⟨t, ht, rfl⟩ := tagVal_some.1 hv
    have hval := h1.value_ok _ _ (getTag_mem ht)
    generalize t.value = v at hs hval
    cases v with
    | nil =>
      have : n = 0 := by
        have : strtoul [] = (0, [], false) := rfl
        rw [this] at hs; simp at hs; exact hs.symm
      subst this
      exact .empty
    | cons c r =>
      have hc : IsValByte c := hval.2.1 c (by simp)
      have hsp : isSpace c = false := by
        simp only [IsValByte, isSpace, Bool.and_eq_true, decide_eq_true_eq, Bool.or_eq_false_iff, beq_eq_false_iff_ne, ne_eq,
          Bool.and_eq_false_iff, decide_eq_false_iff_not, UInt8.le_iff_toNat_le, ← UInt8.toNat_inj] at *
        simp at *
        omega
      unfold strtoul at hs
      cases hscan : scanNum (c :: r) with
      | none => rw [hscan] at hs; simp at hs
      | some p =>
        obtain ⟨neg, val, rest⟩ := p
        rw [hscan] at hs
        simp only at hs
        rw [scanNum_cons r _ hsp rfl] at hscan
        have hrest : rest = [] := by split at hs <;> simp_all
        subst hrest
        by_cases h45 : c = 45
        · subst h45
          rw [if_pos (Or.inl rfl)] at hscan
          split at hscan
          · cases hscan
          · rename_i hne
            simp only [Option.some.injEq, Prod.mk.injEq, decide_true] at hscan
            obtain ⟨rfl, rfl, h3⟩ := hscan
            have hall := takeWhile_dropWhile_nil h3
            have htw := (takeWhile_all hall).1
            rw [htw] at hs hne
            split at hs
            · simp at hs
            · rename_i hlt
              simp only [if_true, Prod.mk.injEq, and_true] at hs
              subst hs
              rw [← digitsVal_eq] at *; exact .minus r ⟨by simpa using hne, fun c hc => isDigit_iff.1 (hall c hc)⟩ (by omega) hn
        · by_cases h43 : c = 43
          · subst h43
            rw [if_pos (Or.inr rfl)] at hscan
            split at hscan
            · cases hscan
            · rename_i hne
              simp only [Option.some.injEq, Prod.mk.injEq] at hscan
              obtain ⟨rfl, rfl, h3⟩ := hscan
              have hall := takeWhile_dropWhile_nil h3
              have htw := (takeWhile_all hall).1
              rw [htw] at hs hne
              split at hs
              · simp at hs
              · simp at hs
                subst hs
                rw [← digitsVal_eq] at *; exact .plus r ⟨by simpa using hne, fun c hc => isDigit_iff.1 (hall c hc)⟩ hn
          · rw [if_neg (show ¬ (c = 45 ∨ c = 43) from fun h => h.elim h45 h43)] at hscan
            split at hscan
            · cases hscan
            · rename_i hne
              simp only [Option.some.injEq, Prod.mk.injEq] at hscan
              obtain ⟨rfl, rfl, h3⟩ := hscan
              have hall := takeWhile_dropWhile_nil h3
              have htw := (takeWhile_all hall).1
              rw [htw] at hs hne
              split at hs
              · simp at hs
              · simp [h45] at hs
                subst hs
                rw [← digitsVal_eq] at *; exact .plain (c :: r) ⟨by simp, fun c hc => isDigit_iff.1 (hall c hc)⟩ hn

end Dkim

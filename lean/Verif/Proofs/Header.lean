import Verif.Proofs.Ascii
import Verif.Proofs.ValueList
import Verif.Proofs.Body
import Verif.Spec.Header
import Verif.Model.Canonicalization
/-! Lemmas about header canonicalization. -/

namespace Dkim
open Spec

/-- A field without bare CR and LF, inductively. -/
inductive Folded : Bytes → Prop
  | nil : Folded []
  | char (c r) : c ≠ CR → c ≠ LF → Folded r → Folded (c :: r)
  | fold (w r) : isWSP w = true → Folded r → Folded (CR :: LF :: w :: r)

theorem Spec.WellFolded.head_ne_LF {c : Byte} {r : Bytes} (h : WellFolded (c :: r)) : c ≠ LF := by
  rintro rfl
  obtain ⟨⟨a', ha⟩, _⟩ := h [] r rfl
  simp at ha

theorem Spec.WellFolded.tail_of_ne {c : Byte} {r : Bytes} (h : WellFolded (c :: r)) (hc : c ≠ CR) :
    WellFolded r := by
  intro a b e
  obtain ⟨⟨a', ha⟩, hb⟩ := h (c :: a) b (by rw [e]; rfl)
  refine ⟨?_, hb⟩
  cases a' with
  | nil => simp at ha; exact absurd ha.1 hc
  | cons d a' => simp at ha; exact ⟨a', ha.2⟩

theorem Spec.WellFolded.tail2 {r : Bytes} (h : WellFolded (CR :: LF :: r)) :
    ∃ w r', r = w :: r' ∧ isWSP w = true ∧ WellFolded r := by
  obtain ⟨_, w, r', rfl, hw⟩ := h [CR] r rfl
  refine ⟨w, r', rfl, hw, ?_⟩
  intro a b e
  obtain ⟨⟨a', ha⟩, hb⟩ := h (CR :: LF :: a) b (by rw [e]; rfl)
  refine ⟨?_, hb⟩
  cases a' with
  | nil => simp at ha
  | cons d a' =>
    cases a' with
    | nil =>
      simp at ha
      exact absurd ha.2.1 (by decide)
    | cons d' a' => simp at ha; exact ⟨a', ha.2.2⟩

theorem Folded.of_wellFolded {s : Bytes} (h : WellFolded s) (hb : ¬ HasBareCR s) : Folded s := by
  generalize hn : s.length = n
  induction n using Nat.strongRecOn generalizing s with
  | ind n ih =>
    subst hn
    cases s with
    | nil => exact .nil
    | cons c r =>
      have hlf := h.head_ne_LF
      by_cases hc : c = CR
      · subst hc
        cases r with
        | nil => exact absurd ⟨[], [], rfl, by simp⟩ hb
        | cons d r =>
          by_cases hd : d = LF
          · subst hd
            obtain ⟨w, r', rfl, hw, hr⟩ := h.tail2
            refine .fold w r' hw ?_
            have h1 : WellFolded r' := hr.tail_of_ne (by rintro rfl; exact absurd hw (by decide))
            refine ih r'.length (by simp; omega) h1 ?_ rfl
            rintro ⟨a, b, rfl, h2⟩
            exact hb ⟨CR :: LF :: w :: a, b, rfl, h2⟩
          · exact absurd ⟨[], d :: r, rfl, by simpa using hd⟩ hb
      · refine .char c r hc hlf (ih r.length (by simp) (h.tail_of_ne hc) ?_ rfl)
        rintro ⟨a, b, rfl, h2⟩
        exact hb ⟨c :: a, b, rfl, h2⟩

theorem Folded.wellFolded {s : Bytes} (h : Folded s) : WellFolded s ∧ ¬ HasBareCR s := by
  induction h with
  | nil =>
    refine ⟨fun a b e => ?_, ?_⟩
    · simp at e
    · rintro ⟨a, b, e, _⟩; simp at e
  | char c r h1 h2 _ ih =>
    refine ⟨fun a b e => ?_, ?_⟩
    · cases a with
      | nil => simp at e; exact absurd e.1 h2
      | cons d a =>
        simp at e
        obtain ⟨⟨a', rfl⟩, hb⟩ := ih.1 a b e.2
        exact ⟨⟨d :: a', rfl⟩, hb⟩
    · rintro ⟨a, b, e, hb⟩
      cases a with
      | nil => simp at e; exact absurd e.1 h1
      | cons d a => simp at e; exact ih.2 ⟨a, b, e.2, hb⟩
  | fold w r hw _ ih =>
    have hwl : w ≠ LF := by rintro rfl; exact absurd hw (by decide)
    have hwc : w ≠ CR := by rintro rfl; exact absurd hw (by decide)
    refine ⟨fun a b e => ?_, ?_⟩
    · cases a with
      | nil => simp at e; exact absurd e.1 (by decide)
      | cons d a =>
        cases a with
        | nil => simp at e; obtain ⟨rfl, rfl⟩ := e; exact ⟨⟨[], rfl⟩, w, r, rfl, hw⟩
        | cons d2 a =>
          cases a with
          | nil => simp at e; exact absurd e.2.2.1 hwl
          | cons d3 a =>
            simp at e
            obtain ⟨⟨a', rfl⟩, hb⟩ := ih.1 a b e.2.2.2
            exact ⟨⟨d :: d2 :: d3 :: a', rfl⟩, hb⟩
    · rintro ⟨a, b, e, hb⟩
      cases a with
      | nil => simp at e; subst e; simp at hb
      | cons d a =>
        cases a with
        | nil => simp at e; exact absurd e.2.1 (by decide)
        | cons d2 a =>
          cases a with
          | nil => simp at e; exact absurd e.2.2.1 hwc
          | cons d3 a => simp at e; exact ih.2 ⟨a, b, e.2.2.2, hb⟩

/-- Leading folding white space of a folded text. -/
theorem Folded.split {s : Bytes} (h : Folded s) :
    ∃ f t, s = f ++ t ∧ FwsRun f ∧ (t = [] ∨ ∃ c r, t = c :: r ∧ isLoose c = false ∧ Folded r) := by
  induction h with
  | nil => exact ⟨[], [], rfl, .nil, Or.inl rfl⟩
  | char c r h1 h2 hr ih =>
    by_cases hw : isWSP c = true
    · obtain ⟨f, t, rfl, hf, ht⟩ := ih
      exact ⟨c :: f, t, rfl, .wsp c f hw hf, ht⟩
    · refine ⟨[], c :: r, rfl, .nil, Or.inr ⟨c, r, rfl, ?_, hr⟩⟩
      simp only [isWSP, Bool.or_eq_true, beq_iff_eq, not_or] at hw
      simp [isLoose, hw.1, hw.2, h1, h2]
  | fold w r hw _ ih =>
    obtain ⟨f, t, rfl, hf, ht⟩ := ih
    exact ⟨CR :: LF :: w :: f, t, rfl, .fold w f hw hf, ht⟩

/-- The collapse loop as a function of the unfolded text. -/
def coll : Bool → Bytes → Bytes
  | _, [] => []
  | pend, c :: r => if isWSP c then coll true r else (if pend then [SP] else []) ++ c :: coll false r

theorem coll_run {f : Bytes} (hf : FwsRun f) (b : Bool) (u : Bytes) :
    coll b (Spec.unfold f ++ u) = coll (b || !f.isEmpty) u := by
  have hw : ∀ (w : Byte) (r : Bytes), isWSP w = true → Spec.unfold (w :: r) = w :: Spec.unfold r := by
    intro w r hw
    have h1 : w ≠ CR := by rintro rfl; exact absurd hw (by decide)
    have h2 : w ≠ LF := by rintro rfl; exact absurd hw (by decide)
    simp [Spec.unfold, h1, h2]
  induction hf generalizing b with
  | nil => simp [Spec.unfold]
  | wsp w r h _ ih =>
    rw [Spec.isWSP_eq] at h
    rw [hw w r h, List.cons_append, coll, if_pos h, ih]; simp
  | fold w r h _ ih =>
    rw [Spec.isWSP_eq] at h
    have : Spec.unfold (CR :: LF :: w :: r) = w :: Spec.unfold r := by
      rw [← hw w r h]; simp [Spec.unfold]
    rw [this, List.cons_append, coll, if_pos h, ih]; simp

theorem unfold_append (a b : Bytes) : Spec.unfold (a ++ b) = Spec.unfold a ++ Spec.unfold b := by
  simp [Spec.unfold]

theorem unfold_cons {c : Byte} (h : isLoose c = false) (r : Bytes) :
    Spec.unfold (c :: r) = c :: Spec.unfold r := by
  unfold Spec.unfold
  rw [List.filter_cons_of_pos]
  simp only [isLoose, Bool.or_eq_false_iff, beq_eq_false_iff_ne] at h
  simp [h.1.2, h.2]

theorem not_loose_not_wsp {c : Byte} (h : isLoose c = false) : isWSP c = false := by
  simp only [isLoose, Bool.or_eq_false_iff] at h
  simp [isWSP, h.1.1.1, h.1.1.2]

theorem collapse_folded {s : Bytes} (h : Folded s) (n : Nat) (hn : s.length < n) :
    collapse n s = .ok (coll false (Spec.unfold s)) := by
  induction n generalizing s with
  | zero => omega
  | succ n ih =>
    obtain ⟨f, t, rfl, hf, ht⟩ := h.split
    unfold collapse
    rcases ht with rfl | ⟨c, r, rfl, hc, hr⟩
    · rw [skipFWS_run hf (by simp [Stop, NotHead]) _ (by simp)]
      simp only [unfold_append]
      rw [coll_run hf]
      simp [Spec.unfold, coll]
    · rw [skipFWS_run hf (not_loose_stop hc r) _ (by simp; omega)]
      have hl : r.length < n := by simp at hn; omega
      simp only [ih hr hl]
      rw [unfold_append, coll_run hf, unfold_cons hc, coll, not_loose_not_wsp hc]
      cases f <;> simp

theorem readFWS_empty {s r : Bytes} (h : readFWS s = .ok ([], r)) :
    r = s ∧ (Stop s ∨ ∃ a q, s = a ++ CRLF ++ q ∧ AllWSP a ∧ NotHead isWSP q) := by
  rcases readFWS_cases s with ⟨a, q, rfl, ha, hq⟩ | ⟨a, b, q, rfl, ha, hb, hne, hq⟩ |
    ⟨a, q, rfl, ha, hq⟩ | ⟨a, q, rfl, ha, hq⟩
  · rw [readFWS_plain ha hq] at h
    injection h with h; injection h with h1 h2; subst h1 h2
    exact ⟨rfl, Or.inl (by simpa using hq)⟩
  · rw [readFWS_fold ha hb hne hq] at h
    injection h with h; injection h with h1 h2
    simp at h1
  · rw [readFWS_unwind ha hq] at h
    injection h with h; injection h with h1 h2; subst h2
    exact ⟨rfl, Or.inr ⟨a, q, rfl, ha, hq⟩⟩
  · rw [readFWS_bad ha hq] at h; cases h

/-- Where the white-space loop stops. -/
theorem skipFWS_stops {n : Nat} {s r : Bytes} {b : Bool} (h : skipFWS n s = .ok (b, r)) :
    Stop r ∨ ∃ a q, r = a ++ CRLF ++ q ∧ AllWSP a ∧ NotHead isWSP q := by
  induction n generalizing s b with
  | zero => simp [skipFWS] at h
  | succ n ih =>
    unfold skipFWS at h
    split at h
    · cases h
    · rename_i w r' hw
      split at h
      · rename_i he
        injection h with h; injection h with h1 h2; subst h2
        have : w = [] := by simpa using he
        subst this
        obtain ⟨rfl, h3⟩ := readFWS_empty hw
        exact h3
      · split at h
        · cases h
        · rename_i h2
          injection h with h; injection h with h3 h4; subst h4
          exact ih h2

theorem Spec.WellFolded.drop_run {f t : Bytes} (hf : FwsRun f) (h : WellFolded (f ++ t)) : WellFolded t := by
  induction hf with
  | nil => exact h
  | wsp w r hw _ ih => exact ih (WellFolded.tail_of_ne h (by rintro rfl; exact absurd hw (by decide)))
  | fold w r hw _ ih =>
    obtain ⟨_, _, e, _, h2⟩ := WellFolded.tail2 h
    exact ih (WellFolded.tail_of_ne h2 (by rintro rfl; exact absurd hw (by decide)))

theorem Spec.WellFolded.no_unwind {a q : Bytes} (h : WellFolded (a ++ CRLF ++ q)) (hq : NotHead isWSP q) :
    False := by
  obtain ⟨_, w, b', rfl, hw⟩ := h (a ++ [CR]) q (by simp)
  exact absurd hw (by simpa [NotHead] using hq w (by simp))

theorem FwsRun.folded_append {f t : Bytes} (hf : FwsRun f) (ht : Folded t) : Folded (f ++ t) := by
  induction hf with
  | nil => exact ht
  | wsp w r hw _ ih =>
    exact .char w _ (by rintro rfl; exact absurd hw (by decide)) (by rintro rfl; exact absurd hw (by decide)) ih
  | fold w r hw _ ih => exact .fold w _ hw ih

/-- On a well-folded text the loop succeeds only if there is no bare CR; its only error is the
bare-CR error. -/
theorem collapse_wellFolded {s : Bytes} (h : WellFolded s) (n : Nat) (hn : s.length < n) :
    (Folded s ∧ collapse n s = .ok (coll false (Spec.unfold s))) ∨
    (HasBareCR s ∧ collapse n s = .error (.p .crWithoutLf)) := by
  have key : ∀ n (s : Bytes), WellFolded s → s.length < n →
      (∀ x, collapse n s = .ok x → Folded s) ∧ (∀ e, collapse n s = .error e → e = .p .crWithoutLf) := by
    intro n
    induction n with
    | zero => intro s _ h; omega
    | succ n ih =>
      intro s h hn
      unfold collapse
      cases hs : skipFWS (s.length + 1) s with
      | error e =>
        refine ⟨by simp, ?_⟩
        intro e' he
        injection he with he
        rw [← he]; exact (skipFWS_error (by omega) hs).1
      | ok p =>
        obtain ⟨b, t⟩ := p
        obtain ⟨f, rfl, hf, _⟩ := skipFWS_ok hs
        have hst := skipFWS_stops hs
        have ht := WellFolded.drop_run hf h
        cases t with
        | nil =>
          refine ⟨fun x _ => FwsRun.folded_append hf .nil, by simp⟩
        | cons c r =>
          have hstop : Stop (c :: r) := by
            rcases hst with h1 | ⟨a, q, h1, _, h3⟩
            · exact h1
            · rw [h1] at ht; exact (ht.no_unwind h3).elim
          have hc : c ≠ CR := by
            rintro rfl
            have := hstop CR (by simp)
            simp at this
          have hr := ht.tail_of_ne hc
          have hl : r.length < n := by simp at hn; omega
          obtain ⟨i1, i2⟩ := ih r hr hl
          cases hcol : collapse n r with
          | error e =>
            exact ⟨fun x hx => by simp [hcol] at hx, fun e' he => by
              simp only [hcol, Except.error.injEq] at he; rw [← he]; exact i2 e hcol⟩
          | ok x =>
            exact ⟨fun y _ => FwsRun.folded_append hf (.char c r hc ht.head_ne_LF (i1 x hcol)),
              fun e he => by simp [hcol] at he⟩
  obtain ⟨k1, k2⟩ := key n s h hn
  by_cases hb : HasBareCR s
  · right
    refine ⟨hb, ?_⟩
    cases hc : collapse n s with
    | ok x => exact absurd hb (Folded.wellFolded (k1 x hc)).2
    | error e => rw [k2 e hc]
  · left
    have hf := Folded.of_wellFolded h hb
    exact ⟨hf, collapse_folded hf n hn⟩

/-! ### the text produced by the loop -/

theorem coll_eq_canonLine (u : Bytes) (b : Bool) :
    coll b u = canonLine .relaxed ((if b then [SP] else []) ++ u) := by
  induction u generalizing b with
  | nil => cases b <;> decide
  | cons c r ih =>
    unfold coll
    by_cases h : isWSP c = true
    · rw [if_pos h, ih]
      have e : canonLine .relaxed (c :: r) = canonLine .relaxed (SP :: r) := by
        simp [canonLine, squeeze_wsp_eq h isWSP_SP]
      have e2 : canonLine .relaxed (SP :: c :: r) = canonLine .relaxed (SP :: r) := by
        simp [canonLine, squeeze_wsp_wsp isWSP_SP h, squeeze_wsp_eq h isWSP_SP]
      cases b
      · simp [e]
      · simp [e2]
    · have h : isWSP c = false := by simpa using h
      rw [h]
      cases b
      · simp [ih, canonLine_cons_not .relaxed (fun _ => h)]
      · simp [ih, canonLine_sp_not h]

theorem coll_colon (a b : Bytes) (p : Bool) :
    coll p (a ++ COLON :: b) = squeeze ((if p then [SP] else []) ++ a) ++ COLON :: coll false b := by
  induction a generalizing p with
  | nil =>
    have h : isWSP COLON = false := by decide
    cases p <;> simp [coll, squeeze, h, isWSP_SP]
  | cons c r ih =>
    rw [List.cons_append, coll]
    by_cases h : isWSP c = true
    · rw [if_pos h, ih]
      cases p
      · simp [squeeze_wsp_eq h isWSP_SP]
      · simp [squeeze_wsp_wsp isWSP_SP h, squeeze_wsp_eq h isWSP_SP]
    · have h : isWSP c = false := by simpa using h
      rw [h]
      cases p
      · simp [ih, squeeze_cons_not h]
      · simp [ih, squeeze_wsp_not isWSP_SP h, squeeze_cons_not h]

/-! ### the colon -/

theorem findIdx_split {α : Type} (p : α → Bool) (l : List α) :
    (l.findIdx? p = none ∧ (∀ c ∈ l, p c = false)) ∨
    (∃ a x b, l = a ++ x :: b ∧ p x = true ∧ (∀ c ∈ a, p c = false) ∧ l.findIdx? p = some a.length) := by
  induction l with
  | nil => left; simp
  | cons c l ih =>
    by_cases h : p c = true
    · right; exact ⟨[], c, l, rfl, h, by simp, by simp [List.findIdx?_cons, h]⟩
    · have h : p c = false := by simpa using h
      rcases ih with ⟨h1, h2⟩ | ⟨a, x, b, rfl, hx, ha, h1⟩
      · left; refine ⟨by simp [List.findIdx?_cons, h, h1], ?_⟩
        intro d hd
        rcases List.mem_cons.1 hd with rfl | hd
        · exact h
        · exact h2 d hd
      · right
        refine ⟨c :: a, x, b, rfl, hx, ?_, by simp [List.findIdx?_cons, h, h1]⟩
        intro d hd
        rcases List.mem_cons.1 hd with rfl | hd
        · exact h
        · exact ha d hd

theorem findIdx_of {α : Type} (p : α → Bool) (a : List α) (x : α) (b : List α) (hx : p x = true)
    (ha : ∀ c ∈ a, p c = false) : (a ++ x :: b).findIdx? p = some a.length := by
  induction a with
  | nil => simp [List.findIdx?_cons, hx]
  | cons c a ih =>
    simp [List.findIdx?_cons, ha c (by simp), ih (fun d hd => ha d (by simp [hd]))]

theorem dropWhile_of {α : Type} (p : α → Bool) (a : List α) (x : α) (b : List α) (hx : p x = false)
    (ha : ∀ c ∈ a, p c = true) : (a ++ x :: b).dropWhile p = x :: b := by
  induction a with
  | nil => simp [hx]
  | cons c a ih => simp [ha c (by simp), ih (fun d hd => ha d (by simp [hd]))]

theorem takeWhile_of {α : Type} (p : α → Bool) (a : List α) (x : α) (b : List α) (hx : p x = false)
    (ha : ∀ c ∈ a, p c = true) : (a ++ x :: b).takeWhile p = a := by
  induction a with
  | nil => simp [hx]
  | cons c a ih => simp [ha c (by simp), ih (fun d hd => ha d (by simp [hd]))]

theorem colonTrim_eq (input a b : Bytes) (ha : COLON ∉ a) (hb : b = [] ∨ ∃ c ∈ b, c ≠ SP) :
    colonTrim input (a ++ COLON :: b) =
      .ok ((if ∀ c ∈ a, c = SP then a else rstrip (· == SP) a) ++ COLON :: b.dropWhile (· == SP)) := by
  have hcolon : (a ++ COLON :: b).findIdx? (· == COLON) = some a.length :=
    findIdx_of _ a COLON b (by simp) (by
      intro c hc; simp only [beq_eq_false_iff_ne]; rintro rfl; exact ha hc)
  unfold colonTrim
  rw [hcolon]
  simp only
  have hx1 : trimAfterColon (a ++ COLON :: b) a.length = a ++ COLON :: b.dropWhile (· == SP) := by
    have hd : (a ++ COLON :: b).drop (a.length + 1) = b := by
      rw [show a ++ COLON :: b = (a ++ [COLON]) ++ b by simp]
      rw [List.drop_append_of_le_length (by simp)]
      simp
    unfold trimAfterColon findFirstNotSP
    rw [hd]
    rcases findIdx_split (· != SP) b with ⟨h1, h2⟩ | ⟨u, x, v, rfl, hx, hu, h1⟩
    · rw [h1]
      rcases hb with rfl | ⟨c, hc, hne⟩
      · simp
      · exact absurd (by simpa using h2 c hc) hne
    · rw [h1]
      simp only [Option.map_some]
      have hu' : ∀ c ∈ u, (c == SP) = true := by
        intro c hc; have := hu c hc; simpa using this
      rw [dropWhile_of _ u x v (by simpa using hx) hu']
      unfold eraseAt
      have e1 : (a ++ COLON :: (u ++ x :: v)) = (a ++ [COLON]) ++ u ++ (x :: v) := by simp
      rw [e1]
      have e2 : a.length + 1 + (u.length + (a.length + 1) - 1 - a.length) = ((a ++ [COLON]) ++ u).length := by
        simp; omega
      rw [e2, List.drop_left', List.append_assoc, List.take_left' (by simp)]
      · simp
      · rfl
  rw [hx1]
  have htake : (a ++ COLON :: b.dropWhile (· == SP)).take a.length = a := by simp
  rw [htake]
  unfold findLastNotSP
  rcases findIdx_split (· != SP) a.reverse with ⟨h1, h2⟩ | ⟨u, x, v, hr, hx, hu, h1⟩
  · rw [h1]
    have : ∀ c ∈ a, c = SP := by
      intro c hc
      have := h2 c (by simpa using hc)
      simpa using this
    simp only [Option.map_none, if_pos this]
  · rw [h1]
    have ha' : a = v.reverse ++ [x] ++ u.reverse := by
      have := congrArg List.reverse hr
      simpa using this
    have hnot : ¬ ∀ c ∈ a, c = SP := by
      intro h
      have := h x (by rw [ha']; simp)
      rw [this] at hx; simp at hx
    have hu' : ∀ c ∈ u, (c == SP) = true := by
      intro c hc; have := hu c hc; simpa using this
    have hrs : rstrip (· == SP) a = v.reverse ++ [x] := by
      unfold rstrip
      rw [hr, dropWhile_of _ u x v (by simpa using hx) hu']
      simp
    rw [if_neg hnot, hrs]
    simp only [Option.map_some]
    have hlen : a.length = v.length + 1 + u.length := by rw [ha']; simp; omega
    by_cases hu0 : u = []
    · subst hu0
      rw [if_neg (by simp [hlen])]
      rw [ha']; simp
    · have : 0 < u.length := List.length_pos_iff.2 hu0
      rw [if_pos (by omega)]
      unfold eraseAt
      have e1 : a.length - 1 - u.length + 1 = (v.reverse ++ [x]).length := by simp; omega
      have e2 : a.length - 1 - u.length + 1 + (a.length - (a.length - 1 - u.length + 1)) =
          (v.reverse ++ [x] ++ u.reverse).length := by simp; omega
      rw [e2, e1, ← ha', List.drop_left' rfl]
      have e3 : a ++ COLON :: b.dropWhile (· == SP) =
          (v.reverse ++ [x]) ++ (u.reverse ++ COLON :: b.dropWhile (· == SP)) := by
        conv => lhs; rw [ha']
        simp
      rw [e3, List.take_left' rfl]

/-! ### FilterHeader -/

theorem mem_squeeze {u : Bytes} {c : Byte} (h : c ∈ squeeze u) : c = SP ∨ (c ∈ u ∧ isWSP c = false) := by
  induction u with
  | nil => simp [squeeze] at h
  | cons d r ih =>
    by_cases hd : isWSP d = true
    · cases r with
      | nil => simp [squeeze, hd] at h; exact Or.inl h
      | cons e r =>
        by_cases he : isWSP e = true
        · rw [squeeze_wsp_wsp hd he] at h
          rcases ih h with h | ⟨h1, h2⟩
          · exact Or.inl h
          · exact Or.inr ⟨by simp [List.mem_cons.1 h1], h2⟩
        · have he : isWSP e = false := by simpa using he
          rw [squeeze_wsp_not hd he] at h
          rcases List.mem_cons.1 h with h | h
          · exact Or.inl h
          · rcases ih h with h | ⟨h1, h2⟩
            · exact Or.inl h
            · exact Or.inr ⟨by simp [List.mem_cons.1 h1], h2⟩
    · have hd : isWSP d = false := by simpa using hd
      rw [squeeze_cons_not hd] at h
      rcases List.mem_cons.1 h with rfl | h
      · exact Or.inr ⟨by simp, hd⟩
      · rcases ih h with h | ⟨h1, h2⟩
        · exact Or.inl h
        · exact Or.inr ⟨by simp [h1], h2⟩

theorem squeeze_mem {u : Bytes} {c : Byte} (h : c ∈ u) (hc : isWSP c = false) : c ∈ squeeze u := by
  induction u with
  | nil => simp at h
  | cons d r ih =>
    rcases List.mem_cons.1 h with rfl | h
    · rw [squeeze_cons_not hc]; simp
    · have := ih h
      by_cases hd : isWSP d = true
      · cases r with
        | nil => simp at h
        | cons e r =>
          by_cases he : isWSP e = true
          · rw [squeeze_wsp_wsp hd he]; exact this
          · rw [squeeze_wsp_not hd (by simpa using he)]; simp [this]
      · rw [squeeze_cons_not (by simpa using hd)]; simp [this]

theorem mem_rstrip {α : Type} {p : α → Bool} {l : List α} {x : α} (h : x ∈ rstrip p l) : x ∈ l := by
  unfold rstrip at h
  rw [List.mem_reverse] at h
  simpa using (List.dropWhile_sublist p).subset h

theorem rstrip_congr {α : Type} {p q : α → Bool} {l : List α} (h : ∀ x ∈ l, p x = q x) :
    rstrip p l = rstrip q l := by
  induction l with
  | nil => rfl
  | cons x l ih =>
    rw [rstrip_cons, rstrip_cons, ih (fun y hy => h y (by simp [hy])), h x (by simp)]

theorem dropWhile_congr {α : Type} {p q : α → Bool} {l : List α} (h : ∀ x ∈ l, p x = q x) :
    l.dropWhile p = l.dropWhile q := by
  induction l with
  | nil => rfl
  | cons x l ih =>
    rw [List.dropWhile_cons, List.dropWhile_cons, ih (fun y hy => h y (by simp [hy])), h x (by simp)]

theorem squeeze_sp_iff {u : Bytes} {c : Byte} (h : c ∈ squeeze u) : (c == SP) = isWSP c := by
  rcases mem_squeeze h with rfl | ⟨_, h⟩
  · decide
  · rw [h]
    simp only [isWSP, Bool.or_eq_false_iff] at h
    exact h.1

theorem isWSP_toLower (c : Byte) : isWSP (toLower c) = isWSP c := by
  by_cases h : 65 ≤ c ∧ c ≤ 90
  · have h1 : ∀ d : Byte, d ≠ 32 → d ≠ 9 → isWSP d = false := by
      intro d h1 h2; simp [isWSP, h1, h2]
    simp only [UInt8.le_iff_toNat_le] at h
    simp only [UInt8.reduceToNat] at h
    rw [h1 c, h1 (toLower c)]
    all_goals
      intro e
      have e := congrArg UInt8.toNat e
      simp [toLower, UInt8.le_iff_toNat_le] at e
      first
        | omega
        | (rw [if_pos h] at e; simp at e; omega)
  · rw [toLower, if_neg h]

theorem toLower_eq_iff (c d : Byte) (hd : d.toNat < 65) : toLower c = d ↔ c = d := by
  unfold toLower
  split
  · rename_i h
    simp only [UInt8.le_iff_toNat_le] at h
    simp only [UInt8.reduceToNat] at h
    constructor
    · intro e
      have e := congrArg UInt8.toNat e
      simp at e; omega
    · rintro rfl; omega
  · rfl

theorem squeeze_lower (u : Bytes) : squeeze (lower u) = lower (squeeze u) := by
  induction u with
  | nil => rfl
  | cons c r ih =>
    simp only [lower, List.map_cons] at ih ⊢
    by_cases hc : isWSP c = true
    · cases r with
      | nil =>
        have hcl : isWSP (toLower c) = true := by rw [isWSP_toLower]; exact hc
        have e : toLower SP = SP := by decide
        simp [squeeze, hc, hcl, e]
      | cons d r =>
        have hcl : isWSP (toLower c) = true := by rw [isWSP_toLower]; exact hc
        by_cases hd : isWSP d = true
        · have hdl : isWSP (toLower d) = true := by rw [isWSP_toLower]; exact hd
          rw [squeeze_wsp_wsp hc hd, List.map_cons, squeeze_wsp_wsp hcl hdl]
          exact ih
        · have hd : isWSP d = false := by simpa using hd
          have hdl : isWSP (toLower d) = false := by rw [isWSP_toLower]; exact hd
          rw [squeeze_wsp_not hc hd, List.map_cons, squeeze_wsp_not hcl hdl]
          rw [List.map_cons] at ih
          rw [ih]; rfl
    · have hc : isWSP c = false := by simpa using hc
      have hcl : isWSP (toLower c) = false := by rw [isWSP_toLower]; exact hc
      rw [squeeze_cons_not hc, squeeze_cons_not hcl, ih]; rfl

theorem rstrip_lower (u : Bytes) : rstrip isWSP (lower u) = lower (rstrip isWSP u) := by
  induction u with
  | nil => rfl
  | cons c r ih =>
    simp only [lower, List.map_cons] at ih ⊢
    rw [rstrip_cons, rstrip_cons, ih, isWSP_toLower]
    by_cases h : rstrip isWSP r = [] ∧ isWSP c = true
    · simp [h]
    · have : ¬ ((rstrip isWSP r).map toLower = [] ∧ isWSP c = true) := by simpa using h
      rw [if_neg h, if_neg this]; rfl

theorem unfold_lower (u : Bytes) : Spec.unfold (lower u) = lower (Spec.unfold u) := by
  induction u with
  | nil => rfl
  | cons c r ih =>
    simp only [Spec.unfold, lower, List.map_cons] at ih ⊢
    simp only [List.filter_cons, ne_eq, toLower_eq_iff c CR (by decide), toLower_eq_iff c LF (by decide), ih]
    split <;> simp

theorem Folded.lower_append {a b : Bytes} (h : Folded (a ++ b)) : Folded (lower a ++ b) := by
  generalize hs : a ++ b = s at h
  induction h generalizing a with
  | nil => simp at hs; rw [hs.1, hs.2]; exact .nil
  | char c r h1 h2 h3 ih =>
    cases a with
    | nil => simp at hs; subst hs; exact .char c r h1 h2 h3
    | cons d a =>
      simp at hs
      obtain ⟨rfl, hs⟩ := hs
      refine .char _ _ ?_ ?_ (ih hs)
      · rwa [ne_eq, toLower_eq_iff d CR (by decide)]
      · rwa [ne_eq, toLower_eq_iff d LF (by decide)]
  | fold w r hw h3 ih =>
    cases a with
    | nil => simp at hs; subst hs; exact .fold w r hw h3
    | cons d a =>
      simp at hs
      obtain ⟨rfl, hs⟩ := hs
      cases a with
      | nil => simp at hs; subst hs; exact .fold w r hw h3
      | cons d a =>
        simp at hs
        obtain ⟨rfl, hs⟩ := hs
        cases a with
        | nil => simp at hs; subst hs; exact .fold w r hw h3
        | cons d a =>
          simp at hs
          obtain ⟨rfl, hs⟩ := hs
          exact .fold (toLower d) _ (by rw [isWSP_toLower]; exact hw) (ih hs)

/-- Byte classes relevant for folding. -/
def cls (c : Byte) : Nat := if c = CR then 0 else if c = LF then 1 else if isWSP c then 2 else 3

theorem cls_lower (c : Byte) : cls (toLower c) = cls c := by
  simp only [cls, toLower_eq_iff c CR (by decide), toLower_eq_iff c LF (by decide), isWSP_toLower]

theorem cls_CR {c : Byte} (h : cls c = 0) : c = CR := by
  unfold cls at h; split at h
  · assumption
  · split at h
    · cases h
    · split at h <;> cases h

theorem cls_LF {c : Byte} (h : cls c = 1) : c = LF := by
  unfold cls at h; split at h
  · cases h
  · split at h
    · assumption
    · split at h <;> cases h

theorem cls_WSP {c : Byte} : cls c = 2 ↔ isWSP c = true := by
  unfold cls
  constructor
  · intro h
    split at h
    · cases h
    · split at h
      · cases h
      · split at h
        · assumption
        · cases h
  · intro h
    rw [if_neg (by rintro rfl; exact absurd h (by decide)), if_neg (by rintro rfl; exact absurd h (by decide)),
      if_pos h]

theorem map_cls_lower (a b : Bytes) : (lower a ++ b).map cls = (a ++ b).map cls := by
  simp [lower, Function.comp_def, cls_lower]

theorem WellFolded_cls {s s' : Bytes} (e : s'.map cls = s.map cls) (h : WellFolded s) : WellFolded s' := by
  intro p q hs
  subst hs
  rw [List.map_append, List.map_cons] at e
  obtain ⟨p1, l, hs, h1, h2⟩ := List.map_eq_append_iff.1 e.symm
  obtain ⟨x, q1, rfl, h3, h4⟩ := List.map_eq_cons_iff.1 h2
  have hx : x = LF := cls_LF (by rw [h3]; decide)
  subst hx hs
  obtain ⟨⟨y, rfl⟩, w, r, rfl, hw⟩ := h p1 q1 rfl
  constructor
  · rw [List.map_append] at h1
    obtain ⟨p2, l2, rfl, h5, h6⟩ := List.map_eq_append_iff.1 h1.symm
    obtain ⟨z, l3, rfl, h7, h8⟩ := List.map_eq_cons_iff.1 h6
    have : l3 = [] := by simpa using h8
    subst this
    exact ⟨p2, by rw [cls_CR (c := z) (by rw [h7]; decide)]⟩
  · rw [List.map_cons] at h4
    obtain ⟨w', r', rfl, h7, h8⟩ := List.map_eq_cons_iff.1 h4.symm
    exact ⟨w', r', rfl, cls_WSP.1 (by rw [h7]; exact cls_WSP.2 hw)⟩

theorem HasBareCR_cls {s s' : Bytes} (e : s'.map cls = s.map cls) (h : HasBareCR s) : HasBareCR s' := by
  obtain ⟨a, b, rfl, hb⟩ := h
  rw [List.map_append, List.map_cons] at e
  obtain ⟨p1, l, hs, h1, h2⟩ := List.map_eq_append_iff.1 e
  obtain ⟨x, q1, rfl, h3, h4⟩ := List.map_eq_cons_iff.1 h2
  have hx : x = CR := cls_CR (by rw [h3]; decide)
  subst hx hs
  refine ⟨p1, q1, rfl, ?_⟩
  intro hq
  apply hb
  cases q1 with
  | nil => simp at hq
  | cons d q1 =>
    simp at hq; subst hq
    cases b with
    | nil => simp at h4
    | cons f b =>
      simp only [List.map_cons, List.cons.injEq] at h4
      simp [cls_LF (c := f) (by rw [← h4.1]; decide)]

theorem field_split {s : Bytes} (h : COLON ∈ s) :
    s = fieldName s ++ COLON :: fieldValue s ∧ COLON ∉ fieldName s ∧
      s.findIdx? (· == COLON) = some (fieldName s).length := by
  rcases findIdx_split (· == COLON) s with ⟨_, h2⟩ | ⟨a, x, b, rfl, hx, ha, h1⟩
  · exact absurd (h2 _ h) (by simp)
  · have hx : x = COLON := by simpa using hx
    subst hx
    have ha' : ∀ c ∈ a, (decide (c ≠ COLON)) = true := by
      intro c hc; have := ha c hc; simpa using this
    have e1 : fieldName (a ++ COLON :: b) = a := takeWhile_of _ a COLON b (by simp) ha'
    have e2 : fieldValue (a ++ COLON :: b) = b := by
      unfold fieldValue; rw [dropWhile_of _ a COLON b (by simp) ha']; rfl
    rw [e1, e2, h1]
    refine ⟨rfl, ?_, rfl⟩
    intro h; simpa using ha _ h

theorem canonLine_ne_all_sp (u : Bytes) :
    canonLine .relaxed u = [] ∨ ∃ c ∈ canonLine .relaxed u, c ≠ SP := by
  by_cases h : canonLine .relaxed u = []
  · exact Or.inl h
  · right
    have key : ∀ l : Bytes, rstrip isWSP l ≠ [] → ∃ c ∈ rstrip isWSP l, isWSP c = false := by
      intro l
      induction l with
      | nil => simp [rstrip_nil]
      | cons c l ih =>
        rw [rstrip_cons]
        split
        · simp
        · rename_i hn
          intro _
          by_cases hl : rstrip isWSP l = []
          · refine ⟨c, by simp, ?_⟩
            have : ¬ isWSP c = true := fun hc => hn ⟨hl, hc⟩
            simpa using this
          · obtain ⟨d, h1, h2⟩ := ih hl
            exact ⟨d, by simp [h1], h2⟩
    obtain ⟨c, h1, h2⟩ := key _ h
    refine ⟨c, h1, ?_⟩
    rintro rfl
    exact absurd h2 (by decide)

theorem mem_unfold {c : Byte} {s : Bytes} : c ∈ Spec.unfold s ↔ c ∈ s ∧ c ≠ CR ∧ c ≠ LF := by
  simp [Spec.unfold]

/-- Main lemma: `FilterHeader` on a folded field. -/
theorem filterHeader_folded {s : Bytes} (hf : Folded s) (hc : COLON ∈ s) :
    filterHeader .relaxed s = .ok
      ((if ∀ c ∈ fieldName s, isLoose c = true then (if Spec.unfold (fieldName s) = [] then [] else [SP])
        else lower (canonLine .relaxed (Spec.unfold (fieldName s)))) ++ COLON ::
        (canonLine .relaxed (Spec.unfold (fieldValue s))).dropWhile isWSP) := by
  obtain ⟨hs, hn, hidx⟩ := field_split hc
  unfold filterHeader
  rw [hidx]
  simp only
  generalize fieldName s = a at hs hn hidx
  generalize fieldValue s = b at hs hidx
  subst hs
  have hout : lower ((a ++ COLON :: b).take a.length) ++ (a ++ COLON :: b).drop a.length =
      lower a ++ COLON :: b := by simp
  rw [hout]
  have hf' : Folded (lower a ++ COLON :: b) := hf.lower_append
  rw [collapse_folded hf' _ (by omega)]
  simp only
  rw [unfold_append, unfold_cons (by decide), coll_colon]
  simp only [Bool.false_eq_true, if_false, List.nil_append]
  rw [coll_eq_canonLine, unfold_lower, squeeze_lower]
  simp only [Bool.false_eq_true, if_false, List.nil_append]
  have hcol : COLON ∉ lower (squeeze (Spec.unfold a)) := by
    intro h
    obtain ⟨c, hc1, hc2⟩ := List.mem_map.1 h
    rw [toLower_eq_iff c COLON (by decide)] at hc2
    subst hc2
    rcases mem_squeeze hc1 with h | ⟨h, _⟩
    · exact absurd h (by decide)
    · exact hn (mem_unfold.1 h).1
  rw [colonTrim_eq _ _ _ hcol (canonLine_ne_all_sp _)]
  congr 1
  have hval : (canonLine .relaxed (Spec.unfold b)).dropWhile (· == SP) =
      (canonLine .relaxed (Spec.unfold b)).dropWhile isWSP :=
    dropWhile_congr (fun x hx => squeeze_sp_iff (mem_rstrip hx))
  rw [hval]
  congr 1
  by_cases hbl : ∀ c ∈ a, isLoose c = true
  · rw [if_pos hbl]
    have hw : ∀ c ∈ Spec.unfold a, isWSP c = true := by
      intro c hc
      obtain ⟨h1, h2, h3⟩ := mem_unfold.1 hc
      have := hbl c h1
      simp only [isLoose, Bool.or_eq_true, beq_iff_eq] at this
      simp only [isWSP, Bool.or_eq_true, beq_iff_eq]
      rcases this with (h | h) | h
      · exact h
      · exact absurd h h2
      · exact absurd h h3
    have hsq : ∀ u : Bytes, (∀ c ∈ u, isWSP c = true) → squeeze u = if u = [] then [] else [SP] := by
      intro u hu
      induction u with
      | nil => rfl
      | cons c r ih =>
        cases r with
        | nil => simp [squeeze, hu c (by simp)]
        | cons d r =>
          rw [squeeze_wsp_wsp (hu c (by simp)) (hu d (by simp)), ih (fun x hx => hu x (by simp [List.mem_cons.1 hx]))]
          simp
    rw [hsq _ hw]
    split
    · simp [lower]
    · have : lower [SP] = [SP] := by decide
      rw [this]; simp
  · rw [if_neg hbl]
    have hnot : ¬ ∀ c ∈ lower (squeeze (Spec.unfold a)), c = SP := by
      intro h
      apply hbl
      intro c hc
      by_cases hl : isLoose c = true
      · exact hl
      · exfalso
        have hl : isLoose c = false := by simpa using hl
        have h1 : c ∈ Spec.unfold a := by
          rw [mem_unfold]
          refine ⟨hc, ?_, ?_⟩ <;> (rintro rfl; exact absurd hl (by decide))
        have h2 := squeeze_mem h1 (not_loose_not_wsp hl)
        have h3 := h (toLower c) (List.mem_map_of_mem h2)
        rw [toLower_eq_iff c SP (by decide)] at h3
        subst h3
        exact absurd hl (by decide)
    rw [if_neg hnot]
    have : rstrip (· == SP) (lower (squeeze (Spec.unfold a))) = rstrip isWSP (lower (squeeze (Spec.unfold a))) := by
      apply rstrip_congr
      intro x hx
      rw [← squeeze_lower] at hx
      exact squeeze_sp_iff hx
    rw [this, rstrip_lower]
    rfl

theorem filterHeader_bare {s : Bytes} (h : WellFolded s) (hc : COLON ∈ s) (hb : HasBareCR s) :
    filterHeader .relaxed s = .error (.p .crWithoutLf) := by
  obtain ⟨hs, hn, hidx⟩ := field_split hc
  unfold filterHeader
  rw [hidx]
  simp only
  have hout : (lower (s.take (fieldName s).length) ++ s.drop (fieldName s).length).map cls = s.map cls := by
    rw [map_cls_lower, List.take_append_drop]
  rcases collapse_wellFolded (WellFolded_cls hout h)
    ((lower (s.take (fieldName s).length) ++ s.drop (fieldName s).length).length + 1) (by omega) with ⟨h1, _⟩ | ⟨_, h2⟩
  · exact absurd (HasBareCR_cls hout hb) (Folded.wellFolded h1).2
  · rw [h2]

end Dkim

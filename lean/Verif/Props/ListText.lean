import Verif.Spec.ListText
import Verif.Props.Tokens
import Verif.Props.EncodedWordExact
/-!
# Property C67: colon-separated lists, for every text
-/

namespace Dkim
open Spec

theorem Spec.FwsRun.strip {a t : Bytes} (ha : AllWSP a) (h : FwsRun (a ++ t)) : FwsRun t := by
  induction a with
  | nil => exact h
  | cons w a ih =>
    have hw : Spec.isWSP w = true := ha w (by simp)
    refine ih (fun c hc => ha c (by simp [hc])) ?_
    rw [List.cons_append] at h
    generalize hx : w :: (a ++ t) = x at h
    cases h with
    | nil => cases hx
    | wsp w' r _ hr => cases hx; exact hr
    | fold w' r _ hr =>
      rw [List.cons.injEq] at hx
      rw [hx.1] at hw; exact absurd hw (by decide)

theorem Spec.FwsRun.fold_inv {t : Bytes} (h : FwsRun (CR :: LF :: t)) : ∃ w r, t = w :: r ∧ Spec.isWSP w = true ∧ FwsRun r := by
  generalize hx : CR :: LF :: t = x at h
  cases h with
  | nil => cases hx
  | wsp w r hw _ => cases hx; exact absurd hw (by decide)
  | fold w r hw hr => cases hx; exact ⟨w, r, rfl, hw, hr⟩

theorem Spec.FwsRun.head {c : Byte} {t : Bytes} (h : FwsRun (c :: t)) : Spec.isWSP c = true ∨ c = CR := by
  cases h with
  | wsp _ _ hw _ => exact .inl hw
  | fold _ _ _ _ => exact .inr rfl

theorem crOk_nil : CrOk [] := by
  intro a r h; simp at h

theorem crOk_cons {c : Byte} {s : Bytes} (hc : c ≠ CR) : CrOk (c :: s) ↔ CrOk s := by
  constructor
  · intro h a r e; exact h (c :: a) r (by rw [e]; rfl)
  · intro h a r e
    cases a with
    | nil => simp only [List.nil_append, List.cons.injEq] at e; exact absurd e.1 hc
    | cons d a => simp only [List.cons_append, List.cons.injEq] at e; exact h a r e.2

theorem crOk_cr {s : Bytes} : CrOk (CR :: LF :: s) ↔ CrOk s := by
  have : CrOk (LF :: s) ↔ CrOk s := crOk_cons (by decide)
  rw [← this]
  constructor
  · intro h a r e; exact h (CR :: a) r (by rw [e]; rfl)
  · intro h a r e
    cases a with
    | nil => simp only [List.nil_append, List.cons.injEq] at e; rw [← e.2]; rfl
    | cons d a => simp only [List.cons_append, List.cons.injEq] at e; exact h a r e.2

theorem crOk_wsp {a s : Bytes} (ha : AllWSP a) : CrOk (a ++ s) ↔ CrOk s := by
  induction a with
  | nil => rfl
  | cons w a ih =>
    rw [List.cons_append, crOk_cons, ih (fun c hc => ha c (by simp [hc]))]
    rintro rfl
    exact absurd (ha CR (by simp)) (by decide)

theorem crOk_fold {a b s : Bytes} (ha : AllWSP a) (hb : AllWSP b) : CrOk (a ++ CRLF ++ b ++ s) ↔ CrOk s := by
  rw [List.append_assoc, List.append_assoc, crOk_wsp ha]
  show CrOk (CR :: LF :: (b ++ s)) ↔ _
  rw [crOk_cr, crOk_wsp hb]

theorem not_crOk {a r : Bytes} (hr : NotHead (· == LF) r) : ¬ CrOk (a ++ CR :: r) := by
  intro h
  have := h a r rfl
  have := hr LF (by rw [this]; simp)
  simp at this

theorem split_on_byte' {c : Byte} {a a' b b' : Bytes} (ha : c ∉ a) (ha' : c ∉ a') (h : a ++ c :: b = a' ++ c :: b') : a = a' ∧ b = b' := by
  induction a generalizing a' with
  | nil =>
    cases a' with
    | nil => simp only [List.nil_append, List.cons.injEq, true_and] at h; exact ⟨rfl, h⟩
    | cons d a' =>
      simp only [List.nil_append, List.cons_append, List.cons.injEq] at h
      exact absurd (by rw [h.1]; simp) ha'
  | cons d a ih =>
    cases a' with
    | nil =>
      simp only [List.nil_append, List.cons_append, List.cons.injEq] at h
      exact absurd (by rw [← h.1]; simp) ha
    | cons d' a' =>
      simp only [List.cons_append, List.cons.injEq] at h
      simp only [List.mem_cons, not_or] at ha ha'
      obtain ⟨rfl, e⟩ := ih ha.2 ha'.2 h.2
      exact ⟨by rw [h.1], e⟩

/-- The end of a piece: the end of the text or a colon. -/
def PieceEnd (rest : Bytes) : Prop := rest = [] ∨ ∃ t, rest = COLON :: t

theorem PieceEnd.notWSP {rest : Bytes} (h : PieceEnd rest) {q : Bytes} (hq : NotHead Spec.isWSP q) : NotHead Spec.isWSP (q ++ rest) := by
  cases q with
  | nil =>
    rcases h with rfl | ⟨t, rfl⟩
    · exact hq
    · intro c hc; simp at hc; subst hc; decide
  | cons c q => intro d hd; exact hq d (by simpa using hd)

theorem PieceEnd.stop {rest : Bytes} (h : PieceEnd rest) {q : Bytes} (hq : Stop q) : Stop (q ++ rest) := by
  cases q with
  | nil =>
    rcases h with rfl | ⟨t, rfl⟩
    · exact hq
    · intro c hc; simp at hc; subst hc; decide
  | cons c q => intro d hd; exact hq d (by simpa using hd)

theorem PieceEnd.notLF {rest : Bytes} (h : PieceEnd rest) {q : Bytes} (hq : NotHead (· == LF) q) : NotHead (· == LF) (q ++ rest) := by
  cases q with
  | nil =>
    rcases h with rfl | ⟨t, rfl⟩
    · exact hq
    · intro c hc; simp at hc; subst hc; decide
  | cons c q => intro d hd; exact hq d (by simpa using hd)

theorem withoutTail_all {seg : Bytes} (h : FwsRun seg) : WithoutTail seg [] :=
  ⟨seg, rfl, h, fun p q e hq => absurd (List.append_eq_nil_iff.1 e.symm).2 hq⟩

/-- Prepending a text none of whose ends is joined to what follows. -/
theorem WithoutTail.prepend {x seg v : Bytes} (h : WithoutTail seg v) (hv : ∀ x1 x2, x = x1 ++ x2 → x2 ≠ [] → ¬ FwsRun (x2 ++ seg)) :
    WithoutTail (x ++ seg) (x ++ v) := by
  obtain ⟨post, rfl, hp, hm⟩ := h
  refine ⟨post, by rw [List.append_assoc], hp, ?_⟩
  intro p q e hq
  rcases List.append_eq_append_iff.1 e with ⟨y, e1, e2⟩ | ⟨y, e1, e2⟩
  · -- p = x ++ y, v = y ++ q
    exact hm y q e2 hq
  · -- x = p ++ y, q = y ++ v
    subst e2
    by_cases hy : y = []
    · subst hy; exact hm [] _ (by simp) (by simpa using hq)
    · rw [List.append_assoc]; exact hv p y e1 hy

/-- A fold, or white space, followed by something that is no run, is none. -/
theorem fws_suffix_not {x seg x1 x2 : Bytes} (hx : IsFWS x) (e : x = x1 ++ x2) (hs : ¬ FwsRun seg) : ¬ FwsRun (x2 ++ seg) := by
  intro h
  apply hs
  rcases hx with ha | ⟨a, b, ha, hb, hne, rfl⟩
  · exact FwsRun.strip (fun c hc => ha c (by rw [e]; simp [hc])) h
  · have hbs : ∀ y z, b = y ++ z → FwsRun (z ++ seg) → FwsRun seg :=
      fun y z e h => FwsRun.strip (fun c hc => hb c (by rw [e]; simp [hc])) h
    have hcr : FwsRun (CR :: LF :: (b ++ seg)) → FwsRun seg := by
      intro h
      obtain ⟨w, r, e, hw, hr⟩ := FwsRun.fold_inv h
      exact hbs [] b rfl (by rw [e]; exact .wsp w r hw hr)
    rw [List.append_assoc] at e
    rcases List.append_eq_append_iff.1 e with ⟨y, e1, e2⟩ | ⟨y, e1, e2⟩
    · -- CRLF ++ b = y ++ x2
      cases y with
      | nil =>
        simp only [List.nil_append] at e2
        subst e2
        exact hcr h
      | cons c y =>
        have e2 : CR :: LF :: b = c :: (y ++ x2) := e2
        simp only [List.cons.injEq] at e2
        cases y with
        | nil =>
          obtain ⟨_, e2⟩ := e2
          rw [List.nil_append] at e2
          subst e2
          exact absurd h.head (by decide)
        | cons d y =>
          simp only [List.cons_append, List.cons.injEq] at e2
          exact hbs y x2 e2.2.2 h
    · -- a = x1 ++ y, x2 = y ++ (CRLF ++ b)
      subst e2
      have : AllWSP y := fun c hc => ha c (by rw [e1]; simp [hc])
      rw [List.append_assoc] at h
      have := FwsRun.strip this h
      exact hcr (by simpa [CRLF] using this)

/-- One value, read up to the end of the piece. -/
theorem valueLoop_exact (n : Nat) : ∀ (seg rest buf val : Bytes), (seg ++ rest).length < n → COLON ∉ seg → PieceEnd rest →
    (CrOk seg → ∃ u, WithoutTail seg u ∧ valueLoop n buf val (seg ++ rest) = .ok (if u = [] then val else val ++ buf ++ u, rest)) ∧
    (¬ CrOk seg → ∃ e, valueLoop n buf val (seg ++ rest) = .error e) := by
  induction n with
  | zero => intro seg rest buf val h; omega
  | succ n ih =>
    intro seg rest buf val hn hcol hr
    rw [valueLoop]
    -- a single byte is read
    have single : ∀ c seg', seg = c :: seg' → readFWS (seg ++ rest) = .ok ([], seg ++ rest) → (CrOk seg ↔ CrOk seg') → ¬ FwsRun seg →
        ((CrOk seg → ∃ u, WithoutTail seg u ∧ (match readFWS (seg ++ rest) with
          | .error e => .error e
          | .ok (ws, r) => if ws.isEmpty = true then (match r with
            | [] => .ok (val, [])
            | c :: r' => if c = COLON then .ok (val, c :: r') else valueLoop n [] (val ++ buf ++ [c]) r') else valueLoop n (buf ++ ws) val r) =
              (.ok (if u = [] then val else val ++ buf ++ u, rest) : Except Err _)) ∧
        (¬ CrOk seg → ∃ e, (match readFWS (seg ++ rest) with
          | .error e => .error e
          | .ok (ws, r) => if ws.isEmpty = true then (match r with
            | [] => .ok (val, [])
            | c :: r' => if c = COLON then .ok (val, c :: r') else valueLoop n [] (val ++ buf ++ [c]) r') else valueLoop n (buf ++ ws) val r) =
              (.error e : Except Err (Bytes × Bytes)))) := by
      intro c seg' e hf hcr hnr
      subst e
      rw [hf]
      simp only [List.isEmpty_nil, if_true, List.cons_append]
      simp only [List.mem_cons, not_or] at hcol
      rw [if_neg (fun e => hcol.1 e.symm)]
      obtain ⟨i1, i2⟩ := ih seg' rest [] (val ++ buf ++ [c]) (by simpa using hn) hcol.2 hr
      constructor
      · intro h
        obtain ⟨u, hu, e⟩ := i1 (hcr.1 h)
        refine ⟨c :: u, ?_, ?_⟩
        · refine WithoutTail.prepend (x := [c]) hu ?_
          intro x1 x2 e hx2
          cases x1 with
          | nil => rw [List.nil_append] at e; rw [← e]; exact hnr
          | cons d x1 =>
            simp only [List.cons_append, List.cons.injEq] at e
            exact absurd (List.append_eq_nil_iff.1 e.2.symm).2 hx2
        · rw [e]
          by_cases hu0 : u = []
          · subst hu0; simp
          · simp [hu0]
      · intro h
        exact i2 (fun h' => h (hcr.2 h'))
    -- folding white space is read
    have fws : ∀ x seg', seg = x ++ seg' → x ≠ [] → IsFWS x → readFWS (seg ++ rest) = .ok (x, seg' ++ rest) → (CrOk seg ↔ CrOk seg') →
        ((CrOk seg → ∃ u, WithoutTail seg u ∧ (match readFWS (seg ++ rest) with
          | .error e => .error e
          | .ok (ws, r) => if ws.isEmpty = true then (match r with
            | [] => .ok (val, [])
            | c :: r' => if c = COLON then .ok (val, c :: r') else valueLoop n [] (val ++ buf ++ [c]) r') else valueLoop n (buf ++ ws) val r) =
              (.ok (if u = [] then val else val ++ buf ++ u, rest) : Except Err _)) ∧
        (¬ CrOk seg → ∃ e, (match readFWS (seg ++ rest) with
          | .error e => .error e
          | .ok (ws, r) => if ws.isEmpty = true then (match r with
            | [] => .ok (val, [])
            | c :: r' => if c = COLON then .ok (val, c :: r') else valueLoop n [] (val ++ buf ++ [c]) r') else valueLoop n (buf ++ ws) val r) =
              (.error e : Except Err (Bytes × Bytes)))) := by
      intro x seg' e hx hfx hf hcr
      subst e
      rw [hf]
      simp only [List.isEmpty_iff, hx, if_false]
      have hl : 0 < x.length := List.length_pos_iff.2 hx
      obtain ⟨i1, i2⟩ := ih seg' rest (buf ++ x) val (by simp at hn ⊢; omega) (fun h => hcol (by simp [h])) hr
      constructor
      · intro h
        obtain ⟨u, hu, e⟩ := i1 (hcr.1 h)
        by_cases hu0 : u = []
        · subst hu0
          refine ⟨[], ?_, by rw [e]; simp⟩
          obtain ⟨post, e1, e2, _⟩ := hu
          rw [List.nil_append] at e1
          exact withoutTail_all ((FwsRun.of_isFWS hfx).append (e1 ▸ e2))
        · refine ⟨x ++ u, ?_, by rw [e]; simp [hu0, hx]⟩
          refine WithoutTail.prepend hu ?_
          intro x1 x2 e hx2
          refine fws_suffix_not hfx e ?_
          obtain ⟨post, e1, e2, e3⟩ := hu
          rw [e1]; exact e3 [] u rfl hu0
      · intro h
        exact i2 (fun h' => h (hcr.2 h'))
    rcases readFWS_cases seg with ⟨a, q, e, ha, hq⟩ | ⟨a, b, q, e, ha, hb, hne, hq⟩ | ⟨a, q, e, ha, hq⟩ | ⟨a, q, e, ha, hq⟩
    · have hf : readFWS (seg ++ rest) = .ok (a, q ++ rest) := by
        rw [e, List.append_assoc]; exact readFWS_plain ha (hr.stop hq)
      by_cases ha0 : a = []
      · subst ha0
        cases q with
        | nil =>
          rw [List.nil_append] at e
          subst e
          rw [hf]
          refine ⟨fun _ => ⟨[], withoutTail_all .nil, ?_⟩, fun h => absurd crOk_nil h⟩
          rcases hr with rfl | ⟨t, rfl⟩ <;> simp
        | cons c q =>
          rw [List.nil_append] at e
          have hc : Spec.isWSP c = false ∧ c ≠ CR := by
            have := hq c (by simp)
            simpa using this
          refine single c q e (by rw [hf, e]) (by rw [e]; exact crOk_cons hc.2) ?_
          intro h
          rw [e] at h
          rcases h.head with h | h
          · rw [hc.1] at h; cases h
          · exact hc.2 h
      · exact fws a q e ha0 (.inl ha) hf (by rw [e]; exact crOk_wsp ha)
    · refine fws (a ++ CRLF ++ b) q (by rw [e]) (by simp [CRLF]) (.inr ⟨a, b, ha, hb, hne, rfl⟩) ?_ (by rw [e]; exact crOk_fold ha hb)
      rw [e, List.append_assoc]; exact readFWS_fold ha hb hne (hr.notWSP hq)
    · have hf : readFWS (seg ++ rest) = .ok ([], seg ++ rest) := by
        rw [e, List.append_assoc]; exact readFWS_unwind ha (hr.notWSP hq)
      have hno : ∀ x, AllWSP x → ¬ FwsRun (x ++ CRLF ++ q) := by
        intro x hx h
        rw [List.append_assoc] at h
        obtain ⟨w, r, rfl, hw, _⟩ := FwsRun.fold_inv (FwsRun.strip hx h)
        have := hq w (by simp)
        rw [Spec.isWSP_eq] at hw
        rw [hw] at this; cases this
      cases a with
      | nil =>
        refine single CR (LF :: q) (by rw [e]; rfl) hf (by rw [e]; show CrOk (CR :: LF :: q) ↔ _; rw [crOk_cr, crOk_cons (by decide)]) ?_
        rw [e]; exact hno [] ha
      | cons w a =>
        have hw : Spec.isWSP w = true := ha w (by simp)
        refine single w (a ++ CRLF ++ q) (by rw [e]; simp) hf ?_ ?_
        · rw [e]
          simp only [List.cons_append]
          refine crOk_cons ?_
          rintro rfl
          exact absurd hw (by decide)
        · rw [e]; exact hno _ ha
    · have hf : ∃ e, readFWS (seg ++ rest) = .error e := by
        rw [e, List.append_assoc]; exact ⟨_, readFWS_bad ha (hr.notLF hq)⟩
      obtain ⟨er, hf⟩ := hf
      rw [hf]
      have : ¬ CrOk seg := by rw [e]; exact not_crOk hq
      exact ⟨fun h => absurd h this, fun _ => ⟨er, rfl⟩⟩

/-- Leading white space, up to the end of the piece. -/
theorem skip_exact (n : Nat) : ∀ (seg rest : Bytes), (seg ++ rest).length < n → PieceEnd rest →
    (CrOk seg → ∃ b r, AfterFWS seg r ∧ CrOk r ∧ r <:+ seg ∧ skipFWS n (seg ++ rest) = .ok (b, r ++ rest)) ∧
    (¬ CrOk seg → (∃ e, skipFWS n (seg ++ rest) = .error e) ∨ ∃ b r, ¬ CrOk r ∧ r <:+ seg ∧ skipFWS n (seg ++ rest) = .ok (b, r ++ rest)) := by
  induction n with
  | zero => intro seg rest h; omega
  | succ n ih =>
    intro seg rest hn hr
    rw [skipFWS]
    have fws : ∀ x seg', seg = x ++ seg' → x ≠ [] → ReadsFWS seg x seg' → readFWS (seg ++ rest) = .ok (x, seg' ++ rest) →
        (CrOk seg ↔ CrOk seg') →
        ((CrOk seg → ∃ b r, AfterFWS seg r ∧ CrOk r ∧ r <:+ seg ∧ (match readFWS (seg ++ rest) with
          | .error e => .error e
          | .ok (w, r) => if w.isEmpty = true then .ok (false, r) else match skipFWS n r with
            | .error e => .error e
            | .ok (_, r') => .ok (true, r')) = (.ok (b, r ++ rest) : Except Err _)) ∧
        (¬ CrOk seg → (∃ e, (match readFWS (seg ++ rest) with
          | .error e => .error e
          | .ok (w, r) => if w.isEmpty = true then .ok (false, r) else match skipFWS n r with
            | .error e => .error e
            | .ok (_, r') => .ok (true, r')) = (.error e : Except Err (Bool × Bytes))) ∨ ∃ b r, ¬ CrOk r ∧ r <:+ seg ∧ (match readFWS (seg ++ rest) with
          | .error e => .error e
          | .ok (w, r) => if w.isEmpty = true then .ok (false, r) else match skipFWS n r with
            | .error e => .error e
            | .ok (_, r') => .ok (true, r')) = (.ok (b, r ++ rest) : Except Err _))) := by
      intro x seg' e hx hrd hf hcr
      rw [hf]
      simp only [List.isEmpty_iff, hx, if_false]
      have hl : 0 < x.length := List.length_pos_iff.2 hx
      have hsuf : ∀ r, r <:+ seg' → r <:+ seg := fun r h => h.trans (by rw [e]; exact List.suffix_append _ _)
      obtain ⟨i1, i2⟩ := ih seg' rest (by rw [e] at hn; simp at hn ⊢; omega) hr
      constructor
      · intro h
        obtain ⟨b, r, h1, h2, h3, h4⟩ := i1 (hcr.1 h)
        exact ⟨true, r, .step _ x _ _ hrd hx h1, h2, hsuf r h3, by rw [h4]⟩
      · intro h
        rcases i2 (fun h' => h (hcr.2 h')) with ⟨e, he⟩ | ⟨b, r, h1, h2, h3⟩
        · exact .inl ⟨e, by rw [he]⟩
        · exact .inr ⟨true, r, h1, hsuf r h2, by rw [h3]⟩
    have stop : ReadsFWS seg [] seg → readFWS (seg ++ rest) = .ok ([], seg ++ rest) →
        ((CrOk seg → ∃ b r, AfterFWS seg r ∧ CrOk r ∧ r <:+ seg ∧ (match readFWS (seg ++ rest) with
          | .error e => .error e
          | .ok (w, r) => if w.isEmpty = true then .ok (false, r) else match skipFWS n r with
            | .error e => .error e
            | .ok (_, r') => .ok (true, r')) = (.ok (b, r ++ rest) : Except Err _)) ∧
        (¬ CrOk seg → (∃ e, (match readFWS (seg ++ rest) with
          | .error e => .error e
          | .ok (w, r) => if w.isEmpty = true then .ok (false, r) else match skipFWS n r with
            | .error e => .error e
            | .ok (_, r') => .ok (true, r')) = (.error e : Except Err (Bool × Bytes))) ∨ ∃ b r, ¬ CrOk r ∧ r <:+ seg ∧ (match readFWS (seg ++ rest) with
          | .error e => .error e
          | .ok (w, r) => if w.isEmpty = true then .ok (false, r) else match skipFWS n r with
            | .error e => .error e
            | .ok (_, r') => .ok (true, r')) = (.ok (b, r ++ rest) : Except Err _))) := by
      intro hrd hf
      rw [hf]
      exact ⟨fun h => ⟨false, seg, .stop _ hrd, h, List.suffix_refl _, rfl⟩, fun h => .inr ⟨false, seg, h, List.suffix_refl _, rfl⟩⟩
    rcases readFWS_cases seg with ⟨a, q, e, ha, hq⟩ | ⟨a, b, q, e, ha, hb, hne, hq⟩ | ⟨a, q, e, ha, hq⟩ | ⟨a, q, e, ha, hq⟩
    · have hf : readFWS (seg ++ rest) = .ok (a, q ++ rest) := by
        rw [e, List.append_assoc]; exact readFWS_plain ha (hr.stop hq)
      have hrd : ReadsFWS seg a q := by rw [e]; exact .plain _ _ ha hq
      by_cases ha0 : a = []
      · subst ha0
        rw [List.nil_append] at e
        subst e
        exact stop hrd hf
      · exact fws a q e ha0 hrd hf (by rw [e]; exact crOk_wsp ha)
    · refine fws (a ++ CRLF ++ b) q (by rw [e]) (by simp [CRLF]) (by rw [e]; exact .fold _ _ _ ha hb hne hq) ?_ (by rw [e]; exact crOk_fold ha hb)
      rw [e, List.append_assoc]; exact readFWS_fold ha hb hne (hr.notWSP hq)
    · have hf : readFWS (seg ++ rest) = .ok ([], seg ++ rest) := by
        rw [e, List.append_assoc]; exact readFWS_unwind ha (hr.notWSP hq)
      exact stop (by rw [e]; exact .unwind _ _ ha hq) hf
    · have hf : ∃ e, readFWS (seg ++ rest) = .error e := by
        rw [e, List.append_assoc]; exact ⟨_, readFWS_bad ha (hr.notLF hq)⟩
      obtain ⟨er, hf⟩ := hf
      rw [hf]
      have : ¬ CrOk seg := by rw [e]; exact not_crOk hq
      exact ⟨fun h => absurd h this, fun _ => .inl ⟨er, rfl⟩⟩

theorem afterFWS_det {s r r' : Bytes} (h : AfterFWS s r) (h' : AfterFWS s r') : r = r' := by
  obtain ⟨b, e⟩ := (skipFWS_iff (s.length + 1) s r (by omega)).2 h
  obtain ⟨b', e'⟩ := (skipFWS_iff (s.length + 1) s r' (by omega)).2 h'
  rw [e] at e'; cases e'; rfl

theorem withoutTail_det {s v v' : Bytes} (h : WithoutTail s v) (h' : WithoutTail s v') : v = v' := by
  obtain ⟨p, e, hp, hm⟩ := h
  obtain ⟨p', e', hp', hm'⟩ := h'
  rw [e] at e'
  rcases List.append_eq_append_iff.1 e' with ⟨y, e1, e2⟩ | ⟨y, e1, e2⟩
  · by_cases hy : y = []
    · subst hy; simp [e1]
    · exact absurd (e2 ▸ hp) (hm' v y e1 hy)
  · by_cases hy : y = []
    · subst hy; simp [e1]
    · exact absurd (e2 ▸ hp') (hm v' y e1 hy)

theorem afterFWS_run {w : Bytes} : AfterFWS w [] ↔ FwsRun w := by
  constructor
  · intro h
    generalize hr : ([] : Bytes) = r at h
    induction h with
    | stop s h => subst hr; exact .nil
    | step s w r r' h1 h2 _ ih =>
      obtain ⟨e, hw⟩ := readFWS_ok ((C08_fws_exact _ _ _).2 h1)
      rw [e]; exact (FwsRun.of_isFWS hw).append (ih hr)
  · intro h
    obtain ⟨b, e⟩ : ∃ b, skipFWS (w.length + 1) w = .ok (b, []) := by
      have := skipFWS_run h (t := []) (by simp [Stop, NotHead]) (w.length + 1) (by omega)
      rw [List.append_nil] at this
      exact ⟨_, this⟩
    exact (skipFWS_iff _ _ _ (by omega)).1 ⟨b, e⟩

/-- The first piece of a text. -/
theorem first_piece (s : Bytes) : ∃ seg rest, s = seg ++ rest ∧ COLON ∉ seg ∧ PieceEnd rest := by
  induction s with
  | nil => exact ⟨[], [], rfl, by simp, .inl rfl⟩
  | cons c s ih =>
    by_cases hc : c = COLON
    · exact ⟨[], c :: s, rfl, by simp, .inr ⟨s, by rw [hc]⟩⟩
    · obtain ⟨seg, rest, e, h1, h2⟩ := ih
      exact ⟨c :: seg, rest, by rw [e]; rfl, by simp only [List.mem_cons, not_or]; exact ⟨fun e => hc e.symm, h1⟩, h2⟩

theorem fwsRun_crOk {w : Bytes} (h : FwsRun w) : CrOk w := by
  induction h with
  | nil => exact crOk_nil
  | wsp w r hw _ ih =>
    refine (crOk_cons ?_).2 ih
    rintro rfl; exact absurd hw (by decide)
  | fold w r hw _ ih =>
    refine crOk_cr.2 ((crOk_cons ?_).2 ih)
    rintro rfl; exact absurd hw (by decide)

theorem listText_inv {seg rest : Bytes} {vs : List Bytes} (hs : COLON ∉ seg) (hr : PieceEnd rest) (h : ListText (seg ++ rest) vs) :
    (rest = [] ∧ FwsRun seg ∧ vs = []) ∨ (∃ v, rest = [] ∧ ValueText seg v ∧ vs = [v]) ∨
    ∃ v t vs', rest = COLON :: t ∧ ValueText seg v ∧ ListText t vs' ∧ vs = v :: vs' := by
  have norest : COLON ∉ seg ++ rest → rest = [] := by
    intro h
    rcases hr with h' | ⟨t, rfl⟩
    · exact h'
    · exact absurd (by simp) h
  generalize hx : seg ++ rest = x at h
  cases h with
  | done _ hw =>
    have := norest (by rw [hx]; exact hw.no_colon)
    subst this
    rw [List.append_nil] at hx
    exact .inl ⟨rfl, hx ▸ hw, rfl⟩
  | last _ v hv =>
    have := norest (by rw [hx]; exact hv.piece)
    subst this
    rw [List.append_nil] at hx
    exact .inr (.inl ⟨v, rfl, hx ▸ hv, rfl⟩)
  | cons seg' v t vs' hv ht =>
    rcases hr with rfl | ⟨t', rfl⟩
    · exact absurd (by rw [← List.append_nil seg, hx]; simp) hs
    · obtain ⟨rfl, rfl⟩ := split_on_byte' hs hv.piece hx
      exact .inr (.inr ⟨v, t', vs', rfl, hv, ht, rfl⟩)

theorem valueListLoop_iff (n : Nat) : ∀ (s : Bytes) (vs : List Bytes), s.length < n → (valueListLoop n s = .ok vs ↔ ListText s vs) := by
  induction n with
  | zero => intro s vs h; omega
  | succ n ih =>
    intro s vs hn
    obtain ⟨seg, rest, rfl, hs, hr⟩ := first_piece s
    rw [valueListLoop]
    obtain ⟨k1, k2⟩ := skip_exact ((seg ++ rest).length + 1) seg rest (by omega) hr
    by_cases hc : CrOk seg
    · obtain ⟨b, r, h1, h2, h3, h4⟩ := k1 hc
      rw [h4]
      by_cases hr0 : r ++ rest = []
      · obtain ⟨rfl, rfl⟩ := List.append_eq_nil_iff.1 hr0
        simp only [List.append_nil]
        have hrun : FwsRun seg := afterFWS_run.1 h1
        constructor
        · intro h; cases h; exact .done _ hrun
        · intro h
          rcases listText_inv (rest := []) hs hr (by simpa using h) with ⟨_, _, rfl⟩ | ⟨v, _, hv, rfl⟩ | ⟨v, t, vs', e, _⟩
          · rfl
          · obtain ⟨s', hs', hw⟩ := hv.value
            have := afterFWS_det h1 hs'
            subst this
            obtain ⟨p, e, _, _⟩ := hw
            exact absurd (List.append_eq_nil_iff.1 e.symm).1 hv.nonempty
          · cases e
      · obtain ⟨c, q, hcq⟩ : ∃ c q, r ++ rest = c :: q := by
          cases hx : r ++ rest with
          | nil => exact absurd hx hr0
          | cons c q => exact ⟨c, q, rfl⟩
        have hrs : COLON ∉ r := fun h => hs (h3.subset h)
        obtain ⟨u, hu, hv⟩ := (valueLoop_exact ((r ++ rest).length + 1) r rest [] [] (by omega) hrs hr).1 h2
        rw [hcq]
        simp only
        rw [← hcq, hv]
        simp only [List.nil_append]
        have hu' : (if u = [] then ([] : Bytes) else u) = u := by split <;> simp_all
        rw [hu']
        by_cases hu0 : u = []
        · subst hu0
          simp only [List.isEmpty_nil, if_true]
          constructor
          · intro h; cases h
          · intro h
            exfalso
            have novalue : ∀ v, ¬ ValueText seg v := by
              intro v hv
              obtain ⟨s', hs', hw⟩ := hv.value
              have := afterFWS_det h1 hs'
              subst this
              exact hv.nonempty (withoutTail_det hu hw).symm
            rcases listText_inv hs hr h with ⟨rfl, hrun, _⟩ | ⟨v, _, hv, _⟩ | ⟨v, t, vs', _, hv, _⟩
            · have := afterFWS_det h1 (afterFWS_run.2 hrun)
              subst this
              exact hr0 rfl
            · exact novalue v hv
            · exact novalue v hv
        · rw [if_neg (by simpa using hu0)]
          have hval : ValueText seg u := ⟨hs, hc, ⟨r, h1, hu⟩, hu0⟩
          have uniq : ∀ v, ValueText seg v → v = u := by
            intro v hv
            obtain ⟨s', hs', hw⟩ := hv.value
            have := afterFWS_det h1 hs'
            subst this
            exact withoutTail_det hw hu
          have norun : ¬ FwsRun seg := by
            intro hrun
            have := afterFWS_det h1 (afterFWS_run.2 hrun)
            subst this
            obtain ⟨p, e, _, _⟩ := hu
            exact hu0 (List.append_eq_nil_iff.1 e.symm).1
          rcases hr with rfl | ⟨t, rfl⟩
          · simp only
            constructor
            · intro h; cases h; rw [List.append_nil]; exact .last _ _ hval
            · intro h
              rcases listText_inv hs (.inl rfl) h with ⟨_, hrun, _⟩ | ⟨v, _, hv, rfl⟩ | ⟨v, t, vs', e, _⟩
              · exact absurd hrun norun
              · rw [uniq v hv]
              · cases e
          · simp only
            have hi := ih t
            constructor
            · intro h
              cases hx : valueListLoop n t with
              | error e => rw [hx] at h; cases h
              | ok vs' =>
                rw [hx] at h
                cases h
                exact .cons _ _ _ _ hval ((hi vs' (by simp at hn; omega)).1 hx)
            · intro h
              rcases listText_inv hs (.inr ⟨t, rfl⟩) h with ⟨e, _⟩ | ⟨v, e, _⟩ | ⟨v, t', vs', e, hv, ht, rfl⟩
              · cases e
              · cases e
              · cases e
                rw [(hi vs' (by simp at hn; omega)).2 ht, uniq v hv]
    · have fail : ∀ vs', ¬ ListText (seg ++ rest) vs' := by
        intro vs' h
        rcases listText_inv hs hr h with ⟨_, hrun, _⟩ | ⟨v, _, hv, _⟩ | ⟨v, t, vs', _, hv, _⟩
        · exact hc (fwsRun_crOk hrun)
        · exact hc hv.cr
        · exact hc hv.cr
      rcases k2 hc with ⟨e, he⟩ | ⟨b, r, h2, h3, h4⟩
      · rw [he]
        exact ⟨fun h => (by cases h), fun h => absurd h (fail _)⟩
      · rw [h4]
        have hr0 : r ++ rest ≠ [] := by
          intro h
          rw [(List.append_eq_nil_iff.1 h).1] at h2
          exact h2 crOk_nil
        obtain ⟨c, q, hcq⟩ : ∃ c q, r ++ rest = c :: q := by
          cases hx : r ++ rest with
          | nil => exact absurd hx hr0
          | cons c q => exact ⟨c, q, rfl⟩
        have hrs : COLON ∉ r := fun h => hs (h3.subset h)
        obtain ⟨e, hv⟩ := (valueLoop_exact ((r ++ rest).length + 1) r rest [] [] (by omega) hrs hr).2 h2
        rw [hcq]
        simp only
        rw [← hcq, hv]
        exact ⟨fun h => (by cases h), fun h => absurd h (fail _)⟩

/-- C67: `ValueList` accepts exactly the specified texts and returns their values. -/
theorem C67_list_iff (s : Bytes) (vs : List Bytes) : valueList s = .ok vs ↔ ListText s vs := valueListLoop_iff _ s vs (by omega)

/-- C67: every other text is a permanent error. -/
theorem C67_otherwise_error (s : Bytes) (h : ∀ vs, ¬ ListText s vs) : ∃ r, valueList s = .error (.p r) := by
  cases hd : valueList s with
  | ok o => exact absurd ((C67_list_iff s o).1 hd) (h o)
  | error e =>
    obtain ⟨r, hr⟩ := valueList_perm s e hd
    exact ⟨r, by rw [hr]⟩

/-- C67: a text stands for at most one list. -/
theorem C67_unique (s : Bytes) (vs vs' : List Bytes) (h : ListText s vs) (h' : ListText s vs') : vs = vs' := by
  have a := (C67_list_iff s vs).2 h
  have b := (C67_list_iff s vs').2 h'
  rw [a] at b; cases b; rfl

/-- A folded list, a list with an empty value, and a list in which a line break belongs to a value. -/
theorem listText_example : ListText b!"from :\r\n\tto: x y ; z :" [b!"from", b!"to", b!"x y ; z"] ∧
    (∀ vs, ¬ ListText b!"from::to" vs) ∧ ListText b!"a \r\nb" [b!"a \r\nb"] := by
  refine ⟨(C67_list_iff _ _).1 (by decide +kernel), ?_, (C67_list_iff _ _).1 (by decide +kernel)⟩
  intro vs h
  have := (C67_list_iff _ _).2 h
  have e : valueList b!"from::to" = .error (.p .emptyListValue) := by decide +kernel
  rw [e] at this; cases this

end Dkim

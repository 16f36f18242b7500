import Verif.Props.AddressText
/-!
# Property C82: recursion depth
-/

namespace Dkim
open Spec

/-- How many quotation marks and backslashes a text contains. -/
def Spec.marks (s : Bytes) : Nat := (s.filter (fun c => c == 34 || c == 92)).length

theorem marks_append (a b : Bytes) : marks (a ++ b) = marks a + marks b := by
  unfold marks; rw [List.filter_append, List.length_append]

theorem marks_cons (c : Byte) (s : Bytes) : marks (c :: s) = marks [c] + marks s := marks_append [c] s

theorem marks_le_length (s : Bytes) : marks s ≤ s.length := List.length_filter_le _ _

/-- A quotation mark or a backslash in the content takes two marks in the text. -/
theorem quoted_marks {sc : Bool} {content text : Bytes} (h : Quoted sc content text) : 2 * marks content ≤ marks text := by
  induction h with
  | nil => exact Nat.le_refl _
  | plain c content text h1 h2 _ _ ih =>
    have : marks [c] = 0 := by simp [marks, h1, h2]
    rw [marks_cons, marks_cons c text, this]; omega
  | escaped c content text _ ih =>
    rw [marks_cons, marks_cons 92, marks_cons c text]
    have h1 : marks [c] ≤ 1 := marks_le_length [c]
    have h2 : marks [92] = 1 := rfl
    omega

theorem commentStep_marks (d : Nat) (s : Bytes) : marks (commentStep d s).2.2 ≤ marks s := by
  unfold commentStep
  cases s with
  | nil => exact Nat.le_refl _
  | cons c r =>
    have := marks_cons c r
    dsimp only
    generalize (if c = 40 then d + 1 else if c = 41 then d - 1 else d) = k
    by_cases hk : k > 0
    · rw [if_pos hk]; dsimp only; omega
    · rw [if_neg hk]; dsimp only; omega

theorem commentLoop_marks (n d : Nat) (tok s t r : Bytes) (h : commentLoop n d tok s = .ok (t, r)) : marks r ≤ marks s := by
  induction n generalizing d tok s with
  | zero => cases h
  | succ n ih =>
    rw [commentLoop.eq_def] at h
    dsimp only at h
    split at h
    · cases h; exact Nat.le_refl _
    · cases s with
      | nil => cases h
      | cons c s =>
        dsimp only at h
        split at h
        · cases s with
          | nil => cases h
          | cons e s =>
            have h1 : marks r ≤ marks (commentStep d s).2.2 := ih _ _ _ h
            have h2 := commentStep_marks d s
            rw [marks_cons, marks_cons e]; omega
        · have h1 : marks r ≤ marks (commentStep d (c :: s)).2.2 := ih _ _ _ h
          have h2 := commentStep_marks d (c :: s)
          omega

theorem nextTok_marks (sc : Bool) (n : Nat) (tok s : Bytes) (ty : AddrTok) (t r : Bytes)
    (h : nextTok sc n tok s = .ok (ty, t, r)) : marks r ≤ marks s ∧ (ty = .quoted → 2 * marks t + 2 ≤ marks s) := by
  induction n generalizing tok s with
  | zero => cases h
  | succ n ih =>
    rw [nextTok] at h
    have hdone : ∀ rr : Bytes, marks rr ≤ marks s →
        (if tok.isEmpty then .ok (.eof, [], rr) else .ok (.atom, tok, rr) : Except Err (AddrTok × Bytes × Bytes)) = .ok (ty, t, r) →
        marks r ≤ marks s ∧ (ty = .quoted → 2 * marks t + 2 ≤ marks s) := by
      intro rr hle hr
      split at hr <;> cases hr <;> exact ⟨hle, by simp⟩
    have h0 : marks [] ≤ marks s := Nat.zero_le _
    dsimp only at h
    split at h
    · exact hdone [] h0 h
    · cases hf : readFWS s with
      | error e => rw [hf] at h; cases h
      | ok p =>
        obtain ⟨ws, s1⟩ := p
        rw [hf] at h
        have hs : s = ws ++ s1 := (readFWS_ok hf).1
        have hm : marks s1 ≤ marks s := by rw [hs, marks_append]; omega
        dsimp only at h
        split at h
        · exact hdone s1 hm h
        · cases s1 with
          | nil => exact hdone [] h0 h
          | cons c q =>
            have hc := marks_cons c q
            have one : ∀ (ty0 : AddrTok) (t0 : Bytes) (r0 : Bytes), ty0 ≠ .quoted → marks r0 ≤ marks s →
                (.ok (ty0, t0, r0) : Except Err (AddrTok × Bytes × Bytes)) = .ok (ty, t, r) →
                marks r ≤ marks s ∧ (ty = .quoted → 2 * marks t + 2 ≤ marks s) := by
              intro ty0 t0 r0 hq hr e
              cases e
              exact ⟨hr, fun h => absurd h hq⟩
            dsimp only at h
            split at h
            · split at h
              · exact one _ _ _ (by simp) hm h
              · cases hq : quotedLoop sc [] q with
                | error e => rw [hq] at h; cases h
                | ok p =>
                  obtain ⟨t', r'⟩ := p
                  rw [hq] at h
                  cases h
                  obtain ⟨content, text, e, hQ, ht⟩ := (quotedLoop_iff _ _ _ _ _).1 hq
                  have hl := quoted_marks hQ
                  rename_i hc34 _
                  subst hc34
                  have h34 : marks [34] = 1 := rfl
                  have hc2 := marks_cons 34 r
                  have hc3 : marks q = marks text + marks (34 :: r) := by rw [e, marks_append]
                  rw [List.nil_append] at ht
                  subst ht
                  refine ⟨by omega, fun _ => by omega⟩
            · split at h
              · split at h
                · exact one _ _ _ (by simp) hm h
                · cases hq : commentLoop (q.length + 2) 1 [] q with
                  | error e => rw [hq] at h; cases h
                  | ok p =>
                    obtain ⟨t', r'⟩ := p
                    rw [hq] at h
                    have := commentLoop_marks _ _ _ _ _ _ hq
                    exact one _ _ _ (by simp) (by omega) h
              · split at h
                · split at h
                  · exact one _ _ _ (by simp) hm h
                  · exact one _ _ _ (by simp) (by omega) h
                · split at h
                  · split at h
                    · exact one _ _ _ (by simp) hm h
                    · exact one _ _ _ (by simp) (by omega) h
                  · split at h
                    · split at h
                      · exact one _ _ _ (by simp) hm h
                      · exact one _ _ _ (by simp) (by omega) h
                    · obtain ⟨g1, g2⟩ := ih _ _ h
                      exact ⟨by omega, fun hq => by have := g2 hq; omega⟩

/-- The last token, if quoted, is in `P`. -/
def LastQuoted (P : Bytes → Prop) (st : AddrSt) : Prop := st.type = .quoted → ∃ t, st.tokens.getLast? = some t ∧ P t

theorem addrSwitch_same (rec rec' : Bytes → Except Err (List Bytes)) (P : Bytes → Prop) (hrec : ∀ t, P t → rec t = rec' t)
    (a : AddrSt) (t : Bytes) (ty : AddrTok) (ha : LastQuoted P a) (ht : ty = .quoted → P t) :
    addrSwitch rec { a with last := a.type, type := ty } t = addrSwitch rec' { a with last := a.type, type := ty } t ∧
    ∀ a', addrSwitch rec { a with last := a.type, type := ty } t = .ok a' → LastQuoted P a' := by
  obtain ⟨l, tk, o, la, ty1⟩ := a
  have flush : (ty = .tagClose ∨ ty = .separator ∨ ty = .eof) →
      addrSwitch rec ⟨l, tk, o, ty1, ty⟩ t = addrSwitch rec' ⟨l, tk, o, ty1, ty⟩ t ∧
      ∀ a', addrSwitch rec ⟨l, tk, o, ty1, ty⟩ t = .ok a' → LastQuoted P a' := fun hf => by
    have nq : ty ≠ .quoted := by rcases hf with rfl | rfl | rfl <;> simp
    have inv : ∀ st : AddrSt, st.type = ty → LastQuoted P st := fun st hst hq => absurd (hst ▸ hq) nq
    unfold addrSwitch
    rcases hf with rfl | rfl | rfl <;> dsimp only
    all_goals
      split
      · exact ⟨rfl, fun a' h => by cases h⟩
      · cases tk with
        | nil => exact ⟨rfl, fun a' h => by cases h; exact inv _ rfl⟩
        | cons x xs =>
          dsimp only
          split
          · exact ⟨rfl, fun a' h => by cases h; exact inv _ rfl⟩
          · split
            · rename_i hq
              have hx : P x := by
                obtain ⟨t', g1, g2⟩ := ha hq.1
                rw [hq.2] at g1
                simp at g1
                rw [g1]; exact g2
              rw [hrec x hx]
              cases rec' x with
              | error e => exact ⟨rfl, fun a' h => by cases h⟩
              | ok v => exact ⟨rfl, fun a' h => by cases h; exact inv _ rfl⟩
            · exact ⟨rfl, fun a' h => by cases h; exact inv _ rfl⟩
  cases ty with
  | quoted =>
    refine ⟨rfl, fun a' h => ?_⟩
    cases h
    intro _
    exact ⟨t, by simp, ht rfl⟩
  | atom => exact ⟨rfl, fun a' h => by cases h; intro h; simp at h⟩
  | comment => exact ⟨rfl, fun a' h => by cases h; intro h; simp at h⟩
  | tagOpen => exact ⟨rfl, fun a' h => by cases h; intro h; simp at h⟩
  | tagClose => exact flush (by simp)
  | separator => exact flush (by simp)
  | eof => exact flush (by simp)

theorem addrLoop_same (sc : Bool) (rec rec' : Bytes → Except Err (List Bytes)) (N : Nat)
    (hrec : ∀ t, 2 * marks t + 2 ≤ N → rec t = rec' t) (n : Nat) (a : AddrSt) (s : Bytes)
    (ha : LastQuoted (fun t => 2 * marks t + 2 ≤ N) a) (hs : marks s ≤ N) :
    addrLoop sc rec n a s = addrLoop sc rec' n a s := by
  induction n generalizing a s with
  | zero => rfl
  | succ n ih =>
    rw [addrLoop.eq_def, addrLoop.eq_def]
    dsimp only
    split
    · rfl
    · cases ht : nextTok sc (s.length + 1) [] s with
      | error e => rfl
      | ok p =>
        obtain ⟨ty, t, r⟩ := p
        obtain ⟨g1, g2⟩ := nextTok_marks sc _ _ _ _ _ _ ht
        dsimp only
        split
        · rfl
        · obtain ⟨k1, k2⟩ := addrSwitch_same rec rec' _ hrec a t ty ha (fun hq => by have := g2 hq; omega)
          rw [← k1]
          cases hsw : addrSwitch rec { a with last := a.type, type := ty } t with
          | error e => rfl
          | ok a' => exact ih a' r (k2 a' hsw) (by omega)

theorem depth_suffices (sc : Bool) (n m : Nat) (s : Bytes) (hn : marks s + 2 < 2 ^ (n + 1)) (hm : marks s + 2 < 2 ^ (m + 1)) :
    parseAddrDepth sc n s = parseAddrDepth sc m s := by
  induction n generalizing m s with
  | zero => simp at hn; omega
  | succ n ih =>
    cases m with
    | zero => simp at hm; omega
    | succ m =>
      rw [parseAddrDepth, parseAddrDepth]
      refine addrLoop_same sc _ _ (marks s) (fun t ht => ih m t ?_ ?_) _ _ s (fun h => by simp at h) (Nat.le_refl _)
      · rw [Nat.pow_succ] at hn; omega
      · rw [Nat.pow_succ] at hm; omega

/-- C82: however the input nests quoted strings, reading an address list needs at most `n` calls of `ParseAddressList` on the stack when
the text has fewer than `2 ^ (n + 1) - 2` quotation marks and backslashes: the depth is logarithmic, since each level doubles them. -/
theorem C82_stack_depth (sc : Bool) (n : Nat) (s : Bytes) (h : marks s + 2 < 2 ^ (n + 1)) :
    parseAddrDepth sc n s = parseAddressList sc s := by
  refine depth_suffices sc _ _ s h ?_
  have h1 := marks_le_length s
  have h2 : s.length + 1 < 2 ^ (s.length + 1) := Nat.lt_two_pow_self
  rw [Nat.pow_succ]
  omega

/-- C82: a text of less than 2 GiB needs at most 31 nested calls. -/
theorem C82_stack_depth_2GiB (sc : Bool) (s : Bytes) (h : s.length + 2 ≤ 2 ^ 31) :
    parseAddrDepth sc 31 s = parseAddressList sc s := by
  refine C82_stack_depth sc 31 s ?_
  have h1 := marks_le_length s
  rw [Nat.pow_succ]
  omega

/-- The bound is tight: a quoted string in a quoted string has six marks and takes three calls, not two. -/
example : marks b!"\"\\\"a@b\\\"\"" = 6 ∧ parseAddrDepth true 3 b!"\"\\\"a@b\\\"\"" = .ok [b!"a@b"] ∧
    parseAddrDepth true 2 b!"\"\\\"a@b\\\"\"" = .error .hang := by
  refine ⟨by decide, by decide +kernel, by decide +kernel⟩

end Dkim

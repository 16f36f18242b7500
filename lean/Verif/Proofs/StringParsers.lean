import Verif.Proofs.StringStream
import Verif.Proofs.Encodings
/-!
# The parsers on streams against the parsers on byte lists
-/

namespace Dkim

open Spec

namespace SS

variable {α β : Type} {input rest r : Bytes} {s : SS} {pk : Bool} {c : Byte}

theorem raises_hang (input : Bytes) : Raises input .hang .hang := ⟨rfl, fun _ _ _ e => by cases e⟩

/-- Result of a function of the bytes left that does not report what is left then. -/
def Yields (input : Bytes) (x : Except Err β) (s : SS) (m : SM α) (f : β → α) : Prop :=
  Run s m (fun a _ => ∃ b, x = .ok b ∧ a = f b) (fun e => ∃ w, x = .error w ∧ Raises input w e)

/-- Reading nothing leaves the text as it was. -/
theorem readFWS_nothing {t r : Bytes} (h : Dkim.readFWS t = .ok ([], r)) : r = t := by
  unfold Dkim.readFWS at h
  simp only at h
  split at h
  · cases h
  · split at h
    · simp at h
      have := loopWSP_split t
      rw [h.1, h.2] at this
      simpa using this.symm
    · split at h
      · simp at h; exact h.symm
      · rename_i ht _
        simp at h ht
        exact absurd h.1.2.1 ht

theorem skipFWS_run (lr : Bool) (n : Nat) : ∀ (rest : Bytes) (found pk : Bool) (s : SS),
    Rep pk input s rest →
    Run s (skipFWS lr n found)
      (fun a s' => ∃ f rest', Dkim.skipFWS n rest = .ok (f, rest') ∧ a = (found || f) ∧
        Rep true input s' rest' ∧ Dkim.readFWS rest' = .ok ([], rest'))
      (fun e => ∃ w, Dkim.skipFWS n rest = .error w ∧ Raises input w e) := by
  induction n with
  | zero => intro rest found pk s h; exact Run.throw ⟨.hang, rfl, raises_hang _⟩
  | succ n ih =>
    intro rest found pk s h
    unfold skipFWS
    refine Run.bind ((readFWS_gives lr h).mono ?_ ?_)
    · rintro w s1 ⟨rest1, e1, h1⟩
      cases hw : w.isEmpty with
      | true =>
        simp only [if_true]
        refine Run.pure ⟨false, rest1, ?_, by simp, h1, ?_⟩
        · simp only [Dkim.skipFWS, e1, hw, if_true]
        · have hw' : w = [] := by simpa using hw
          subst hw'
          have : rest1 = rest := readFWS_nothing e1
          rw [this] at e1 ⊢
          exact e1
      | false =>
        simp only [Bool.false_eq_true, if_false]
        refine (ih rest1 true _ s1 h1).mono ?_ ?_
        · rintro a s2 ⟨f, rest', e2, rfl, h2⟩
          refine ⟨true, rest', ?_, by simp, h2⟩
          simp only [Dkim.skipFWS, e1, hw, Bool.false_eq_true, if_false, e2]
        · rintro e ⟨w', e2, hR⟩
          refine ⟨w', ?_, hR⟩
          simp only [Dkim.skipFWS, e1, hw, Bool.false_eq_true, if_false, e2]
    · rintro e ⟨w, e1, hR⟩
      exact ⟨w, by simp only [Dkim.skipFWS, e1], hR⟩

/-! ## `ValueList` -/

theorem valueLoop_gives (lr : Bool) (n : Nat) : ∀ (rest buf val : Bytes) (pk : Bool) (s : SS),
    Rep pk input s rest →
    Gives input (Dkim.valueLoop n buf val rest) s (valueLoop lr n buf val) (fun _ => true) := by
  induction n with
  | zero => intro rest buf val pk s h; exact Run.throw ⟨.hang, rfl, raises_hang _⟩
  | succ n ih =>
    intro rest buf val pk s h
    unfold Gives valueLoop
    refine Run.bind ((readFWS_gives lr h).mono ?_ ?_)
    · rintro ws s1 ⟨rest1, e1, h1⟩
      cases hw : ws.isEmpty with
      | true =>
        simp only [if_true]
        refine Run.test ((tests_is COLON).or tests_eof) h1 ?_ ?_
        · intro hq s2 h2
          refine Run.pure ⟨rest1, ?_, h2⟩
          cases rest1 with
          | nil => simp only [Dkim.valueLoop, e1, hw, if_true]
          | cons c r =>
            have hc : c = COLON := by simpa using hq
            simp only [Dkim.valueLoop, e1, hw, if_true, hc]
        · intro hq s2 h2
          cases rest1 with
          | nil => simp at hq
          | cons c r =>
            have hc : c ≠ COLON := by simpa using hq
            refine Run.bind (Run.get h2 fun s3 h3 => ?_)
            have hws : ws = [] := by simpa using hw
            subst hws
            have e : Dkim.valueLoop (n + 1) buf val rest = Dkim.valueLoop n [] (val ++ buf ++ [c]) r := by
              simp only [Dkim.valueLoop, e1, List.isEmpty_nil, if_true, hc, if_false]
            rw [e]
            have eb : (if buf.isEmpty then val else val ++ buf) = val ++ buf := by
              cases buf <;> simp
            simp only [eb, List.head?_cons, toChar, Option.getD_some, List.append_nil]
            exact ih _ _ _ _ _ h3
      | false =>
        simp only [Bool.false_eq_true, if_false]
        have e : Dkim.valueLoop (n + 1) buf val rest = Dkim.valueLoop n (buf ++ ws) val rest1 := by
          simp only [Dkim.valueLoop, e1, hw, Bool.false_eq_true, if_false]
        rw [e]
        exact ih _ _ _ _ _ h1
    · rintro e ⟨w, e1, hR⟩
      exact ⟨w, by simp only [Dkim.valueLoop, e1], hR⟩

theorem valueLoop_nonempty (n : Nat) : ∀ (rest buf val : Bytes) (v r : Bytes), val ≠ [] →
    Dkim.valueLoop n buf val rest = .ok (v, r) → v ≠ [] := by
  induction n with
  | zero => intro rest buf val v r _ h; cases h
  | succ n ih =>
    intro rest buf val v r hv h
    unfold Dkim.valueLoop at h
    split at h
    · cases h
    · split at h
      · split at h
        · simp at h; rw [← h.1]; exact hv
        · split at h
          · simp at h; rw [← h.1]; exact hv
          · exact ih _ _ _ _ _ (by simp) h
      · exact ih _ _ _ _ _ hv h

theorem valueListLoop_yields (lr : Bool) (n : Nat) : ∀ (rest : Bytes) (values : List Bytes) (pk : Bool)
    (s : SS), Rep pk input s rest →
    Yields input (Dkim.valueListLoop n rest) s (valueListLoop lr n values) (values ++ ·) := by
  induction n with
  | zero => intro rest values pk s h; exact Run.throw ⟨.hang, rfl, raises_hang _⟩
  | succ n ih =>
    intro rest values pk s h
    unfold Yields valueListLoop
    refine Run.bind (Run.left h ?_)
    refine Run.bind ((skipFWS_run lr _ _ _ _ _ h).mono ?_ ?_)
    · rintro a s1 ⟨f, rest1, e1, -, h1, hF⟩
      refine Run.test tests_eof h1 ?_ ?_
      · intro hq s2 h2
        cases rest1 with
        | cons c r => simp at hq
        | nil =>
          exact Run.pure ⟨[], by simp only [Dkim.valueListLoop, e1], by simp⟩
      · intro hq s2 h2
        cases rest1 with
        | nil => simp at hq
        | cons c r =>
          refine Run.bind (Run.left h2 ?_)
          refine Run.bind ((valueLoop_gives lr _ _ _ _ _ _ h2).mono ?_ ?_)
          · rintro v s3 ⟨rest3, e3, h3⟩
            cases hv : v.isEmpty with
            | true =>
              simp only [if_true]
              refine Run.throwPos h3 ⟨.p .emptyListValue, ?_, rfl, ?_⟩
              · simp only [Dkim.valueListLoop, e1, e3, hv, if_true]
              · intro r' b p e
                cases e
                have hv' : v = [] := by simpa using hv
                subst hv'
                -- the first byte must have been the colon
                simp only [Dkim.valueLoop, hF, List.isEmpty_nil, if_true] at e3
                by_cases hc : c = COLON
                · simp only [hc, if_true] at e3
                  simp at e3
                  subst e3
                  rw [h3.tell]
                  exact .emptyList h3.at
                · simp only [hc, if_false] at e3
                  exact absurd rfl (valueLoop_nonempty _ _ _ _ _ _ (by simp) e3)
            | false =>
              simp only [Bool.false_eq_true, if_false]
              refine Run.bind (Run.get h3 fun s4 h4 => ?_)
              cases rest3 with
              | nil =>
                simp only [List.head?_nil, beq_self_eq_true, if_true]
                refine Run.pure ⟨[v], ?_, rfl⟩
                simp only [Dkim.valueListLoop, e1, e3, hv, Bool.false_eq_true, if_false]
              | cons d r' =>
                have e0 : ((some d : Option Byte) == none) = false := rfl
                simp only [List.head?_cons, e0, Bool.false_eq_true, if_false]
                refine (ih _ (values ++ [v]) _ _ h4).mono ?_ ?_
                · rintro a s5 ⟨vs, e5, rfl⟩
                  refine ⟨v :: vs, ?_, by simp⟩
                  simp only [List.tail_cons] at e5
                  simp only [Dkim.valueListLoop, e1, e3, hv, Bool.false_eq_true, if_false, e5]
                · rintro e ⟨w, e5, hR⟩
                  refine ⟨w, ?_, hR⟩
                  simp only [List.tail_cons] at e5
                  simp only [Dkim.valueListLoop, e1, e3, hv, Bool.false_eq_true, if_false, e5]
          · rintro e ⟨w, e3, hR⟩
            exact ⟨w, by simp only [Dkim.valueListLoop, e1, e3], hR⟩
    · rintro e ⟨w, e1, hR⟩
      exact ⟨w, by simp only [Dkim.valueListLoop, e1], hR⟩

/-! ## `FilterHeader` -/

theorem collapse_yields (lr : Bool) (n : Nat) : ∀ (rest x : Bytes) (pk : Bool) (s : SS),
    Rep pk input s rest →
    Yields input (Dkim.collapse n rest) s (collapse lr n x) (x ++ ·) := by
  induction n with
  | zero => intro rest x pk s h; exact Run.throw ⟨.hang, rfl, raises_hang _⟩
  | succ n ih =>
    intro rest x pk s h
    unfold Yields collapse
    refine Run.bind (Run.left h ?_)
    refine Run.bind ((skipFWS_run lr _ _ _ _ _ h).mono ?_ ?_)
    · rintro a s1 ⟨f, rest1, e1, rfl, h1, -⟩
      refine Run.test tests_eof h1 ?_ ?_
      · intro hq s2 h2
        cases rest1 with
        | cons c r => simp at hq
        | nil => exact Run.pure ⟨[], by simp only [Dkim.collapse, e1], by simp⟩
      · intro hq s2 h2
        cases rest1 with
        | nil => simp at hq
        | cons c r =>
          refine Run.bind (Run.get h2 fun s3 h3 => ?_)
          refine (ih _ _ _ _ h3).mono ?_ ?_
          · rintro _ s4 ⟨o, e4, rfl⟩
            simp only [List.tail_cons] at e4
            refine ⟨(if a then [SP] else []) ++ c :: o, ?_, ?_⟩
            · simp only [Dkim.collapse, e1, e4]
            · cases a <;> simp [toChar]
          · rintro e ⟨w, e4, hR⟩
            simp only [List.tail_cons] at e4
            exact ⟨w, by simp only [Dkim.collapse, e1, e4], hR⟩
    · rintro e ⟨w, e1, hR⟩
      exact ⟨w, by simp only [Dkim.collapse, e1], hR⟩

/-! ## `QuotedPrintable::Decode` -/

theorem tests_hex : Tests peekHex (fun o => o.any isHexDigit) :=
  Tests.congr ((tests_between 65 70).or (tests_between 48 57)) (fun o => by cases o <;> simp [isHexDigit])

theorem tests_literal :
    Tests (between 0x21 0x3A <||> (peekIs 0x3C <||> between 0x3E 0x7E)) (fun o => o.any isQpLiteral) :=
  Tests.congr ((tests_between 0x21 0x3A).or ((tests_is 0x3C).or (tests_between 0x3E 0x7E)))
    (fun o => by cases o <;> simp [isQpLiteral, Bool.or_assoc])

theorem names_of (h : Rep true input s rest) {bad : Byte → Prop}
    (hb : ∀ c, rest.head? = some c → bad c) :
    Names input bad (some (code rest.head?)) (some (tellgAfterPeek input.length rest)) := by
  cases rest with
  | nil => exact .atEnd
  | cons c r =>
    rw [h.tell]
    exact .byte h.at (hb c rfl)

theorem notHex {c : Byte} (h : isHexDigit c = false) :
    ¬ ((65 ≤ c ∧ c ≤ 70) ∨ (48 ≤ c ∧ c ≤ 57)) := by
  intro h'
  have : isHexDigit c = true := by simpa [isHexDigit] using h'
  rw [this] at h; cases h

theorem unsafe_byte : ∀ c : Byte, isQpLiteral c = false → c ≠ EQ → (c ≤ 32 ∨ c = 59 ∨ 127 ≤ c) := by
  have : ∀ c : Byte, (!(!isQpLiteral c && (c != EQ)) || (decide (c ≤ 32) || c == 59 || decide (127 ≤ c))) = true :=
    byte_forall (by decide +kernel)
  intro c h1 h2
  have := this c
  simp [h1, h2] at this
  exact this.elim (fun h => h.elim Or.inl (fun h => .inr (.inl h))) (fun h => .inr (.inr h))

theorem qpLoop_yields (lr toSpace : Bool) (n : Nat) : ∀ (rest out : Bytes) (pk : Bool) (s : SS),
    Rep pk input s rest →
    Yields input (Dkim.qpLoop toSpace n rest) s (qpLoop lr toSpace n out) (out ++ ·) := by
  induction n with
  | zero => intro rest out pk s h; exact Run.throw ⟨.hang, rfl, raises_hang _⟩
  | succ n ih =>
    intro rest out pk s h
    unfold Yields qpLoop
    refine Run.test tests_eof h ?_ ?_
    · intro hq s1 h1
      cases rest with
      | cons c r => simp at hq
      | nil => exact Run.pure ⟨[], by simp [Dkim.qpLoop], by simp⟩
    · intro hq s1 h1
      cases rest with
      | nil => simp at hq
      | cons c r =>
      refine Run.testW ((tests_is 95).pure_and (x := toSpace)) h1 ?_ ?_
      · intro hq s2 h2
        have hc : toSpace = true ∧ c = 95 := by simpa using hq
        refine Run.bind (Run.get h2 fun s3 h3 => ?_)
        simp only [List.tail_cons] at h3
        refine (ih r (out ++ [SP]) _ _ h3).mono ?_ ?_
        · rintro a s4 ⟨o, e4, rfl⟩
          exact ⟨SP :: o, by simp only [Dkim.qpLoop, if_pos hc, e4], by simp⟩
        · rintro e ⟨w, e4, hR⟩
          exact ⟨w, by simp only [Dkim.qpLoop, if_pos hc, e4], hR⟩
      · intro hq s2 h2
        have hc1 : ¬ (toSpace = true ∧ c = 95) := by simpa using hq
        refine Run.test (tests_is EQ) h2 ?_ ?_
        · intro hq s3 h3
          have hc : c = EQ := by simpa using hq
          subst hc
          refine Run.bind (Run.get h3 fun s4 h4 => ?_)
          simp only [List.tail_cons] at h4
          refine Run.test tests_hex h4 ?_ ?_
          · intro hq s5 h5
            cases r with
            | nil => simp at hq
            | cons a r1 =>
              have ha : isHexDigit a = true := by simpa using hq
              refine Run.bind (Run.get h5 fun s6 h6 => ?_)
              simp only [List.tail_cons] at h6
              refine Run.test tests_hex h6 ?_ ?_
              · intro hq s7 h7
                cases r1 with
                | nil => simp at hq
                | cons b r2 =>
                  have hb : isHexDigit b = true := by simpa using hq
                  refine Run.bind (Run.get h7 fun s8 h8 => ?_)
                  simp only [List.tail_cons] at h8
                  refine (ih _ _ _ _ h8).mono ?_ ?_
                  · rintro x s9 ⟨o, e9, rfl⟩
                    exact ⟨(hexVal a * 16 + hexVal b) :: o, by simp only [Dkim.qpLoop, hc1, ha, hb, if_true, if_false, e9],
                      by simp [toChar]⟩
                  · rintro e ⟨w, e9, hR⟩
                    exact ⟨w, by simp only [Dkim.qpLoop, hc1, ha, hb, if_true, if_false, e9], hR⟩
              · intro hq s7 h7
                refine Run.throwAt h7 ⟨.p .qpHex, ?_, rfl, ?_⟩
                · cases r1 with
                  | nil => simp [Dkim.qpLoop, hc1, ha]
                  | cons b r2 =>
                    have hb : isHexDigit b = false := by simpa using hq
                    simp [Dkim.qpLoop, hc1, ha, hb]
                · intro r' b p e
                  cases e
                  refine .qpHex (names_of h7 fun x hx => notHex ?_)
                  rw [hx] at hq; simpa using hq
          · intro hq s5 h5
            refine Run.throwAt h5 ⟨.p .qpHex, ?_, rfl, ?_⟩
            · cases r with
              | nil => simp [Dkim.qpLoop, hc1]
              | cons a r1 =>
                have ha : isHexDigit a = false := by simpa using hq
                simp [Dkim.qpLoop, hc1, ha]
            · intro r' b p e
              cases e
              refine .qpHex (names_of h5 fun x hx => notHex ?_)
              rw [hx] at hq; simpa using hq
        · intro hq s3 h3
          have hc2 : c ≠ EQ := by simpa using hq
          refine Run.test tests_literal h3 ?_ ?_
          · intro hq s4 h4
            have hl : isQpLiteral c = true := by simpa using hq
            refine Run.bind (Run.get h4 fun s5 h5 => ?_)
            simp only [List.tail_cons] at h5
            refine (ih _ _ _ _ h5).mono ?_ ?_
            · rintro x s9 ⟨o, e9, rfl⟩
              refine ⟨c :: o, ?_, by simp [toChar]⟩
              simp only [Dkim.qpLoop, hc1, hc2, hl, if_true, if_false, e9]
            · rintro e ⟨w, e9, hR⟩
              refine ⟨w, ?_, hR⟩
              simp only [Dkim.qpLoop, hc1, hc2, hl, if_true, if_false, e9]
          · intro hq s4 h4
            have hl : isQpLiteral c = false := by simpa using hq
            refine Run.bind ((readFWS_gives lr h4).mono ?_ ?_)
            · rintro ws s5 ⟨rest5, e5, h5⟩
              cases hw : ws.isEmpty with
              | true =>
                simp only [if_true]
                have hw' : ws = [] := by simpa using hw
                subst hw'
                have hsame : rest5 = c :: r := readFWS_nothing e5
                subst hsame
                refine Run.throwAt h5 ⟨.p .qpUnsafe, ?_, rfl, ?_⟩
                · simp [Dkim.qpLoop, hc1, hc2, hl, e5]
                · intro r' b p e
                  cases e
                  rw [h5.tell]
                  exact .qpUnsafe h5.at (unsafe_byte c hl hc2)
              | false =>
                simp only [Bool.false_eq_true, if_false]
                have e : Dkim.qpLoop toSpace (n + 1) (c :: r) = Dkim.qpLoop toSpace n rest5 := by
                  simp only [Dkim.qpLoop, hc1, hc2, hl, Bool.false_eq_true, if_false, e5, hw]
                rw [e]
                exact ih _ _ _ _ h5
            · rintro e ⟨w, e5, hR⟩
              refine ⟨w, ?_, hR⟩
              simp only [Dkim.qpLoop, hc1, hc2, hl, Bool.false_eq_true, if_false, e5]

end SS
end Dkim

import Verif.Proofs.StringParsers
/-!
# `EncodedWord::Decode` and `TagList::Parse` on streams
-/

namespace Dkim

open Spec

namespace SS

variable {α β : Type} {input rest r : Bytes} {s : SS} {pk : Bool} {c : Byte}

/-! ## `EncodedWord::Decode` -/

theorem readWSP_nothing {t r : Bytes} (h : Dkim.readWSP t = ([], r)) : r = t := by
  unfold Dkim.readWSP at h
  split at h
  · simpa using h.symm
  · split at h <;> simp at h
    exact h.symm

theorem ewSpace_gives (lr : Bool) (n : Nat) : ∀ (rest ws : Bytes) (pk : Bool) (s : SS),
    Rep pk input s rest →
    Gives input (Dkim.ewSpace n ws rest) s (ewSpace lr n ws) (fun _ => true) := by
  induction n with
  | zero => intro rest ws pk s h; exact Run.throw ⟨.hang, rfl, raises_hang _⟩
  | succ n ih =>
    intro rest ws pk s h
    unfold Gives ewSpace
    refine Run.bind ((readWSP_gives h).mono ?_ (fun _ ⟨w, e, _⟩ => by cases e))
    rintro w s1 ⟨rest1, e1, h1⟩
    have e1' : Dkim.readWSP rest = (w, rest1) := by simpa using e1
    cases hw : w.isEmpty with
    | false =>
      simp only [Bool.not_false, if_true]
      have e : Dkim.ewSpace (n + 1) ws rest = Dkim.ewSpace n (ws ++ w) rest1 := by
        simp only [Dkim.ewSpace, e1', hw, Bool.not_false, if_true]
      rw [e]
      exact ih _ _ _ _ h1
    | true =>
      have hw' : w = [] := by simpa using hw
      subst hw'
      have hr := readWSP_nothing e1'
      subst hr
      simp only [Bool.not_true, Bool.false_eq_true, if_false]
      refine Run.bind ((readCRLF_gives lr h1).mono ?_ ?_)
      · rintro t s2 ⟨rest2, e2, h2⟩
        cases ht : t.isEmpty with
        | false =>
          simp only [Bool.not_false, if_true]
          have e : Dkim.ewSpace (n + 1) ws rest1 = Dkim.ewSpace n ws rest2 := by
            simp only [Dkim.ewSpace, e1', e2, ht, List.isEmpty_nil, Bool.not_true, Bool.not_false,
              Bool.false_eq_true, if_false, if_true]
          rw [e]
          exact ih _ _ _ _ h2
        | true =>
          simp only [Bool.not_true, Bool.false_eq_true, if_false]
          have ht' : t = [] := by simpa using ht
          subst ht'
          have := readCRLF_split e2
          simp at this
          subst this
          refine Run.pure ⟨rest1, ?_, h2⟩
          simp only [Dkim.ewSpace, e1', e2, List.isEmpty_nil, Bool.not_true,
              Bool.false_eq_true, if_false]
      · rintro e ⟨w, e2, hR⟩
        refine ⟨w, ?_, hR⟩
        simp only [Dkim.ewSpace, e1', e2, List.isEmpty_nil, Bool.not_true,
              Bool.false_eq_true, if_false]

theorem untilQ_run (n : Nat) : ∀ (rest x : Bytes) (pk : Bool) (s : SS), rest.length < n →
    Rep pk input s rest →
    Run s (untilQ n x) (fun a s' => a = ((Dkim.untilQ rest).2.isEmpty, x ++ (Dkim.untilQ rest).1) ∧
      Rep true input s' (Dkim.untilQ rest).2) (fun _ => False) := by
  induction n with
  | zero => intro rest x pk s hn; omega
  | succ n ih =>
    intro rest x pk s hn h
    unfold untilQ
    refine Run.test tests_eof h ?_ ?_
    · intro hq s1 h1
      cases rest with
      | cons c r => simp at hq
      | nil => exact Run.pure ⟨by simp [Dkim.untilQ], h1⟩
    · intro hq s1 h1
      cases rest with
      | nil => simp at hq
      | cons c r =>
        refine Run.test (tests_is 63) h1 ?_ ?_
        · intro hq s2 h2
          have hc : c = 63 := by simpa using hq
          subst hc
          exact Run.pure ⟨by simp [Dkim.untilQ], by simpa [Dkim.untilQ] using h2⟩
        · intro hq s2 h2
          have hc : c ≠ 63 := by simpa using hq
          refine Run.bind (Run.get h2 fun s3 h3 => ?_)
          refine (ih r (x ++ [c]) _ _ (by simp at hn; omega) h3).mono ?_ (fun _ e => e)
          rintro a s4 ⟨rfl, h4⟩
          simp only [Dkim.untilQ, hc, if_false]
          exact ⟨by simp, h4⟩

/-- One part of an encoded word on the bytes left. -/
def part (fail : Bool) (buffer rest : Bytes) : (Bool × Bytes × Bytes) × Bytes :=
  match rest with
  | [] => ((true, [], buffer), [])
  | c :: r =>
    if fail = false ∧ c = 63 then
      (((Dkim.untilQ r).2.isEmpty, (Dkim.untilQ r).1, buffer ++ [63] ++ (Dkim.untilQ r).1), (Dkim.untilQ r).2)
    else ((true, [], buffer), c :: r)

theorem ewPart_run (fail : Bool) (buffer : Bytes) (h : Rep pk input s rest) :
    Run s (ewPart fail buffer) (fun a s' => a = (part fail buffer rest).1 ∧
      Rep false input s' (part fail buffer rest).2) (fun _ => False) := by
  unfold ewPart
  refine Run.testW ((tests_is 63).pure_and (x := !fail)) h ?_ ?_
  · intro hq s1 h1
    cases rest with
    | nil => simp at hq
    | cons c r =>
      have hc : fail = false ∧ c = 63 := by simpa using hq
      refine Run.bind (Run.get h1 fun s2 h2 => ?_)
      refine Run.bind (Run.left h2 ?_)
      refine Run.bind ((untilQ_run _ _ _ _ _ (Nat.lt_succ_self _) h2).mono ?_ (fun _ e => e))
      rintro a s3 ⟨rfl, h3⟩
      simp only [part, hc, and_self, if_true]
      exact Run.pure ⟨by simp [toChar], h3.weak⟩
  · intro hq s1 h1
    refine Run.pure ?_
    cases rest with
    | nil => exact ⟨rfl, h1.weak⟩
    | cons c r =>
      have hc : ¬ (fail = false ∧ c = 63) := by simpa using hq
      simp only [part, hc, if_false]
      exact ⟨trivial, h1.weak⟩

/-- The end of an encoded word on the bytes left. -/
def tailPart (fail : Bool) (buffer rest : Bytes) : (Bool × Bytes) × Bytes :=
  match rest with
  | [] => ((true, buffer), [])
  | c :: r =>
    if fail = false ∧ c = 63 then
      match r with
      | [] => ((true, buffer ++ [63]), [])
      | d :: r' => if d = EQ then ((false, buffer ++ [63, EQ]), r') else ((true, buffer ++ [63]), d :: r')
    else ((true, buffer), c :: r)

/-- The whole scan, part by part. -/
def scanAll (rest : Bytes) : (Bool × Bytes × Bytes × Bytes) × Bytes :=
  let p1 := part false [EQ] rest
  let p2 := part p1.1.1 p1.1.2.2 p1.2
  let p3 := part p2.1.1 p2.1.2.2 p2.2
  let p4 := tailPart p3.1.1 p3.1.2.2 p3.2
  let bad := !p4.1.1 && (match p4.2 with
    | [] => false
    | c :: _ => c != SP && c != CR && c != LF && c != TAB)
  ((p4.1.1 || bad, p2.1.2.1, p3.1.2.1, p4.1.2), p4.2)

theorem tests_notBlank :
    Tests ((do return !(← peekEOF)) <&&> ((do return !(← peekIs SP)) <&&>
    ((do return !(← peekIs CR)) <&&> ((do return !(← peekIs LF)) <&&> (do return !(← peekIs TAB))))))
    (fun o => match o with | none => false | some c => c != SP && c != CR && c != LF && c != TAB) :=
  Tests.congr (tests_eof.not.and ((tests_is SP).not.and ((tests_is CR).not.and ((tests_is LF).not.and (tests_is TAB).not))))
    (fun o => by cases o <;> simp [Bool.and_assoc, bne])

theorem ewScan_run (h : Rep pk input s (EQ :: rest)) :
    Run s ewScan (fun a s' => a = (scanAll rest).1 ∧ Rep false input s' (scanAll rest).2)
      (fun _ => False) := by
  unfold ewScan
  refine Run.bind (Run.get h fun s1 h1 => ?_)
  have hb : [toChar (EQ :: rest).head?] = [EQ] := rfl
  simp only [hb, List.tail_cons] at h1 ⊢
  refine Run.bind ((ewPart_run false [EQ] h1).mono ?_ (fun _ e => e))
  rintro p1 s2 ⟨rfl, h2⟩
  generalize hp1 : part false [EQ] rest = p1 at h2 ⊢
  obtain ⟨⟨f1, x1, b1⟩, r1⟩ := p1
  simp only at h2 ⊢
  refine Run.bind ((ewPart_run f1 b1 h2).mono ?_ (fun _ e => e))
  rintro p2 s3 ⟨rfl, h3⟩
  generalize hp2 : part f1 b1 r1 = p2 at h3 ⊢
  obtain ⟨⟨f2, x2, b2⟩, r2⟩ := p2
  simp only at h3 ⊢
  refine Run.bind ((ewPart_run f2 b2 h3).mono ?_ (fun _ e => e))
  rintro p3 s4 ⟨rfl, h4⟩
  generalize hp3 : part f2 b2 r2 = p3 at h4 ⊢
  obtain ⟨⟨f3, x3, b3⟩, r3⟩ := p3
  simp only at h4 ⊢
  have key : ∀ (s5 : SS) (r4 : Bytes) (f4 : Bool) (b4 : Bytes), tailPart f3 b3 r3 = ((f4, b4), r4) →
      Rep false input s5 r4 →
      Run s5 (do
        let bad ← pure (!f4) <&&> ((do return !(← peekEOF)) <&&> ((do return !(← peekIs SP)) <&&>
          ((do return !(← peekIs CR)) <&&> ((do return !(← peekIs LF)) <&&> (do return !(← peekIs TAB))))))
        return (f4 || bad, x2, x3, b4))
        (fun a s' => a = (scanAll rest).1 ∧ Rep false input s' (scanAll rest).2) (fun _ => False) := by
    intro s5 r4 f4 b4 e4 h5
    refine Run.bind ((Tests.pure_and tests_notBlank (x := !f4) _ _ _ _ h5).mono ?_ (fun _ e => e))
    rintro bad s6 ⟨rfl, h6⟩
    refine Run.pure ?_
    unfold scanAll
    simp only [hp1, hp2, hp3, e4]
    refine ⟨?_, h6⟩
    cases r4 <;> rfl
  refine Run.testW ((tests_is 63).pure_and (x := !f3)) h4 ?_ ?_
  · intro hq s5 h5
    cases r3 with
    | nil => simp at hq
    | cons c r =>
      have hc : f3 = false ∧ c = 63 := by simpa using hq
      obtain ⟨rfl, rfl⟩ := hc
      refine Run.bind (Run.get h5 fun s6 h6 => ?_)
      refine Run.test (tests_is EQ) h6 ?_ ?_
      · intro hq s7 h7
        cases r with
        | nil => simp at hq
        | cons d r' =>
          have hd : d = EQ := by simpa using hq
          subst hd
          refine Run.bind (Run.get h7 fun s8 h8 => ?_)
          refine Run.bind (Run.pure (key _ _ _ _ ?_ h8))
          simp [tailPart, toChar]
      · intro hq s7 h7
        refine Run.bind (Run.pure (key _ _ _ _ ?_ h7.weak))
        cases r with
        | nil => simp [tailPart, toChar]
        | cons d r' =>
          have hd : d ≠ EQ := by simpa using hq
          simp [tailPart, toChar, hd]
  · intro hq s5 h5
    refine Run.bind (Run.pure (key _ _ _ _ ?_ h5.weak))
    cases r3 with
    | nil => rfl
    | cons c r =>
      have hc : ¬ (f3 = false ∧ c = 63) := by simpa using hq
      simp [tailPart]
      intro a b
      exact absurd ⟨a, b⟩ hc

theorem untilQ_head (s : Bytes) : (Dkim.untilQ s).2 = [] ∨ ∃ r, (Dkim.untilQ s).2 = 63 :: r := by
  induction s with
  | nil => left; rfl
  | cons c r ih =>
    unfold Dkim.untilQ
    split
    · rename_i h; right; exact ⟨r, by simp [h]⟩
    · exact ih

/-- The scan part by part is the scan of the byte-list model. -/
theorem scanAll_eq (rest : Bytes) :
    (scanAll rest).2 = (Dkim.ewScan rest).rest ∧ (scanAll rest).1.2.2.2 = (Dkim.ewScan rest).buffer ∧
    (Dkim.ewScan rest).word = (if (scanAll rest).1.1 then none else some ((scanAll rest).1.2.1, (scanAll rest).1.2.2.1)) := by
  cases rest with
  | nil => simp [scanAll, Dkim.ewScan, part, tailPart]
  | cons c0 s0 =>
    by_cases h0 : c0 = 63
    · subst h0
      rcases untilQ_head s0 with e1 | ⟨s1, e1⟩
      · simp [scanAll, Dkim.ewScan, part, tailPart, e1]
      · rcases untilQ_head s1 with e2 | ⟨s2, e2⟩
        · simp [scanAll, Dkim.ewScan, part, tailPart, e1, e2]
        · rcases untilQ_head s2 with e3 | ⟨s3, e3⟩
          · simp [scanAll, Dkim.ewScan, part, tailPart, e1, e2, e3]
          · cases s3 with
            | nil => simp [scanAll, Dkim.ewScan, part, tailPart, e1, e2, e3]
            | cons c4 s4 =>
              by_cases h4 : c4 = EQ
              · subst h4
                cases s4 with
                | nil => simp [scanAll, Dkim.ewScan, part, tailPart, e1, e2, e3]
                | cons c5 s5 =>
                  by_cases h5 : c5 ≠ SP ∧ c5 ≠ CR ∧ c5 ≠ LF ∧ c5 ≠ TAB
                  · have hb : (c5 != SP && c5 != CR && c5 != LF && c5 != TAB) = true := by
                      simp [h5]
                    simp [scanAll, Dkim.ewScan, part, tailPart, e1, e2, e3, h5]
                  · have h5' : c5 = SP ∨ c5 = CR ∨ c5 = LF ∨ c5 = TAB := by
                      by_cases a1 : c5 = SP
                      · exact .inl a1
                      by_cases a2 : c5 = CR
                      · exact .inr (.inl a2)
                      by_cases a3 : c5 = LF
                      · exact .inr (.inr (.inl a3))
                      by_cases a4 : c5 = TAB
                      · exact .inr (.inr (.inr a4))
                      exact absurd ⟨a1, a2, a3, a4⟩ h5
                    rcases h5' with rfl | rfl | rfl | rfl <;>
                      simp [scanAll, Dkim.ewScan, part, tailPart, e1, e2, e3]
              · simp [scanAll, Dkim.ewScan, part, tailPart, e1, e2, e3, h4]
    · simp [scanAll, Dkim.ewScan, part, tailPart, h0]

theorem run_of_yields {x : Except Err β} {m : SM α} {f : β → α}
    (h : Yields input x { data := input } m f) :
    match run m input with
    | .ok a => ∃ b, x = .ok b ∧ a = f b
    | .error e => ∃ w, x = .error w ∧ Raises input w e := by
  unfold Yields Run at h
  unfold run
  cases hm : m { data := input } <;> simp only [hm] at h ⊢ <;> exact h

theorem qpDecode_agrees (lr : Bool) (toSpace : Bool) (input : Bytes) :
    match qpDecode lr input toSpace with
    | .ok a => Dkim.qpDecode input toSpace = .ok a
    | .error e => ∃ w, Dkim.qpDecode input toSpace = .error w ∧ Raises input w e := by
  have := run_of_yields (qpLoop_yields lr toSpace (input.length + 1) input [] false _ (Rep.start input))
  unfold qpDecode Dkim.qpDecode
  generalize hr : run (qpLoop lr toSpace (input.length + 1) []) input = r at this ⊢
  cases r with
  | error e => exact this
  | ok a =>
    obtain ⟨b, e, rfl⟩ := this
    simpa using e

theorem ewData_eq (lr : Bool) (E : Env) (enc dat : Bytes) : ewData lr E enc dat = Dkim.ewData E enc dat := by
  unfold ewData Dkim.ewData
  have := qpDecode_agrees lr true dat
  generalize hr : qpDecode lr dat true = r at this ⊢
  cases r with
  | ok a => simp only [this]
  | error e =>
    obtain ⟨w, e1, _⟩ := this
    simp only [e1]

theorem ewLoop_yields (lr : Bool) (E : Env) (n : Nat) : ∀ (rest ws out : Bytes) (pk : Bool) (s : SS),
    Rep pk input s rest →
    Yields input (Dkim.ewLoop E n ws rest) s (ewLoop lr E n ws out) (out ++ ·) := by
  induction n with
  | zero => intro rest ws out pk s h; exact Run.throw ⟨.hang, rfl, raises_hang _⟩
  | succ n ih =>
    intro rest ws out pk s h
    unfold Yields ewLoop
    refine Run.bind (Run.left h ?_)
    refine Run.bind ((ewSpace_gives lr _ _ _ _ _ h).mono ?_ ?_)
    · rintro w s1 ⟨rest1, e1, h1⟩
      refine Run.test (tests_is EQ) h1 ?_ ?_
      · intro hq s2 h2
        cases rest1 with
        | nil => simp at hq
        | cons c r =>
          have hc : c = EQ := by simpa using hq
          subst hc
          refine Run.bind ((ewScan_run h2).mono ?_ (fun _ e => e.elim))
          rintro a s3 ⟨rfl, h3⟩
          have hS := scanAll_eq r
          generalize scanAll r = S at h3 hS ⊢
          obtain ⟨⟨fail, encoding, encdata, buffer⟩, r3⟩ := S
          simp only at h3 hS ⊢
          obtain ⟨hr3, hbuf, hword⟩ := hS
          rw [ewData_eq]
          have hout : ∀ o : Bytes, (match (Dkim.ewScan r).word with
              | none => w ++ (Dkim.ewScan r).buffer
              | some (enc, dat) =>
                match Dkim.ewData E enc dat with
                | some o => o
                | none => w ++ (Dkim.ewScan r).buffer) = o →
              Run s3 (ewLoop lr E n [] (out ++ o))
                (fun a _ => ∃ b, Dkim.ewLoop E (n + 1) ws rest = .ok b ∧ a = out ++ b)
                (fun e => ∃ w, Dkim.ewLoop E (n + 1) ws rest = .error w ∧ Raises input w e) := by
            intro o ho
            rw [hr3] at h3
            refine (ih _ [] (out ++ o) _ _ h3).mono ?_ ?_
            · rintro a s4 ⟨b, e4, rfl⟩
              refine ⟨o ++ b, ?_, by simp⟩
              simp only [Dkim.ewLoop, e1, if_true, e4]
              rw [← ho]
              rfl
            · rintro e ⟨w, e4, hR⟩
              refine ⟨w, ?_, hR⟩
              simp only [Dkim.ewLoop, e1, if_true, e4]
          cases fail with
          | true =>
            simp only [if_true] at hword ⊢
            refine hout _ ?_
            simp only [hword]
            rw [hbuf]
          | false =>
            simp only [Bool.false_eq_true, if_false] at hword ⊢
            cases hd : Dkim.ewData E encoding encdata with
            | none =>
              simp only
              refine hout _ ?_
              simp only [hword, hd]
              rw [hbuf]
            | some o =>
              simp only
              refine hout _ ?_
              simp only [hword, hd]
      · intro hq s2 h2
        refine Run.test tests_eof h2 ?_ ?_
        · intro hq s3 h3
          cases rest1 with
          | cons c r => simp at hq
          | nil => exact Run.pure ⟨[], by simp only [Dkim.ewLoop, e1], by simp⟩
        · intro hq' s3 h3
          cases rest1 with
          | nil => simp at hq'
          | cons c r =>
            have hc : c ≠ EQ := by simpa using hq
            refine Run.bind (Run.get h3 fun s4 h4 => ?_)
            refine (ih r [] _ _ _ h4).mono ?_ ?_
            · rintro a s5 ⟨b, e5, rfl⟩
              refine ⟨w ++ [c] ++ b, ?_, by simp [toChar]⟩
              simp only [Dkim.ewLoop, e1, hc, if_false, e5]
            · rintro e ⟨w, e5, hR⟩
              refine ⟨w, ?_, hR⟩
              simp only [Dkim.ewLoop, e1, hc, if_false, e5]
    · rintro e ⟨w, e1, hR⟩
      exact ⟨w, by simp only [Dkim.ewLoop, e1], hR⟩

theorem ewDecode_yields (lr : Bool) (E : Env) (h : Rep pk input s input) :
    Yields input (Dkim.ewDecode E input) s (do
      let _ ← skipFWS lr ((← left) + 1) false
      ewLoop lr E ((← left) + 1) [] []) id := by
  unfold Yields
  refine Run.bind (Run.left h ?_)
  refine Run.bind ((skipFWS_run lr _ _ _ _ _ h).mono ?_ ?_)
  · rintro a s1 ⟨f, rest1, e1, -, h1, -⟩
    refine Run.bind (Run.left h1 ?_)
    refine (ewLoop_yields lr E _ _ _ _ _ _ h1).mono ?_ ?_
    · rintro a s2 ⟨b, e2, rfl⟩
      exact ⟨a, by simp only [Dkim.ewDecode, e1, e2], rfl⟩
    · rintro e ⟨w, e2, hR⟩
      exact ⟨w, by simp only [Dkim.ewDecode, e1, e2], hR⟩
  · rintro e ⟨w, e1, hR⟩
    exact ⟨w, by simp only [Dkim.ewDecode, e1], hR⟩

end SS
end Dkim

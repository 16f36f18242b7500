import Verif.Proofs.StringParsers
import Verif.Proofs.TagList
/-!
# `TagList::Parse` on streams
-/

namespace Dkim

open Spec

namespace SS

variable {α β : Type} {input rest r : Bytes} {s : SS} {pk : Bool} {c : Byte}

/-- `m` run from `s` and `t` ends as described. -/
def RunT (s : SS) (t : TagList) (m : TM α) (ok : α → SS → TagList → Prop)
    (err : SErr → TagList → Prop) : Prop :=
  match m (s, t) with
  | .ok a (s', t') => ok a s' t'
  | .error e (_, t') => err e t'

variable {t : TagList} {ok : β → SS → TagList → Prop} {err : SErr → TagList → Prop}

theorem RunT.bind {m : TM α} {f : α → TM β}
    (h : RunT s t m (fun a s' t' => RunT s' t' (f a) ok err) err) : RunT s t (m >>= f) ok err := by
  unfold RunT at *
  rw [es_bind]
  cases hm : m (s, t) <;> simp only [hm] at h <;> exact h

theorem RunT.onStream {m : SM β}
    (h : Run s m (fun a s' => ok a s' t) (fun e => err e t)) : RunT s t (onStream m) ok err := by
  unfold RunT SS.onStream
  unfold Run at h
  cases hm : m s <;> simp only [hm] at h ⊢ <;> exact h

theorem RunT.pure {a : β} (h : ok a s t) : RunT s t (Pure.pure a) ok err := h

theorem RunT.throw {e : SErr} (h : err e t) : RunT s t (throw e : TM β) ok err := h

/-- Branching on a test of the stream. -/
theorem RunT.test {m : SM Bool} {q} {A B : TM β} (hT : Tests m q) (h : Rep pk input s rest)
    (ht : q rest.head? = true → ∀ s', Rep true input s' rest → RunT s' t A ok err)
    (hf : q rest.head? = false → ∀ s', Rep true input s' rest → RunT s' t B ok err) :
    RunT s t (SS.onStream m >>= fun b => if b = true then A else B) ok err := by
  refine RunT.bind (RunT.onStream ((hT _ _ _ _ h).mono ?_ (fun _ e => e.elim)))
  intro b s' hb
  obtain ⟨rfl, hr⟩ := hb
  cases hq : q rest.head? with
  | true => simpa using ht hq s' hr
  | false => simpa using hf hq s' hr

theorem skipLoose_run (n : Nat) : ∀ (rest : Bytes) (pk : Bool) (s : SS), rest.length < n →
    Rep pk input s rest →
    Run s (skipLoose n) (fun _ s' => Rep true input s' (Dkim.skipLoose rest)) (fun _ => False) := by
  induction n with
  | zero => intro rest pk s hn; omega
  | succ n ih =>
    intro rest pk s hn h
    unfold skipLoose
    refine Run.bind ((readLoose_gives h).mono ?_ (fun _ ⟨w, e, _⟩ => by cases e))
    rintro w s1 ⟨rest1, e, h1⟩
    cases rest with
    | nil =>
      simp [Dkim.readLoose] at e
      obtain ⟨rfl, rfl⟩ := e
      exact Run.pure (by simpa [Dkim.skipLoose] using h1)
    | cons c r =>
      by_cases hc : isLoose c = true
      · simp [Dkim.readLoose, hc] at e
        obtain ⟨rfl, rfl⟩ := e
        simp only [List.isEmpty_cons, Bool.false_eq_true, if_false]
        simp only [Dkim.skipLoose, hc, if_true]
        exact ih _ _ _ (by simp at hn; omega) h1
      · have hc' : isLoose c = false := by simpa using hc
        simp [Dkim.readLoose, hc'] at e
        obtain ⟨rfl, rfl⟩ := e
        simp only [Dkim.skipLoose, hc', Bool.false_eq_true, if_false]
        exact Run.pure (by simpa using h1)

theorem skipLoose_do (h : Rep pk input s rest) :
    Run s (do skipLoose ((← left) + 1)) (fun _ s' => Rep true input s' (Dkim.skipLoose rest))
      (fun _ => False) :=
  Run.bind (Run.left h (skipLoose_run _ _ _ _ (Nat.lt_succ_self _) h))

theorem tests_alnum : Tests peekAlnum (fun o => o.any isAlnum) :=
  Tests.congr ((tests_between 65 90).or ((tests_between 97 122).or (tests_between 48 57)))
    (fun o => by cases o <;> simp [isAlnum, Bool.or_assoc])

theorem tests_nameChar : Tests peekNameChar (fun o => o.any isNameChar) :=
  Tests.congr ((tests_between 65 90).or ((tests_between 97 122).or ((tests_between 48 57).or (tests_is 95))))
    (fun o => by cases o <;> simp [isNameChar, isAlnum, Bool.or_assoc])

theorem tests_valChar : Tests (between 0x21 0x3A <||> between 0x3C 0x7E) (fun o => o.any isValChar) :=
  Tests.congr ((tests_between 0x21 0x3A).or (tests_between 0x3C 0x7E))
    (fun o => by cases o <;> simp [isValChar])

theorem nameLoop_run (n : Nat) : ∀ (rest name : Bytes) (pk : Bool) (s : SS), rest.length < n →
    Rep pk input s rest →
    Run s (nameLoop n name) (fun a s' => a = name ++ (Dkim.nameLoop rest).1 ∧
      Rep true input s' (Dkim.nameLoop rest).2) (fun _ => False) := by
  induction n with
  | zero => intro rest name pk s hn; omega
  | succ n ih =>
    intro rest name pk s hn h
    unfold nameLoop
    refine Run.test tests_nameChar h ?_ ?_
    · intro hq s1 h1
      cases rest with
      | nil => simp at hq
      | cons c r =>
        have hc : isNameChar c = true := by simpa using hq
        refine Run.bind (Run.get h1 fun s2 h2 => ?_)
        refine (ih r (name ++ [c]) _ _ (by simp at hn; omega) h2).mono ?_ (fun _ e => e)
        rintro a s3 ⟨rfl, h3⟩
        simp only [Dkim.nameLoop, hc, if_true]
        exact ⟨by simp, h3⟩
    · intro hq s1 h1
      refine Run.pure ?_
      cases rest with
      | nil => exact ⟨by simp [Dkim.nameLoop], h1⟩
      | cons c r =>
        have hc : isNameChar c = false := by simpa using hq
        simp only [Dkim.nameLoop, hc, Bool.false_eq_true, if_false]
        exact ⟨by simp, h1⟩

theorem readName_run (h : Rep pk input s rest) :
    Run s readName (fun a s' => a = (Dkim.readName rest).1 ∧ Rep true input s' (Dkim.readName rest).2)
      (fun _ => False) := by
  unfold readName
  refine Run.test tests_alnum h ?_ ?_
  · intro hq s1 h1
    cases rest with
    | nil => simp at hq
    | cons c r =>
      have hc : isAlnum c = true := by simpa using hq
      refine Run.bind (Run.get h1 fun s2 h2 => ?_)
      refine Run.bind (Run.pure ?_)
      refine Run.bind (Run.left h2 ?_)
      refine (nameLoop_run _ _ _ _ _ (Nat.lt_succ_self _) h2).mono ?_ (fun _ e => e)
      rintro a s3 ⟨rfl, h3⟩
      simp only [Dkim.readName, hc, if_true]
      exact ⟨by simp [toChar], h3⟩
  · intro hq s1 h1
    refine Run.bind (Run.pure ?_)
    refine Run.bind (Run.left h1 ?_)
    refine (nameLoop_run _ _ _ _ _ (Nat.lt_succ_self _) h1).mono ?_ (fun _ e => e)
    rintro a s3 ⟨rfl, h3⟩
    cases rest with
    | nil => exact ⟨by simp [Dkim.readName], h3⟩
    | cons c r =>
      have hc : isAlnum c = false := by simpa using hq
      simp only [Dkim.readName, hc, Bool.false_eq_true, if_false]
      exact ⟨by simp, h3⟩

theorem bad_value_byte : ∀ c : Byte, c ≠ SEMI → isValChar c = false → isLoose c = false →
    ((c < 32 ∧ c ≠ 9 ∧ c ≠ 13 ∧ c ≠ 10) ∨ 127 ≤ c) := by
  have : ∀ c : Byte, (c == SEMI || isValChar c || isLoose c ||
      ((decide (c < 32) && c != 9 && c != 13 && c != 10) || decide (127 ≤ c))) = true :=
    byte_forall (by decide +kernel)
  intro c h1 h2 h3
  have := this c
  simp [h1, h2, h3] at this
  exact this.elim (fun h => .inl ⟨h.1.1.1, h.1.1.2, h.1.2, h.2⟩) .inr

theorem not_name_byte (c : Byte) (h : isNameChar c = false) :
    ¬ ((65 ≤ c ∧ c ≤ 90) ∨ (97 ≤ c ∧ c ≤ 122) ∨ (48 ≤ c ∧ c ≤ 57) ∨ c = 95) := by
  intro h'
  have : isNameChar c = true := by simpa [isNameChar, isAlnum, or_assoc] using h'
  rw [this] at h; cases h

theorem not_loose_byte (c : Byte) (h : isLoose c = false) : c ≠ 32 ∧ c ≠ 9 ∧ c ≠ 13 ∧ c ≠ 10 := by
  simpa [isLoose, and_assoc] using h

theorem readValue_gives (lr : Bool) (n : Nat) : ∀ (rest buf val : Bytes) (pk : Bool) (s : SS),
    rest.length < n → Rep pk input s rest →
    Gives input (Dkim.readValue buf val rest) s (readValue lr n buf val) (fun _ => true) := by
  induction n with
  | zero => intro rest buf val pk s hn; omega
  | succ n ih =>
    intro rest buf val pk s hn h
    unfold Gives readValue
    refine Run.test ((tests_is SEMI).not.and tests_eof.not) h ?_ ?_
    · intro hq s1 h1
      cases rest with
      | nil => simp at hq
      | cons c r =>
        have hc : c ≠ SEMI := by simpa using hq
        refine Run.test tests_valChar h1 ?_ ?_
        · intro hq s2 h2
          have hv : isValChar c = true := by simpa using hq
          refine Run.bind (Run.get h2 fun s3 h3 => ?_)
          have e : Dkim.readValue buf val (c :: r) = Dkim.readValue [] (val ++ buf ++ [c]) r := by
            simp only [Dkim.readValue, hc, hv, if_true, if_false]
          rw [e]
          have eb : (if buf.isEmpty then val else val ++ buf) = val ++ buf := by
            cases buf <;> simp
          simp only [eb, List.head?_cons, toChar, Option.getD_some]
          exact ih _ _ _ _ _ (by simp at hn ⊢; omega) h3
        · intro hq s2 h2
          have hv : isValChar c = false := by simpa using hq
          refine Run.bind ((readLoose_gives h2).mono ?_ (fun _ ⟨w, e, _⟩ => by cases e))
          rintro ws s3 ⟨rest3, e3, h3⟩
          by_cases hl : isLoose c = true
          · simp [Dkim.readLoose, hl] at e3
            obtain ⟨rfl, rfl⟩ := e3
            simp only [List.isEmpty_cons, Bool.false_eq_true, if_false]
            have e : Dkim.readValue buf val (c :: r) = Dkim.readValue (buf ++ [c]) val r := by
              simp only [Dkim.readValue, hc, hv, hl, if_true, if_false, Bool.false_eq_true]
            rw [e]
            exact ih _ _ _ _ _ (by simp at hn; omega) h3
          · have hl' : isLoose c = false := by simpa using hl
            simp [Dkim.readLoose, hl'] at e3
            obtain ⟨rfl, rfl⟩ := e3
            simp only [List.isEmpty_nil, if_true]
            refine Run.throwAt (by simpa using h3) ⟨.p .badTagValue, ?_, rfl, ?_⟩
            · simp only [Dkim.readValue, hc, hv, hl', if_false, Bool.false_eq_true]
            · intro r' b p e
              cases e
              rw [h3.tell]
              exact .badValue h3.at (bad_value_byte c hc hv hl')
    · intro hq s1 h1
      refine Run.pure ⟨rest, ?_, h1⟩
      cases rest with
      | nil => simp [Dkim.readValue]
      | cons c r =>
        have hc : c = SEMI := by simpa using hq
        simp only [Dkim.readValue, hc, if_true]

theorem skipLoose_head {t : Bytes} {c : Byte} {r : Bytes} (h : Dkim.skipLoose t = c :: r) :
    isLoose c = false := by
  induction t with
  | nil => simp [Dkim.skipLoose] at h
  | cons d t ih =>
    unfold Dkim.skipLoose at h
    split at h
    · exact ih h
    · rename_i hd
      simp at h
      rw [← h.1]; simpa using hd

theorem readName_empty {c : Byte} {r : Bytes} (h : (Dkim.readName (c :: r)).1 = []) :
    isNameChar c = false ∧ (Dkim.readName (c :: r)).2 = c :: r := by
  unfold Dkim.readName at *
  by_cases h1 : isAlnum c = true
  · simp [h1] at h
  · simp only [h1] at h ⊢
    unfold Dkim.nameLoop at *
    by_cases h2 : isNameChar c = true
    · simp [h2] at h
    · have h2' : isNameChar c = false := by simpa using h2
      simp [h2']

theorem tagLoop_run (lr : Bool) (n : Nat) : ∀ (rest : Bytes) (t : TagList) (pk : Bool) (s : SS),
    Rep pk input s rest →
    RunT s t (tagLoop lr n) (fun _ _ t' => Dkim.tagLoop input.length n rest t = .ok () t')
      (fun e t' => ∃ w, Dkim.tagLoop input.length n rest t = .error w t' ∧ Raises input w e) := by
  induction n with
  | zero => intro rest t pk s h; exact RunT.throw ⟨.hang, rfl, raises_hang _⟩
  | succ n ih =>
    intro rest t pk s h
    unfold tagLoop
    rw [tagLoop_eq]
    refine RunT.bind (RunT.onStream ((skipLoose_do h).mono ?_ (fun _ e => e.elim)))
    intro _ s1 h1
    generalize hr1 : Dkim.skipLoose rest = rest1 at h1 ⊢
    refine RunT.test tests_eof h1 ?_ ?_
    · intro hq s2 h2
      cases rest1 with
      | cons c r => simp at hq
      | nil => exact RunT.pure (by simp)
    · intro hq s2 h2
      cases rest1 with
      | nil => simp at hq
      | cons c r =>
      refine RunT.bind (RunT.onStream ((readName_run h2).mono ?_ (fun _ e => e.elim)))
      rintro name s3 ⟨rfl, h3⟩
      simp only [List.isEmpty_cons, Bool.false_eq_true, if_false]
      cases hne : (Dkim.readName (c :: r)).1.isEmpty with
      | true =>
        simp only [if_true]
        refine RunT.onStream (Run.throwPos h3 ⟨.p .emptyTagName, rfl, rfl, ?_⟩)
        intro r' b p e
        cases e
        have hn := readName_empty (c := c) (r := r) (by simpa using hne)
        rw [hn.2] at h3 ⊢
        rw [h3.tell]
        exact .emptyName h3.at (not_name_byte c hn.1) (not_loose_byte c (skipLoose_head hr1))
      | false =>
        simp only [Bool.false_eq_true, if_false]
        refine RunT.bind (show RunT s3 t (MonadState.get : TM (SS × TagList)) _ _ from ?_)
        refine (?_ : RunT s3 t _ _ _)
        show RunT s3 t (if ((t.getTag (Dkim.readName (c :: r)).1).isSome) = true then _ else _) _ _
        cases hdup : (t.getTag (Dkim.readName (c :: r)).1).isSome with
        | true =>
          simp only [if_true]
          exact RunT.throw ⟨_, rfl, rfl, fun _ _ _ e => by cases e; exact .duplicate⟩
        | false =>
          simp only [Bool.false_eq_true, if_false]
          refine RunT.bind (RunT.onStream ((skipLoose_do h3).mono ?_ (fun _ e => e.elim)))
          intro _ s4 h4
          generalize hr4 : Dkim.skipLoose (Dkim.readName (c :: r)).2 = rest4 at h4 ⊢
          refine RunT.bind (RunT.onStream ((tests_is EQ _ _ _ _ h4).mono ?_ (fun _ e => e.elim)))
          rintro b s5 ⟨rfl, h5⟩
          cases hE : (rest4.head? == some EQ) with
          | false =>
            simp only [hE, Bool.not_false, if_true]
            refine RunT.onStream (Run.throwAt h5 ?_)
            refine ⟨.p .expectedEq, ?_, rfl, ?_⟩
            · cases rest4 with
              | nil => rfl
              | cons d r4 =>
                have hd : d ≠ EQ := by simpa using hE
                simp only [hd, ne_eq, not_false_eq_true, if_true]
            · intro r' b p e
              cases e
              refine .expectedEq (names_of h5 fun x hx => ?_)
              rw [hx] at hE
              simpa using hE
          | true =>
            cases rest4 with
            | nil => simp at hE
            | cons d r4 =>
              have hd : d = EQ := by simpa using hE
              subst hd
              simp only [List.head?_cons, beq_self_eq_true, Bool.not_true, Bool.false_eq_true, if_false, ne_eq, not_true_eq_false]
              refine RunT.bind (RunT.onStream (Run.get h5 fun s6 h6 => ?_))
              simp only [List.tail_cons] at h6
              refine RunT.bind (RunT.onStream ((skipLoose_do h6).mono ?_ (fun _ e => e.elim)))
              intro _ s7 h7
              refine RunT.bind (RunT.onStream (Run.tellg h7 fun s8 h8 _ => ?_))
              refine RunT.bind (RunT.onStream (Run.bind (Run.left h8 ?_)))
              refine (readValue_gives lr _ _ _ _ _ _ (Nat.lt_succ_self _) h8).mono ?_ ?_
              · rintro value s9 ⟨rest9, e9, h9⟩
                simp only [e9]
                refine RunT.bind ?_
                show RunT s9 (t ++ [((Dkim.readName (c :: r)).1,
                  { value := value, offset := tellgAfterPeek input.length (Dkim.skipLoose r4) })]) _ _ _
                refine RunT.bind (RunT.onStream (Run.get h9 fun s10 h10 => ?_))
                cases rest9 with
                | nil =>
                  exact RunT.pure rfl
                | cons x r9 => exact ih _ _ _ _ h10
              · rintro e ⟨w, e9, hR⟩
                simp only [e9]
                exact ⟨w, rfl, hR⟩

theorem tagParse_agrees (lr : Bool) (input : Bytes) (t : TagList) :
    match tagParse lr input t with
    | (.ok _, t') => TagList.parse input t = .ok () t'
    | (.error e, t') => ∃ w, TagList.parse input t = .error w t' ∧ Raises input w e := by
  have := tagLoop_run lr (input.length + 1) input t false _ (Rep.start input)
  unfold RunT at this
  unfold tagParse TagList.parse
  generalize tagLoop lr (input.length + 1) ({ data := input }, t) = x at this ⊢
  cases x <;> exact this

end SS
end Dkim

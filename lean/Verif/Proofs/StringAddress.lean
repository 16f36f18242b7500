import Verif.Proofs.StringParsers
import Verif.Proofs.AddressText
/-!
# `ParseAddressList` on streams
-/

namespace Dkim

open Spec

namespace SS

variable {input rest r : Bytes} {s : SS} {pk : Bool} {c : Byte}

theorem raises_plain {x : Reason} (h : x = .unclosedString ∨ x = .incompleteEscape ∨ x = .unclosedComment ∨
    x = .nulInAddress ∨ x = .unclosedAddrSpec ∨ x = .missingColon input) :
    Raises input (.p x) (.perm x none none) :=
  ⟨rfl, fun _ _ _ e => by cases e; exact .plain h⟩

theorem quotedLoop_end_hang (n : Nat) : ∀ (tok : Bytes) (pk : Bool) (s : SS), Rep pk input s [] →
    Run s (quotedLoop false n tok) (fun _ _ => False) (fun e => e = .hang) := by
  induction n with
  | zero => intro tok pk s h; exact Run.throw rfl
  | succ n ih =>
    intro tok pk s h
    unfold quotedLoop
    refine Run.bind (Run.get h fun s1 h1 => ?_)
    simp only [List.head?_nil, toChar, Option.getD_none]
    exact ih _ _ _ h1

theorem quotedLoop_gives (sc : Bool) (n : Nat) : ∀ (rest tok : Bytes) (pk : Bool) (s : SS),
    rest.length < n → Rep pk input s rest →
    Gives input (Dkim.quotedLoop sc tok rest) s (quotedLoop sc n tok) (fun _ => false) := by
  induction n with
  | zero => intro rest tok pk s hn; omega
  | succ n ih =>
    intro rest tok pk s hn h
    cases rest with
    | nil =>
      cases sc with
      | false =>
        refine (quotedLoop_end_hang _ _ _ _ h).mono (fun _ _ e => e.elim) ?_
        rintro e rfl
        exact ⟨.hang, by simp [Dkim.quotedLoop], raises_hang _⟩
      | true =>
        unfold Gives quotedLoop
        refine Run.bind (Run.get h fun s1 h1 => ?_)
        simp only [List.head?_nil, toChar, Option.getD_none]
        exact Run.throwPlain ⟨_, by simp [Dkim.quotedLoop], raises_plain (by simp)⟩
    | cons c r =>
      unfold Gives quotedLoop
      refine Run.bind (Run.get h fun s1 h1 => ?_)
      simp only [List.tail_cons] at h1
      have ec : toChar (c :: r).head? = c := rfl
      simp only [ec]
      by_cases h0 : sc = true ∧ c = 255
      · obtain ⟨rfl, rfl⟩ := h0
        refine Run.throwPlain ⟨.p .unclosedString, ?_, raises_plain (by simp)⟩
        rw [Dkim.quotedLoop.eq_def]; simp
      · have e0 : (sc && (c == 255)) = false := by
          cases sc <;> simp_all
        simp only [e0, Bool.false_eq_true, if_false]
        by_cases h92 : c = 92
        · subst h92
          have e1 : ((92 : Byte) == 92) = true := rfl
          simp only [e1, if_true]
          refine Run.test tests_eof h1 ?_ ?_
          · intro hq s2 h2
            cases r with
            | cons d r' => simp at hq
            | nil =>
              refine Run.throwPlain ⟨_, ?_, raises_plain (x := .incompleteEscape) (by simp)⟩
              rw [Dkim.quotedLoop.eq_def]; simp
          · intro hq s2 h2
            cases r with
            | nil => simp at hq
            | cons d r' =>
              refine Run.bind (Run.get h2 fun s3 h3 => ?_)
              have e : Dkim.quotedLoop sc tok (92 :: d :: r') = Dkim.quotedLoop sc (tok ++ [d]) r' := by
                rw [Dkim.quotedLoop.eq_def]; simp
              rw [e]
              exact ih _ _ _ _ (by simp at hn; omega) h3
        · have e1 : (c == 92) = false := by simpa using h92
          simp only [e1, Bool.false_eq_true, if_false]
          by_cases h34 : c = 34
          · subst h34
            have e2 : ((34 : Byte) == 34) = true := rfl
            simp only [e2, if_true]
            refine Run.pure ⟨r, ?_, h1⟩
            rw [Dkim.quotedLoop.eq_def]; simp
          · have e2 : (c == 34) = false := by simpa using h34
            simp only [e2, Bool.false_eq_true, if_false]
            have e : Dkim.quotedLoop sc tok (c :: r) = Dkim.quotedLoop sc (tok ++ [c]) r := by
              rw [Dkim.quotedLoop.eq_def]
              simp only [h0, h92, h34, if_false]
            rw [e]
            exact ih _ _ _ _ (by simp at hn; omega) h1

theorem commentStep_run (depth : Nat) (tok : Bytes) (h : Rep pk input s rest) (hd : depth > 0) :
    Run s (commentStep depth tok) (fun a s' => a = ((Dkim.commentStep depth rest).1, tok ++ (Dkim.commentStep depth rest).2.1) ∧
      Rep false input s' (Dkim.commentStep depth rest).2.2) (fun _ => False) := by
  unfold commentStep
  refine Run.bind ((tests_is 40 _ _ _ _ h).mono ?_ (fun _ e => e))
  rintro b1 s1 ⟨rfl, h1⟩
  refine Run.bind ((tests_is 41 _ _ _ _ h1).mono ?_ (fun _ e => e))
  rintro b2 s2 ⟨rfl, h2⟩
  refine Run.bind (Run.get h2 fun s3 h3 => ?_)
  cases rest with
  | nil =>
    simp [toChar, Dkim.commentStep, hd]
    exact Run.pure ⟨rfl, h3⟩
  | cons c r =>
    simp only [List.tail_cons] at h3
    simp only [List.head?_cons, toChar, Option.getD_some, Dkim.commentStep]
    by_cases h40 : c = 40
    · subst h40
      simp [hd]
      exact Run.pure ⟨rfl, h3⟩
    · by_cases h41 : c = 41
      · subst h41
        by_cases h1 : depth - 1 > 0
        · simp [h1]
          exact Run.pure ⟨rfl, h3⟩
        · simp [h1]
          exact Run.pure ⟨rfl, h3⟩
      · simp [h40, h41, hd]
        exact Run.pure ⟨rfl, h3⟩

theorem commentLoop_gives (n : Nat) : ∀ (rest tok : Bytes) (depth : Nat) (pk : Bool) (s : SS),
    Rep pk input s rest →
    Gives input (Dkim.commentLoop n depth tok rest) s (commentLoop n depth tok) (fun _ => false) := by
  induction n with
  | zero => intro rest tok depth pk s h; exact Run.throw ⟨.hang, rfl, raises_hang _⟩
  | succ n ih =>
    intro rest tok depth pk s h
    unfold Gives commentLoop
    by_cases hd : depth = 0
    · subst hd
      simp only [if_true]
      exact Run.pure ⟨rest, by simp [Dkim.commentLoop], h.weak⟩
    · simp only [hd, if_false]
      refine Run.test tests_eof h ?_ ?_
      · intro hq s1 h1
        cases rest with
        | cons c r => simp at hq
        | nil =>
          exact Run.throwPlain ⟨_, by simp [Dkim.commentLoop, hd], raises_plain (by simp)⟩
      · intro hq s1 h1
        cases rest with
        | nil => simp at hq
        | cons c r =>
          refine Run.test (tests_is 92) h1 ?_ ?_
          · intro hq s2 h2
            have hc : c = 92 := by simpa using hq
            subst hc
            refine Run.bind (Run.get h2 fun s3 h3 => ?_)
            simp only [List.tail_cons] at h3
            refine Run.test tests_eof h3 ?_ ?_
            · intro hq s4 h4
              cases r with
              | cons d r' => simp at hq
              | nil =>
                exact Run.throwPlain ⟨_, by simp [Dkim.commentLoop, hd], raises_plain (by simp)⟩
            · intro hq s4 h4
              cases r with
              | nil => simp at hq
              | cons d r' =>
                refine Run.bind (Run.get h4 fun s5 h5 => ?_)
                simp only [List.tail_cons] at h5
                refine Run.bind ((commentStep_run depth _ h5 (by omega)).mono ?_ (fun _ e => e.elim))
                rintro a s6 ⟨rfl, h6⟩
                have e : Dkim.commentLoop (n + 1) depth tok (92 :: d :: r') =
                    Dkim.commentLoop n (Dkim.commentStep depth r').1 (tok ++ [d] ++ (Dkim.commentStep depth r').2.1)
                      (Dkim.commentStep depth r').2.2 := by
                  rw [Dkim.commentLoop.eq_def]; simp [hd]
                rw [e]
                exact ih _ _ _ _ _ h6
          · intro hq s2 h2
            have hc : c ≠ 92 := by simpa using hq
            refine Run.bind ((commentStep_run depth _ h2 (by omega)).mono ?_ (fun _ e => e.elim))
            rintro a s6 ⟨rfl, h6⟩
            have e : Dkim.commentLoop (n + 1) depth tok (c :: r) =
                Dkim.commentLoop n (Dkim.commentStep depth (c :: r)).1 (tok ++ (Dkim.commentStep depth (c :: r)).2.1)
                  (Dkim.commentStep depth (c :: r)).2.2 := by
              rw [Dkim.commentLoop.eq_def]; simp [hd, hc]
            rw [e]
            exact ih _ _ _ _ _ h6

theorem nextTok_gives (lr sc : Bool) (n : Nat) : ∀ (rest tok : Bytes) (pk : Bool) (s : SS),
    Rep pk input s rest →
    Run s (nextTok lr sc n tok)
      (fun a s' => ∃ rest', Dkim.nextTok sc n tok rest = .ok (a.1, a.2, rest') ∧ Rep false input s' rest')
      (fun e => ∃ w, Dkim.nextTok sc n tok rest = .error w ∧ Raises input w e) := by
  induction n with
  | zero => intro rest tok pk s h; exact Run.throw ⟨.hang, rfl, raises_hang _⟩
  | succ n ih =>
    intro rest tok pk s h
    unfold nextTok
    have hdone : ∀ (s1 : SS) (r1 : Bytes), Rep true input s1 r1 →
        Dkim.nextTok sc (n + 1) tok rest = (if tok.isEmpty then .ok (.eof, [], r1) else .ok (.atom, tok, r1)) →
        Run s1 (if tok.isEmpty = true then Pure.pure (AddrTok.eof, tok) else Pure.pure (AddrTok.atom, tok))
          (fun a s' => ∃ rest', Dkim.nextTok sc (n + 1) tok rest = .ok (a.1, a.2, rest') ∧ Rep false input s' rest')
          (fun e => ∃ w, Dkim.nextTok sc (n + 1) tok rest = .error w ∧ Raises input w e) := by
      intro s1 r1 h1 e
      cases ht : tok.isEmpty with
      | true =>
        simp only [ht, if_true] at e ⊢
        have : tok = [] := by simpa using ht
        exact Run.pure ⟨r1, by rw [e, this], h1.weak⟩
      | false =>
        simp only [ht, Bool.false_eq_true, if_false] at e ⊢
        exact Run.pure ⟨r1, e, h1.weak⟩
    refine Run.test tests_eof h ?_ ?_
    · intro hq s1 h1
      cases rest with
      | cons c r => simp at hq
      | nil => exact hdone _ _ h1 (by simp [Dkim.nextTok])
    · intro hq s1 h1
      have hne : rest.isEmpty = false := by
        cases rest with
        | nil => simp at hq
        | cons c r => rfl
      refine Run.bind ((readFWS_gives lr h1).mono ?_ ?_)
      · rintro ws s2 ⟨rest2, e2, h2⟩
        by_cases hws : (!ws.isEmpty && !tok.isEmpty) = true
        · simp only [hws, if_true]
          refine hdone _ _ h2 ?_
          have hws' : (!ws.isEmpty) = true ∧ (!tok.isEmpty) = true := by simpa using hws
          rw [Dkim.nextTok.eq_def]
          simp only [hne, Bool.false_eq_true, if_false, e2, hws', and_self, if_true]
        · simp only [hws, if_false]
          have hws' : ¬ ((!ws.isEmpty) = true ∧ (!tok.isEmpty) = true) := by simpa using hws
          refine Run.test tests_eof h2 ?_ ?_
          · intro hq s3 h3
            cases rest2 with
            | cons c r => simp at hq
            | nil =>
              refine hdone _ _ h3 ?_
              rw [Dkim.nextTok.eq_def]
              simp only [hne, Bool.false_eq_true, if_false, e2, hws']
          · intro hq s3 h3
            cases rest2 with
            | nil => simp at hq
            | cons c r =>
              have hbase : Dkim.nextTok sc (n + 1) tok rest =
                  (if c = 34 then
                    if !tok.isEmpty then .ok (.atom, tok, c :: r)
                    else
                      match Dkim.quotedLoop sc [] r with
                      | .error e => .error e
                      | .ok (t, r') => .ok (.quoted, t, r')
                  else if c = 40 then
                    if !tok.isEmpty then .ok (.atom, tok, c :: r)
                    else
                      match Dkim.commentLoop (r.length + 2) 1 [] r with
                      | .error e => .error e
                      | .ok (t, r') => .ok (.comment, t, r')
                  else if c = 60 then
                    if !tok.isEmpty then .ok (.atom, tok, c :: r) else .ok (.tagOpen, [], r)
                  else if c = 62 then
                    if !tok.isEmpty then .ok (.atom, tok, c :: r) else .ok (.tagClose, [], r)
                  else if c = 44 ∨ c = 59 then
                    if !tok.isEmpty then .ok (.atom, tok, c :: r) else .ok (.separator, [], r)
                  else Dkim.nextTok sc n (tok ++ [c]) r) := by
                rw [Dkim.nextTok.eq_def]
                simp only [hne, Bool.false_eq_true, if_false, e2, hws']
                rfl
              refine Run.test (tests_is 34) h3 ?_ ?_
              · intro hq s4 h4
                have hc : c = 34 := by simpa using hq
                rw [hbase, if_pos hc]
                cases ht : tok.isEmpty with
                | false =>
                  simp only [Bool.not_false, if_true]
                  exact Run.pure ⟨_, rfl, h4.weak⟩
                | true =>
                  simp only [Bool.not_true, Bool.false_eq_true, if_false]
                  refine Run.bind (Run.get h4 fun s5 h5 => ?_)
                  simp only [List.tail_cons] at h5
                  refine Run.bind (Run.left h5 ?_)
                  refine Run.bind ((quotedLoop_gives sc _ _ _ _ _ (Nat.lt_succ_self _) h5).mono ?_ ?_)
                  · rintro t s6 ⟨r6, e6, h6⟩
                    exact Run.pure ⟨r6, by simp only [e6], h6⟩
                  · rintro e ⟨w, e6, hR⟩
                    exact ⟨w, by simp only [e6], hR⟩
              · intro hq s4 h4
                have h34 : c ≠ 34 := by simpa using hq
                rw [if_neg h34] at hbase
                refine Run.test (tests_is 40) h4 ?_ ?_
                · intro hq s5 h5
                  have hc : c = 40 := by simpa using hq
                  rw [hbase, if_pos hc]
                  cases ht : tok.isEmpty with
                  | false =>
                    simp only [Bool.not_false, if_true]
                    exact Run.pure ⟨_, rfl, h5.weak⟩
                  | true =>
                    simp only [Bool.not_true, Bool.false_eq_true, if_false]
                    refine Run.bind (Run.get h5 fun s6 h6 => ?_)
                    simp only [List.tail_cons] at h6
                    refine Run.bind (Run.left h6 ?_)
                    refine Run.bind ((commentLoop_gives _ _ _ _ _ _ h6).mono ?_ ?_)
                    · rintro t s7 ⟨r7, e7, h7⟩
                      exact Run.pure ⟨r7, by simp only [e7], h7⟩
                    · rintro e ⟨w, e7, hR⟩
                      exact ⟨w, by simp only [e7], hR⟩
                · intro hq s5 h5
                  have h40 : c ≠ 40 := by simpa using hq
                  rw [if_neg h40] at hbase
                  refine Run.test (tests_is 60) h5 ?_ ?_
                  · intro hq s6 h6
                    have hc : c = 60 := by simpa using hq
                    rw [hbase, if_pos hc]
                    cases ht : tok.isEmpty with
                    | false =>
                      simp only [Bool.not_false, if_true]
                      exact Run.pure ⟨_, rfl, h6.weak⟩
                    | true =>
                      simp only [Bool.not_true, Bool.false_eq_true, if_false]
                      have : tok = [] := by simpa using ht
                      refine Run.bind (Run.get h6 fun s7 h7 => ?_)
                      exact Run.pure ⟨r, by rw [this], h7⟩
                  · intro hq s6 h6
                    have h60 : c ≠ 60 := by simpa using hq
                    rw [if_neg h60] at hbase
                    refine Run.test (tests_is 62) h6 ?_ ?_
                    · intro hq s7 h7
                      have hc : c = 62 := by simpa using hq
                      rw [hbase, if_pos hc]
                      cases ht : tok.isEmpty with
                      | false =>
                        simp only [Bool.not_false, if_true]
                        exact Run.pure ⟨_, rfl, h7.weak⟩
                      | true =>
                        simp only [Bool.not_true, Bool.false_eq_true, if_false]
                        have : tok = [] := by simpa using ht
                        refine Run.bind (Run.get h7 fun s8 h8 => ?_)
                        exact Run.pure ⟨r, by rw [this], h8⟩
                    · intro hq s7 h7
                      have h62 : c ≠ 62 := by simpa using hq
                      rw [if_neg h62] at hbase
                      refine Run.test ((tests_is 44).or (tests_is 59)) h7 ?_ ?_
                      · intro hq s8 h8
                        have hc : c = 44 ∨ c = 59 := by simpa using hq
                        rw [hbase, if_pos hc]
                        cases ht : tok.isEmpty with
                        | false =>
                          simp only [Bool.not_false, if_true]
                          exact Run.pure ⟨_, rfl, h8.weak⟩
                        | true =>
                          simp only [Bool.not_true, Bool.false_eq_true, if_false]
                          have : tok = [] := by simpa using ht
                          refine Run.bind (Run.get h8 fun s9 h9 => ?_)
                          exact Run.pure ⟨r, by rw [this], h9⟩
                      · intro hq s8 h8
                        have hsep : ¬ (c = 44 ∨ c = 59) := by simpa using hq
                        rw [hbase, if_neg hsep]
                        refine Run.bind (Run.get h8 fun s9 h9 => ?_)
                        exact ih _ _ _ _ h9
      · rintro e ⟨w, e2, hR⟩
        refine ⟨w, ?_, hR⟩
        rw [Dkim.nextTok.eq_def]
        simp only [hne, Bool.false_eq_true, if_false, e2]

/-- A quoted token is the content of a quoted string of the text. -/
theorem nextTok_quoted (sc : Bool) (n : Nat) : ∀ (tok s t r : Bytes),
    Dkim.nextTok sc n tok s = .ok (.quoted, t, r) →
    ∃ before text after, s = before ++ 34 :: text ++ 34 :: after ∧ Quoted sc t text := by
  induction n with
  | zero => intro tok s t r h; cases h
  | succ n ih =>
    intro tok s t r h
    rw [Dkim.nextTok.eq_def] at h
    simp only at h
    split at h
    · split at h <;> simp at h
    · split at h
      · cases h
      · rename_i ws s1 e1
        have hs := (readFWS_ok e1).1
        split at h
        · split at h <;> simp at h
        · split at h
          · split at h <;> simp at h
          · rename_i c r1
            split at h
            · rename_i hc
              split at h
              · simp at h
              · split at h
                · cases h
                · rename_i t' r' e2
                  simp at h
                  obtain ⟨rfl, rfl⟩ := h
                  obtain ⟨content, text, hr, hq, ht⟩ := (quotedLoop_iff sc [] r1 t' r').mp e2
                  refine ⟨ws, text, r', ?_, ?_⟩
                  · rw [hs, hc, hr]; simp
                  · rw [ht]; simpa using hq
            · repeat' split at h
              all_goals first
                | (simp at h; done)
                | (obtain ⟨b, tx, af, e, hq⟩ := ih _ _ _ _ h
                   exact ⟨ws ++ c :: b, tx, af, by rw [hs, e]; simp, hq⟩)
                | skip
              all_goals simp at h

/-- The exception is the byte-list function's and its text is right, for address lists. -/
def RaisesA (sc : Bool) (input : Bytes) (want : Err) (e : SErr) : Prop :=
  want = e.toErr ∧ ∀ r b p, e = .perm r b p → AddrPoints sc input r b p

theorem Raises.toA {sc : Bool} {w : Err} {e : SErr} (h : Raises input w e) : RaisesA sc input w e :=
  ⟨h.1, fun r b p he => .here (h.2 r b p he)⟩

/-- Results agree. -/
def AgreesA {α : Type} (sc : Bool) (input : Bytes) (x : Except SErr α) (y : Except Err α) : Prop :=
  match x with
  | .ok a => y = .ok a
  | .error e => ∃ w, y = .error w ∧ RaisesA sc input w e

/-- A token that was quoted is a quoted string of the text. -/
def QuotedIn (sc : Bool) (input t : Bytes) : Prop :=
  ∃ before text after, input = before ++ 34 :: text ++ 34 :: after ∧ Quoted sc t text

/-- What the loop knows: after a quoted token the last token is one. -/
def AddrInv (sc : Bool) (input : Bytes) (st : AddrSt) : Prop :=
  st.type = .quoted → ∃ t, st.tokens.getLast? = some t ∧ QuotedIn sc input t

theorem addrSwitch_run {sc : Bool} {rec : Bytes → Except SErr (List Bytes)}
    {rec' : Bytes → Except Err (List Bytes)} (hrec : ∀ t, AgreesA sc t (rec t) (rec' t))
    {st : AddrSt} {token : Bytes} (hq : st.type = .quoted → QuotedIn sc input token)
    (hl : st.last = .quoted → ∃ t, st.tokens.getLast? = some t ∧ QuotedIn sc input t) :
    (match addrSwitch rec st token with
      | .ok st' => Dkim.addrSwitch rec' st token = .ok st' ∧ AddrInv sc input st'
      | .error e => ∃ w, Dkim.addrSwitch rec' st token = .error w ∧ RaisesA sc input w e) := by
  have flush : ∀ io : Bool, st.type ≠ .quoted →
      (match (if io then (.error (.perm .unclosedAddrSpec none none) : Except SErr AddrSt)
        else
          match st.tokens with
          | [] => .ok { st with inOpen := io }
          | t :: ts =>
            if st.type = .separator ∧ st.last ≠ .tagClose ∧ !((t :: ts).getLast (by simp)).contains 64 then
              .ok { st with inOpen := io, tokens := [] }
            else if st.last = .quoted ∧ ts = [] then
              match rec t with
              | .error e => .error e
              | .ok addrs => .ok { st with inOpen := io, list := st.list ++ addrs, tokens := [] }
            else
              .ok { st with inOpen := io, list := st.list ++ [(t :: ts).flatten], tokens := [] }) with
      | .ok st' => (if io then (.error (.p .unclosedAddrSpec) : Except Err AddrSt)
        else
          match st.tokens with
          | [] => .ok { st with inOpen := io }
          | t :: ts =>
            if st.type = .separator ∧ st.last ≠ .tagClose ∧ !((t :: ts).getLast (by simp)).contains 64 then
              .ok { st with inOpen := io, tokens := [] }
            else if st.last = .quoted ∧ ts = [] then
              match rec' t with
              | .error e => .error e
              | .ok addrs => .ok { st with inOpen := io, list := st.list ++ addrs, tokens := [] }
            else
              .ok { st with inOpen := io, list := st.list ++ [(t :: ts).flatten], tokens := [] }) = .ok st' ∧
          AddrInv sc input st'
      | .error e => ∃ w, (if io then (.error (.p .unclosedAddrSpec) : Except Err AddrSt)
        else
          match st.tokens with
          | [] => .ok { st with inOpen := io }
          | t :: ts =>
            if st.type = .separator ∧ st.last ≠ .tagClose ∧ !((t :: ts).getLast (by simp)).contains 64 then
              .ok { st with inOpen := io, tokens := [] }
            else if st.last = .quoted ∧ ts = [] then
              match rec' t with
              | .error e => .error e
              | .ok addrs => .ok { st with inOpen := io, list := st.list ++ addrs, tokens := [] }
            else
              .ok { st with inOpen := io, list := st.list ++ [(t :: ts).flatten], tokens := [] }) = .error w ∧
          RaisesA sc input w e) := by
    intro io hne
    cases io with
    | true =>
      simp only [if_true]
      exact ⟨_, rfl, (raises_plain (by simp)).toA⟩
    | false =>
      simp only [Bool.false_eq_true, if_false]
      obtain ⟨list, tokens, inOpen, last, type⟩ := st
      simp only at *
      cases tokens with
      | nil => exact ⟨rfl, fun h => absurd h hne⟩
      | cons t ts =>
        simp only
        generalize hL : (t :: ts).getLast (by simp) = lastTok
        by_cases h1 : type = .separator ∧ last ≠ .tagClose ∧ (!lastTok.contains 64) = true
        · rw [if_pos h1, if_pos h1]
          exact ⟨rfl, fun h => absurd h hne⟩
        · rw [if_neg h1, if_neg h1]
          by_cases h2 : last = .quoted ∧ ts = []
          · rw [if_pos h2, if_pos h2]
            have hr := hrec t
            unfold AgreesA at hr
            cases hrt : rec t with
            | ok addrs =>
              simp only [hrt] at hr
              simp only [hr]
              exact ⟨trivial, fun h => absurd h hne⟩
            | error e =>
              simp only [hrt] at hr
              obtain ⟨w, e1, hR⟩ := hr
              simp only [e1]
              refine ⟨w, rfl, hR.1, fun r b p he => ?_⟩
              obtain ⟨t', ht', before, text, after, e2, hq2⟩ := hl h2.1
              rw [h2.2] at ht'
              simp at ht'
              subst ht'
              exact .inside e2 hq2 (hR.2 r b p he)
          · rw [if_neg h2, if_neg h2]
            exact ⟨rfl, fun h => absurd h hne⟩
  obtain ⟨list, tokens, inOpen, last, type⟩ := st
  cases type with
  | quoted => exact ⟨rfl, fun _ => ⟨token, by simp, hq rfl⟩⟩
  | atom => exact ⟨rfl, fun h => by cases h⟩
  | comment => exact ⟨rfl, fun h => by cases h⟩
  | tagOpen => exact ⟨rfl, fun h => by cases h⟩
  | tagClose => exact flush false (by simp)
  | separator => exact flush inOpen (by simp)
  | eof => exact flush inOpen (by simp)

theorem addrLoop_run {lr sc : Bool} {rec : Bytes → Except SErr (List Bytes)}
    {rec' : Bytes → Except Err (List Bytes)} (hrec : ∀ t, AgreesA sc t (rec t) (rec' t)) (n : Nat) :
    ∀ (rest : Bytes) (st : AddrSt) (pk : Bool) (s : SS), Rep pk input s rest → AddrInv sc input st →
    Run s (addrLoop lr sc rec n st) (fun a _ => Dkim.addrLoop sc rec' n st rest = .ok a)
      (fun e => ∃ w, Dkim.addrLoop sc rec' n st rest = .error w ∧ RaisesA sc input w e) := by
  induction n with
  | zero => intro rest st pk s h hi; exact Run.throw ⟨.hang, rfl, (raises_hang _).toA⟩
  | succ n ih =>
    intro rest st pk s h hi
    unfold addrLoop
    by_cases hty : st.type = .eof
    · rw [if_pos hty]
      exact Run.pure (by simp only [Dkim.addrLoop, hty, if_true])
    · rw [if_neg hty]
      refine Run.bind (Run.left h ?_)
      refine Run.bind ((nextTok_gives lr sc _ _ _ _ _ h).mono ?_ ?_)
      · rintro ⟨ty, token⟩ s1 ⟨rest1, e1, h1⟩
        simp only at e1 ⊢
        have hq : ty = .quoted → QuotedIn sc input token := by
          rintro rfl
          obtain ⟨before, text, after, e, hq⟩ := nextTok_quoted sc _ _ _ _ _ e1
          refine ⟨input.take s.pos ++ before, text, after, ?_, hq⟩
          have := List.take_append_drop s.pos input
          rw [h.drop, e] at this
          exact this.symm.trans (by simp)
        by_cases h0 : token.contains 0 = true
        · rw [if_pos h0]
          refine Run.throwPlain ⟨.p .nulInAddress, ?_, (raises_plain (by simp)).toA⟩
          simp only [Dkim.addrLoop, hty, if_false, e1, h0, if_true]
        · rw [if_neg h0]
          have hsw := addrSwitch_run (input := input) hrec
            (st := { st with last := st.type, type := ty }) (token := token) hq hi
          refine Run.bind ?_
          cases hs : addrSwitch rec { st with last := st.type, type := ty } token with
          | ok st' =>
            simp only [hs] at hsw
            unfold liftErr
            refine Run.pure ?_
            refine (ih rest1 st' _ s1 h1 hsw.2).mono ?_ ?_
            · intro a s2 e2
              simp only [Dkim.addrLoop, hty, if_false, e1, h0, hsw.1, e2]
              rfl
            · rintro e ⟨w, e2, hR⟩
              refine ⟨w, ?_, hR⟩
              simp only [Dkim.addrLoop, hty, if_false, e1, h0, hsw.1, e2]
              rfl
          | error e =>
            simp only [hs] at hsw
            unfold liftErr
            refine Run.throw ?_
            obtain ⟨w, e2, hR⟩ := hsw
            refine ⟨w, ?_, hR⟩
            simp only [Dkim.addrLoop, hty, if_false, e1, h0, e2]
            rfl
      · rintro e ⟨w, e1, hR⟩
        exact ⟨w, by simp only [Dkim.addrLoop, hty, if_false, e1], hR.toA⟩

theorem parseAddrDepth_agrees (lr sc : Bool) (n : Nat) : ∀ input,
    AgreesA sc input (parseAddrDepth lr sc n input) (Dkim.parseAddrDepth sc n input) := by
  induction n with
  | zero => intro input; exact ⟨.hang, rfl, (raises_hang _).toA⟩
  | succ n ih =>
    intro input
    have := addrLoop_run (input := input) (lr := lr) ih (input.length + 2) input {} false _ (Rep.start input)
      (fun h => by cases h)
    unfold AgreesA parseAddrDepth run Dkim.parseAddrDepth
    unfold Run at this
    cases hm : addrLoop lr sc (parseAddrDepth lr sc n) (input.length + 2) {} { data := input } with
    | ok a s => simp only [hm] at this ⊢; exact this
    | error e s => simp only [hm] at this ⊢; exact this

end SS
end Dkim

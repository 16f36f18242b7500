import Verif.Proofs.AddressLex
/-!
# Property C63: what accepted address lists are free of
-/

namespace Dkim
open Spec

/-! ### Specification -/

/-- Read from left to right, with `o` telling whether an angle bracket is open: every `<` is followed by a `>` before the next comma,
semicolon or the end. -/
def Spec.Bracketed : Bool → Bytes → Prop
  | o, [] => o = false
  | o, c :: r =>
    if c = 60 then Spec.Bracketed true r
    else if c = 62 then Spec.Bracketed false r
    else if c = 44 ∨ c = 59 then o = false ∧ Spec.Bracketed false r
    else Spec.Bracketed o r

/-! ### NUL bytes are not lost by the tokenizer -/

theorem quotedLoop_nul (sc : Bool) (tok s : Bytes) : ∀ t r, quotedLoop sc tok s = .ok (t, r) → (0 ∈ tok ∨ 0 ∈ s) → 0 ∈ t ∨ 0 ∈ r := by
  induction tok, s using quotedLoop.induct (sc := sc) with
  | case1 tok h => rw [quotedLoop]; simp [h]
  | case2 tok h => rw [quotedLoop]; simp [h]
  | case3 tok c r h => rw [quotedLoop.eq_def]; dsimp only; rw [if_pos h]; simp
  | case4 tok h => rw [quotedLoop.eq_def]; dsimp only; rw [if_neg h, if_pos rfl]; simp
  | case5 tok d r' h ih =>
    rw [quotedLoop.eq_def]; dsimp only; rw [if_neg h, if_pos rfl]
    intro t r hr h0
    refine ih t r hr ?_
    rcases h0 with h0 | h0
    · left; simp [h0]
    · simp only [List.mem_cons] at h0
      rcases h0 with h0 | rfl | h0
      · exact absurd h0 (by decide)
      · left; simp
      · right; exact h0
  | case6 tok r h h2 =>
    rw [quotedLoop.eq_def]; dsimp only; rw [if_neg h, if_neg h2, if_pos rfl]
    intro t r' hr h0
    cases hr
    simpa using h0
  | case7 tok c r h h2 h3 ih =>
    rw [quotedLoop.eq_def]; dsimp only; rw [if_neg h, if_neg h2, if_neg h3]
    intro t r' hr h0
    refine ih t r' hr ?_
    rcases h0 with h0 | h0
    · left; simp [h0]
    · simp only [List.mem_cons] at h0
      rcases h0 with rfl | h0
      · left; simp
      · right; exact h0

theorem commentStep_nul (d : Nat) (s : Bytes) (h : 0 ∈ s) : 0 ∈ (commentStep d s).2.1 ∨ 0 ∈ (commentStep d s).2.2 ∨ (commentStep d s).1 = 0 ∧ d = 0 := by
  unfold commentStep
  cases s with
  | nil => cases h
  | cons c r =>
    dsimp only
    by_cases hc : c = 0
    · subst hc
      simp only [show ¬ (0 : Byte) = 40 by decide, show ¬ (0 : Byte) = 41 by decide, if_false]
      by_cases hd : d > 0
      · rw [if_pos hd]; left; simp
      · rw [if_neg hd]; right; right; exact ⟨by simp; omega, by omega⟩
    · have : 0 ∈ r := by
        simp only [List.mem_cons] at h
        rcases h with h | h
        · exact absurd h.symm hc
        · exact h
      right; left
      generalize (if c = 40 then d + 1 else if c = 41 then d - 1 else d) = d'
      split <;> exact this

theorem commentLoop_nul (n d : Nat) (tok s : Bytes) : ∀ t r, commentLoop n d tok s = .ok (t, r) → (0 ∈ tok ∨ 0 ∈ s) → 0 ∈ t ∨ 0 ∈ r := by
  induction n generalizing d tok s with
  | zero => intro t r h; simp [commentLoop] at h
  | succ n ih =>
    intro t r h h0
    rw [commentLoop.eq_def] at h; dsimp only at h
    split at h
    · cases h; exact h0
    · rename_i hd
      cases s with
      | nil => cases h
      | cons c r0 =>
        simp only at h
        split at h
        · rename_i hc
          cases r0 with
          | nil => cases h
          | cons e r' =>
            refine ih _ _ _ t r h ?_
            rcases h0 with h0 | h0
            · left; simp [h0]
            · simp only [List.mem_cons] at h0
              rcases h0 with h0 | rfl | h0
              · rw [hc] at h0; exact absurd h0 (by decide)
              · left; simp
              · rcases commentStep_nul d r' h0 with g | g | g
                · left; simp [g]
                · right; exact g
                · exact absurd g.2 hd
        · refine ih _ _ _ t r h ?_
          rcases h0 with h0 | h0
          · left; simp [h0]
          · rcases commentStep_nul d (c :: r0) h0 with g | g | g
            · left; simp [g]
            · right; exact g
            · exact absurd g.2 hd

theorem isFWS_nul {w : Bytes} (h : IsFWS w) : ∀ c ∈ w, c = SP ∨ c = TAB ∨ c = CR ∨ c = LF := by
  have hw : ∀ c, isWSP c = true → c = SP ∨ c = TAB := by
    intro c hc
    simp only [Dkim.isWSP, Bool.or_eq_true, beq_iff_eq] at hc
    exact hc
  intro c hc
  rcases h with h | ⟨a, b, ha, hb, _, rfl⟩
  · rcases hw c (by simpa using h c hc) with h | h <;> simp [h]
  · simp only [List.mem_append, CRLF, List.mem_cons, List.not_mem_nil, or_false] at hc
    rcases hc with (hc | hc | hc) | hc
    · rcases hw c (by simpa using ha c hc) with h | h <;> simp [h]
    · simp [hc]
    · simp [hc]
    · rcases hw c (by simpa using hb c hc) with h | h <;> simp [h]

theorem nextTok_nul (sc : Bool) (n : Nat) (tok s : Bytes) : ∀ ty t r, nextTok sc n tok s = .ok (ty, t, r) → (0 ∈ tok ∨ 0 ∈ s) → 0 ∈ t ∨ 0 ∈ r := by
  induction n generalizing tok s with
  | zero => intro ty t r h; simp [nextTok] at h
  | succ n ih =>
    intro ty t r h h0
    rw [nextTok] at h
    have hdone : ∀ rr : Bytes, (if tok.isEmpty then .ok (.eof, [], rr) else .ok (.atom, tok, rr) : Except Err (AddrTok × Bytes × Bytes)) =
        .ok (ty, t, r) → (0 ∈ tok ∨ 0 ∈ rr) → 0 ∈ t ∨ 0 ∈ r := by
      intro rr hr h0
      split at hr
      · rename_i he
        have : tok = [] := by simpa using he
        subst this
        cases hr
        exact h0
      · cases hr; exact h0
    dsimp only at h
    split at h
    · rename_i he
      have : s = [] := by simpa using he
      subst this
      exact hdone [] h h0
    · cases hr : readFWS s with
      | error e => rw [hr] at h; cases h
      | ok p =>
        obtain ⟨ws, s1⟩ := p
        rw [hr] at h
        obtain ⟨rfl, hf⟩ := readFWS_ok hr
        have h0' : 0 ∈ tok ∨ 0 ∈ s1 := by
          rcases h0 with h0 | h0
          · exact .inl h0
          · rcases List.mem_append.1 h0 with h0 | h0
            · exact absurd (isFWS_nul hf 0 h0) (by decide)
            · exact .inr h0
        dsimp only at h
        split at h
        · exact hdone s1 h h0'
        · cases s1 with
          | nil => exact hdone [] h h0'
          | cons c r1 =>
            have early : ∀ (c' : Byte), c = c' → c' ≠ 0 → 0 ∈ tok ∨ 0 ∈ r1 := by
              intro c' hc hne
              rcases h0' with h | h
              · exact .inl h
              · rcases List.mem_cons.1 h with h | h
                · exact absurd (hc ▸ h.symm) hne
                · exact .inr h
            dsimp only at h
            split at h
            · rename_i hc
              split at h
              · cases h; exact h0'
              · rename_i hte
                have : tok = [] := by simpa using hte
                subst this
                cases hq : quotedLoop sc [] r1 with
                | error e => rw [hq] at h; cases h
                | ok q =>
                  obtain ⟨t', r'⟩ := q
                  rw [hq] at h
                  cases h
                  exact quotedLoop_nul sc [] r1 _ _ hq (early 34 hc (by decide))
            · split at h
              · rename_i hc
                split at h
                · cases h; exact h0'
                · rename_i hte
                  have : tok = [] := by simpa using hte
                  subst this
                  cases hq : commentLoop (r1.length + 2) 1 [] r1 with
                  | error e => rw [hq] at h; cases h
                  | ok q =>
                    obtain ⟨t', r'⟩ := q
                    rw [hq] at h
                    cases h
                    exact commentLoop_nul _ 1 [] r1 _ _ hq (early 40 hc (by decide))
              · split at h
                · rename_i hc
                  split at h
                  · cases h; exact h0'
                  · rename_i hte
                    have : tok = [] := by simpa using hte
                    subst this
                    cases h
                    exact early 60 hc (by decide)
                · split at h
                  · rename_i hc
                    split at h
                    · cases h; exact h0'
                    · rename_i hte
                      have : tok = [] := by simpa using hte
                      subst this
                      cases h
                      exact early 62 hc (by decide)
                  · split at h
                    · rename_i hc
                      split at h
                      · cases h; exact h0'
                      · rename_i hte
                        have : tok = [] := by simpa using hte
                        subst this
                        cases h
                        rcases hc with hc | hc
                        · exact early 44 hc (by decide)
                        · exact early 59 hc (by decide)
                    · refine ih _ _ ty t r h ?_
                      rcases h0' with h0 | h0
                      · left; simp [h0]
                      · rcases List.mem_cons.1 h0 with h0 | h0
                        · left; simp [← h0]
                        · right; exact h0

/-- The end token leaves nothing. -/
theorem nextTok_eof (sc : Bool) (n : Nat) (tok s : Bytes) : ∀ t r, nextTok sc n tok s = .ok (.eof, t, r) → r = [] := by
  induction n generalizing tok s with
  | zero => intro t r h; simp [nextTok] at h
  | succ n ih =>
    intro t r h
    rw [nextTok] at h
    dsimp only at h
    split at h
    · split at h <;> cases h; rfl
    · cases hr : readFWS s with
      | error e => rw [hr] at h; cases h
      | ok p =>
        obtain ⟨ws, s1⟩ := p
        rw [hr] at h
        dsimp only at h
        split at h
        · rename_i hne
          split at h
          · rename_i he; simp [he] at hne
          · cases h
        · cases s1 with
          | nil => dsimp only at h; split at h <;> cases h; rfl
          | cons c r1 =>
            dsimp only at h
            split at h
            · split at h
              · cases h
              · cases hq : quotedLoop sc [] r1 with
                | error e => rw [hq] at h; cases h
                | ok q => rw [hq] at h; cases h
            · split at h
              · split at h
                · cases h
                · cases hq : commentLoop (r1.length + 2) 1 [] r1 with
                  | error e => rw [hq] at h; cases h
                  | ok q => rw [hq] at h; cases h
              · split at h
                · split at h <;> cases h
                · split at h
                  · split at h <;> cases h
                  · split at h
                    · split at h <;> cases h
                    · exact ih _ _ t r h

/-- What the switch does to the collected addresses. -/
theorem addrSwitch_list (rec : Bytes → Except Err (List Bytes)) (P : Bytes → Prop) (hP : ∀ t as, rec t = .ok as → ∀ a ∈ as, P a)
    (hflat : ∀ ts : List Bytes, (∀ t ∈ ts, P t) → P ts.flatten) (st st' : AddrSt) (t : Bytes) (ht : P t)
    (h1 : ∀ a ∈ st.list, P a) (h2 : ∀ a ∈ st.tokens, P a) (h : addrSwitch rec st t = .ok st') :
    (∀ a ∈ st'.list, P a) ∧ ∀ a ∈ st'.tokens, P a := by
  unfold addrSwitch at h
  have happ : ∀ a ∈ st.tokens ++ [t], P a := by
    intro a ha
    rcases List.mem_append.1 ha with ha | ha
    · exact h2 a ha
    · rw [List.mem_singleton.1 ha]; exact ht
  cases hty : st.type <;> rw [hty] at h <;> dsimp only at h <;> first
    | (cases h; exact ⟨h1, happ⟩)
    | (cases h; exact ⟨h1, h2⟩)
    | (cases h; exact ⟨h1, by simp⟩)
    | (split at h
       · cases h
       · cases htk : st.tokens with
         | nil => rw [htk] at h; cases h; exact ⟨h1, by simp⟩
         | cons a as =>
           rw [htk] at h h2
           dsimp only at h
           split at h
           · cases h; exact ⟨h1, by simp⟩
           · split at h
             · split at h
               · cases h
               · rename_i addrs hrec
                 cases h
                 refine ⟨?_, by simp⟩
                 intro x hx
                 rcases List.mem_append.1 hx with hx | hx
                 · exact h1 x hx
                 · exact hP _ _ hrec x hx
             · cases h
               refine ⟨?_, by simp⟩
               intro x hx
               rcases List.mem_append.1 hx with hx | hx
               · exact h1 x hx
               · rw [List.mem_singleton.1 hx]; exact hflat _ h2)

theorem addrLoop_nul (sc : Bool) (rec : Bytes → Except Err (List Bytes)) (hrec : ∀ t as, rec t = .ok as → ∀ a ∈ as, (0 : Byte) ∉ a) (n : Nat) (st : AddrSt) (s : Bytes)
    (l : List Bytes) (he : st.type = .eof → s = []) (h1 : ∀ a ∈ st.list, (0 : Byte) ∉ a) (h2 : ∀ a ∈ st.tokens, (0 : Byte) ∉ a) (h : addrLoop sc rec n st s = .ok l) :
    0 ∉ s ∧ ∀ a ∈ l, (0 : Byte) ∉ a := by
  induction n generalizing st s with
  | zero => simp [addrLoop] at h
  | succ n ih =>
    rw [addrLoop] at h
    split at h
    · rename_i ht
      cases h
      exact ⟨by rw [he ht]; simp, h1⟩
    · cases hn : nextTok sc (s.length + 1) [] s with
      | error e => rw [hn] at h; cases h
      | ok p =>
        obtain ⟨ty, token, r⟩ := p
        rw [hn] at h
        dsimp only at h
        split at h
        · cases h
        · rename_i ht0
          have ht0 : 0 ∉ token := by simpa using ht0
          cases hsw : addrSwitch rec { st with last := st.type, type := ty } token with
          | error e => rw [hsw] at h; cases h
          | ok st' =>
            rw [hsw] at h
            dsimp only at h
            obtain ⟨k1, k2⟩ := addrSwitch_list rec (fun a => (0 : Byte) ∉ a) hrec (by
              intro ts hts h0
              obtain ⟨x, hx, hx0⟩ := List.mem_flatten.1 h0
              exact hts x hx hx0) { st with last := st.type, type := ty } st' token ht0 h1 h2 hsw
            have kt := addrSwitch_type rec _ _ _ hsw
            obtain ⟨a, b⟩ := ih st' r (fun hte => by
              have : ty = .eof := by rw [kt] at hte; exact hte
              subst this
              exact nextTok_eof sc _ _ _ _ _ hn) k1 k2 h
            refine ⟨fun h0 => ?_, b⟩
            rcases nextTok_nul sc _ [] s ty token r hn (.inr h0) with g | g
            · exact ht0 g
            · exact a g

theorem parseAddrDepth_nul (sc : Bool) (n : Nat) (s : Bytes) (l : List Bytes) (h : parseAddrDepth sc n s = .ok l) : 0 ∉ s ∧ ∀ a ∈ l, (0 : Byte) ∉ a := by
  induction n generalizing s l with
  | zero => simp [parseAddrDepth] at h
  | succ n ih =>
    rw [parseAddrDepth] at h
    exact addrLoop_nul sc _ (fun t as ht => (ih t as ht).2) _ _ _ _ (by simp) (by simp) (by simp) h

/-- C63: a text with a NUL byte anywhere is not accepted as an address list, and no address of an accepted list contains one. -/
theorem C63_no_nul (sc : Bool) (s : Bytes) (l : List Bytes) (h : parseAddressList sc s = .ok l) : 0 ∉ s ∧ ∀ a ∈ l, (0 : Byte) ∉ a :=
  parseAddrDepth_nul sc _ s l h

/-! ### Brackets -/

theorem bracketed_ws {o : Bool} {w r : Bytes} (h : ∀ c ∈ w, c = SP ∨ c = TAB ∨ c = CR ∨ c = LF) : Bracketed o (w ++ r) ↔ Bracketed o r := by
  induction w with
  | nil => rfl
  | cons c w ih =>
    have hc := h c (by simp)
    have e : Bracketed o ((c :: w) ++ r) ↔ Bracketed o (w ++ r) := by
      rw [List.cons_append, Spec.Bracketed]
      rcases hc with rfl | rfl | rfl | rfl <;> simp [SP, TAB, CR, LF]
    exact e.trans (ih (fun x hx => h x (by simp [hx])))

/-- What a token of text without quotation marks and parentheses does to the bracket state. -/
def TokBracket (o : Bool) (s : Bytes) (ty : AddrTok) (r : Bytes) : Prop :=
  match ty with
  | .atom => Bracketed o r → Bracketed o s
  | .tagOpen => Bracketed true r → Bracketed o s
  | .tagClose => Bracketed false r → Bracketed o s
  | .separator => o = false → Bracketed false r → Bracketed o s
  | .eof => o = false → Bracketed o s
  | .quoted => False
  | .comment => False

theorem nextTok_bracket (sc : Bool) (n : Nat) (tok s : Bytes) (hq : 34 ∉ s) (hp : 40 ∉ s) : ∀ ty t r, nextTok sc n tok s = .ok (ty, t, r) →
    (∀ o, TokBracket o s ty r) ∧ 34 ∉ r ∧ 40 ∉ r := by
  induction n generalizing tok s with
  | zero => intro ty t r h; simp [nextTok] at h
  | succ n ih =>
    intro ty t r h
    rw [nextTok] at h
    dsimp only at h
    split at h
    · rename_i he
      have : s = [] := by simpa using he
      subst this
      split at h <;> cases h
      · exact ⟨fun o ho => ho, by simp, by simp⟩
      · exact ⟨fun o ho => ho, by simp, by simp⟩
    · cases hr : readFWS s with
      | error e => rw [hr] at h; cases h
      | ok p =>
        obtain ⟨ws, s1⟩ := p
        rw [hr] at h
        obtain ⟨rfl, hf⟩ := readFWS_ok hr
        have hw : ∀ o, Bracketed o (ws ++ s1) ↔ Bracketed o s1 := fun o => bracketed_ws (isFWS_nul hf)
        have hq1 : 34 ∉ s1 := fun hx => hq (List.mem_append_right _ hx)
        have hp1 : 40 ∉ s1 := fun hx => hp (List.mem_append_right _ hx)
        have htb : ∀ o ty r, TokBracket o s1 ty r → TokBracket o (ws ++ s1) ty r := by
          intro o ty r hb
          cases ty <;> simp only [TokBracket, hw] at hb ⊢ <;> exact hb
        dsimp only at h
        split at h
        · rename_i hne
          split at h
          · rename_i he; simp [he] at hne
          · cases h; exact ⟨fun o => (hw o).2, hq1, hp1⟩
        · cases s1 with
          | nil =>
            dsimp only at h
            split at h <;> cases h
            · exact ⟨fun o => htb o .eof [] (fun ho => ho), by simp, by simp⟩
            · exact ⟨fun o => htb o .atom [] (fun ho => ho), by simp, by simp⟩
          | cons c r1 =>
            have hqr : 34 ∉ r1 := fun hx => hq1 (List.mem_cons_of_mem _ hx)
            have hpr : 40 ∉ r1 := fun hx => hp1 (List.mem_cons_of_mem _ hx)
            dsimp only at h
            split at h
            · rename_i hc; exact absurd (by simp [hc]) hq1
            · split at h
              · rename_i hc; exact absurd (by simp [hc]) hp1
              · split at h
                · rename_i hc
                  split at h <;> cases h
                  · exact ⟨fun o => (hw o).2, hq1, hp1⟩
                  · refine ⟨fun o => htb o .tagOpen r (fun hb => ?_), hqr, hpr⟩
                    rw [Spec.Bracketed, if_pos hc]; exact hb
                · rename_i n60
                  split at h
                  · rename_i hc
                    split at h <;> cases h
                    · exact ⟨fun o => (hw o).2, hq1, hp1⟩
                    · refine ⟨fun o => htb o .tagClose r (fun hb => ?_), hqr, hpr⟩
                      rw [Spec.Bracketed, if_neg n60, if_pos hc]; exact hb
                  · rename_i n62
                    split at h
                    · rename_i hc
                      split at h <;> cases h
                      · exact ⟨fun o => (hw o).2, hq1, hp1⟩
                      · refine ⟨fun o => htb o .separator r (fun ho hb => ?_), hqr, hpr⟩
                        rw [Spec.Bracketed, if_neg n60, if_neg n62, if_pos hc]; exact ⟨ho, hb⟩
                    · rename_i nsep
                      obtain ⟨a, b⟩ := ih _ _ hqr hpr ty t r h
                      refine ⟨fun o => htb o ty r ?_, b⟩
                      have e : Bracketed o (c :: r1) ↔ Bracketed o r1 := by
                        rw [Spec.Bracketed, if_neg n60, if_neg n62, if_neg nsep]
                      have := a o
                      cases ty <;> simp only [TokBracket, e] at this ⊢ <;> exact this

theorem addrSwitch_open (rec : Bytes → Except Err (List Bytes)) (st st' : AddrSt) (t : Bytes) (h : addrSwitch rec st t = .ok st') :
    match st.type with
    | .quoted => st'.inOpen = st.inOpen
    | .atom => st'.inOpen = st.inOpen
    | .comment => st'.inOpen = st.inOpen
    | .tagOpen => st'.inOpen = true
    | .tagClose => st'.inOpen = false
    | .separator => st.inOpen = false ∧ st'.inOpen = false
    | .eof => st.inOpen = false ∧ st'.inOpen = false := by
  unfold addrSwitch at h
  cases hty : st.type <;> rw [hty] at h <;> dsimp only at h ⊢ <;> first
    | (cases h; rfl)
    | (split at h
       · cases h
       · rename_i ho
         have ho : st.inOpen = false := by simpa using ho
         cases htk : st.tokens with
         | nil => rw [htk] at h; cases h; exact ⟨ho, ho⟩
         | cons a as =>
           rw [htk] at h
           dsimp only at h
           split at h
           · cases h; exact ⟨ho, ho⟩
           · split at h
             · split at h
               · cases h
               · cases h; exact ⟨ho, ho⟩
             · cases h; exact ⟨ho, ho⟩)
    | (split at h
       · cases h
       · cases htk : st.tokens with
         | nil => rw [htk] at h; cases h; rfl
         | cons a as =>
           rw [htk] at h
           dsimp only at h
           split at h
           · cases h; rfl
           · split at h
             · split at h
               · cases h
               · cases h; rfl
             · cases h; rfl)

theorem addrLoop_bracket (sc : Bool) (rec : Bytes → Except Err (List Bytes)) (n : Nat) (st : AddrSt) (s : Bytes)
    (l : List Bytes) (he : st.type = .eof → s = [] ∧ st.inOpen = false) (hq : 34 ∉ s) (hp : 40 ∉ s) (h : addrLoop sc rec n st s = .ok l) :
    Bracketed st.inOpen s := by
  induction n generalizing st s with
  | zero => simp [addrLoop] at h
  | succ n ih =>
    rw [addrLoop] at h
    split at h
    · rename_i ht
      rw [(he ht).1]; exact (he ht).2
    · cases hn : nextTok sc (s.length + 1) [] s with
      | error e => rw [hn] at h; cases h
      | ok p =>
        obtain ⟨ty, token, r⟩ := p
        rw [hn] at h
        dsimp only at h
        split at h
        · cases h
        · cases hsw : addrSwitch rec { st with last := st.type, type := ty } token with
          | error e => rw [hsw] at h; cases h
          | ok st' =>
            rw [hsw] at h
            dsimp only at h
            have ko := addrSwitch_open rec _ _ _ hsw
            have kt := addrSwitch_type rec _ _ _ hsw
            obtain ⟨b1, b2, b3⟩ := nextTok_bracket sc _ [] s hq hp ty token r hn
            have b1 := b1 st.inOpen
            have := ih st' r (fun hte => by
              have : ty = .eof := by rw [kt] at hte; exact hte
              subst this
              exact ⟨nextTok_eof sc _ _ _ _ _ hn, ko.2⟩) b2 b3 h
            cases ty with
            | quoted => exact b1.elim
            | comment => exact b1.elim
            | atom => simp only at ko; rw [ko] at this; exact b1 this
            | tagOpen => simp only at ko; rw [ko] at this; exact b1 this
            | tagClose => simp only at ko; rw [ko] at this; exact b1 this
            | separator => simp only at ko; rw [ko.2] at this; exact b1 ko.1 this
            | eof => exact b1 ko.1

/-- C63: in an accepted list without quotation marks and comments every `<` is closed before the next separator and before the end. -/
theorem C63_brackets (sc : Bool) (s : Bytes) (l : List Bytes) (hq : 34 ∉ s) (hp : 40 ∉ s) (h : parseAddressList sc s = .ok l) : Bracketed false s := by
  unfold parseAddressList at h
  rw [parseAddrDepth] at h
  exact addrLoop_bracket sc _ _ _ _ _ (by simp) hq hp h

/-- An accepted list with brackets. -/
theorem bracket_example (sc : Bool) : parseAddressList sc b!"Joe, Inc <joe@a.b>, x@y" = .ok [b!"joe@a.b", b!"x@y"] := by
  cases sc <;> decide +kernel

/-- Lists that are refused. -/
theorem bracket_refused (sc : Bool) : parseAddressList sc b!"Joe <joe@a.b, x@y>" = .error (.p .unclosedAddrSpec) ∧
    parseAddressList sc (b!"Joe <joe@a.b" ++ [0] ++ b!">") = .error (.p .nulInAddress) := by
  cases sc <;> decide +kernel

end Dkim

import Verif.Proofs.AddressText
/-!
# When the address parser never returns (unsigned `char`)
-/

namespace Dkim
open Spec

theorem quotedLoop_hang (tok s : Bytes) : quotedLoop false tok s = .error .hang ↔ ∃ content, Quoted false content s := by
  constructor
  · intro h
    generalize hsc : false = sc at h
    induction tok, s using quotedLoop.induct (sc := sc) with
    | case1 tok h' => subst hsc; simp at h'
    | case2 tok h' => subst hsc; exact ⟨[], .nil⟩
    | case3 tok c r h' => subst hsc; simp at h'
    | case4 tok h' => rw [quotedLoop.eq_def] at h; dsimp only at h; rw [if_neg h', if_pos rfl] at h; cases h
    | case5 tok d r' h' ih =>
      rw [quotedLoop.eq_def] at h; dsimp only at h; rw [if_neg h', if_pos rfl] at h
      obtain ⟨content, hq⟩ := ih h
      exact ⟨d :: content, .escaped _ _ _ hq⟩
    | case6 tok r' h' h2 =>
      rw [quotedLoop.eq_def] at h; dsimp only at h; rw [if_neg h', if_neg h2, if_pos rfl] at h; cases h
    | case7 tok c r' h' h2 h3 ih =>
      rw [quotedLoop.eq_def] at h; dsimp only at h; rw [if_neg h', if_neg h2, if_neg h3] at h
      obtain ⟨content, hq⟩ := ih h
      exact ⟨c :: content, .plain _ _ _ h3 h2 (fun h => by rw [← hsc] at h; cases h) hq⟩
  · rintro ⟨content, hq⟩
    induction hq generalizing tok with
    | nil => rw [quotedLoop.eq_def]; simp
    | plain c content text h1 h2 h3 _ ih => rw [quotedLoop.eq_def]; simp [h1, h2, ih]
    | escaped c content text _ ih => rw [quotedLoop.eq_def]; simp [ih]

theorem nextTok_noHang (sc : Bool) (n : Nat) (tok s : Bytes) (hn : s.length < n) (hne : tok ≠ []) : nextTok sc n tok s ≠ .error .hang := by
  have hte : tok.isEmpty = false := by cases tok <;> simp at *
  induction n generalizing tok s with
  | zero => omega
  | succ n ih =>
    rw [nextTok.eq_def]
    simp only [hte, Bool.false_eq_true, if_false]
    cases s with
    | nil => simp
    | cons c s =>
      simp only [List.isEmpty_cons, Bool.false_eq_true, if_false]
      cases hr : readFWS (c :: s) with
      | error e =>
        simp only [ne_eq]
        rw [(readFWS_error hr).1]
        intro h; cases h
      | ok p =>
        obtain ⟨ws, s1⟩ := p
        have hl := readFWS_length hr
        dsimp only
        cases ws with
        | cons x ws => simp
        | nil =>
          simp only [List.isEmpty_nil, Bool.not_true, Bool.false_eq_true, false_and, if_false, Bool.not_false, if_true]
          cases s1 with
          | nil => simp
          | cons d s1 =>
            dsimp only
            repeat' split
            all_goals first
              | exact ih (tok ++ [d]) s1 (by simp at hn hl; omega) (by simp) (by simp)
              | simp

theorem commentLoop_noHang (n d : Nat) (tok s : Bytes) (h : s.length < n) : commentLoop n d tok s ≠ .error .hang := by
  intro hc
  obtain ⟨r, hr⟩ := (commentLoop_ends n d tok s h).1 _ hc
  cases hr

theorem tokAt_hang (s : Bytes) : tokAt false s = .error .hang ↔ ∃ w q content, ReadsFWS s w (34 :: q) ∧ Quoted false content q := by
  have hne : ∀ w c r', ReadsFWS s w (c :: r') → s.isEmpty = false := by
    intro w c r' h
    cases hs : s with
    | nil =>
      subst hs
      have := (readFWS_ok ((C08_fws_exact _ _ _).2 h)).1.symm
      simp at this
    | cons => rfl
  unfold tokAt
  rw [nextTok.eq_def]
  simp only [List.isEmpty_nil, Bool.not_true, Bool.false_eq_true, and_false, if_false, if_true]
  constructor
  · intro h
    split at h
    · cases h
    · cases hr : readFWS s with
      | error e =>
        rw [hr] at h
        dsimp only at h
        rw [(readFWS_error hr).1] at h; cases h
      | ok p =>
        obtain ⟨ws, s1⟩ := p
        rw [hr] at h
        dsimp only at h
        have hR := (C08_fws_exact _ _ _).1 hr
        have hl := readFWS_length hr
        cases s1 with
        | nil => cases h
        | cons c s1 =>
          dsimp only at h
          split at h
          · rename_i hc
            subst hc
            cases hq : quotedLoop false [] s1 with
            | error e =>
              rw [hq] at h
              cases h
              obtain ⟨content, hq⟩ := (quotedLoop_hang _ _).1 hq
              exact ⟨ws, s1, content, hR, hq⟩
            | ok p => rw [hq] at h; cases h
          · split at h
            · cases hq : commentLoop (s1.length + 2) 1 [] s1 with
              | error e => rw [hq] at h; cases h; exact absurd hq (commentLoop_noHang _ _ _ _ (by omega))
              | ok p => rw [hq] at h; cases h
            · split at h
              · cases h
              · split at h
                · cases h
                · split at h
                  · cases h
                  · exact absurd h (nextTok_noHang _ _ _ _ (by simp at hl ⊢; omega) (by simp))
  · rintro ⟨w, q, content, h1, h2⟩
    rw [hne _ _ _ h1, (C08_fws_exact _ _ _).2 h1]
    simp only [Bool.false_eq_true, if_false, if_true]
    rw [(quotedLoop_hang [] q).2 ⟨content, h2⟩]

theorem flush_hang (rec : Bytes → Except Err (List Bytes)) (st : AddrSt) (seg : List Tok) (hI : GroupInv st seg) (hc : st.type ≠ .tagClose ∨ st.tokens = [])
    (e : GroupEnd) (x : Bytes) :
    addrSwitch rec { st with last := st.type, type := e.kind } x = .error .hang ↔
      (e ≠ .closing → Tok.opening ∉ seg) ∧ ∃ q, NestedIn seg q ∧ (e = .separator → 64 ∈ q) ∧ rec q = .error .hang := by
  have hflush : addrSwitch rec { st with last := st.type, type := e.kind } x =
      (let st1 : AddrSt := { st with last := st.type, type := e.kind }
       let o : Bool := if e = .closing then false else st.inOpen
       if o then .error (.p .unclosedAddrSpec)
       else match st.tokens with
        | [] => .ok { st1 with inOpen := o }
        | t :: ts =>
          if e.kind = .separator ∧ st.type ≠ .tagClose ∧ !((t :: ts).getLast (by simp)).contains 64 then .ok { st1 with inOpen := o, tokens := [] }
          else if st.type = .quoted ∧ ts = [] then
            match rec t with
            | .error e => .error e
            | .ok addrs => .ok { st1 with inOpen := o, list := st.list ++ addrs, tokens := [] }
          else .ok { st1 with inOpen := o, list := st.list ++ [(t :: ts).flatten], tokens := [] }) := by
    cases e <;> rfl
  obtain ⟨part, hp, htok⟩ := hI.tokens
  rw [hflush]
  clear hflush
  dsimp only
  have ho : (if e = .closing then false else st.inOpen) = true ↔ ¬ (e ≠ .closing → Tok.opening ∉ seg) := by
    by_cases h : e = .closing
    · simp [h]
    · simp [h, hI.inOpen]
  by_cases hopen : ¬ (e ≠ .closing → Tok.opening ∉ seg)
  · rw [if_pos (ho.2 hopen)]
    simp [hopen, Err.p]
  replace hopen := Classical.not_not.1 hopen
  rw [if_neg (fun h => (ho.1 h) hopen)]
  rw [htok]
  -- a nested list in the group
  have nest : ∀ q, NestedIn seg q ↔ ∃ a, part = a ++ [.quoted q] ∧ contents a = [] := by
    intro q
    constructor
    · rintro ⟨a, h1, h2⟩; exact ⟨a, hp.det h1, h2⟩
    · rintro ⟨a, rfl, h2⟩; exact ⟨a, hp, h2⟩
  have one : ∀ a q, contents a = [] → contents (a ++ [Tok.quoted q]) = [q] := by
    intro a q h
    rw [contents, List.flatMap_append]; change contents a ++ _ = _; rw [h]; rfl
  have hq : ∀ q, NestedIn seg q → contents part = [q] ∧ st.type = .quoted := by
    intro q h
    obtain ⟨a, rfl, h2⟩ := (nest q).1 h
    exact ⟨one a q h2, hI.quoted.2 ((part_quoted hp).2 ⟨a, q, rfl⟩)⟩
  cases hcs : contents part with
  | nil =>
    dsimp only
    simp only [reduceCtorEq, false_iff]
    rintro ⟨-, q, h1, -⟩
    have := (hq q h1).1
    rw [hcs] at this; cases this
  | cons t ts =>
    dsimp only
    have hty : st.type ≠ .tagClose := by
      rcases hc with h | h
      · exact h
      · rw [htok, hcs] at h; cases h
    generalize hy : (t :: ts).getLast _ = y
    by_cases h1 : e.kind = .separator ∧ st.type ≠ .tagClose ∧ (!y.contains 64) = true
    · rw [if_pos h1]
      simp only [reduceCtorEq, false_iff]
      rintro ⟨-, q, g1, g2, -⟩
      have := (hq q g1).1
      rw [hcs] at this
      simp only [List.cons.injEq] at this
      obtain ⟨rfl, rfl⟩ := this
      simp at hy
      subst hy
      have he : e = .separator := by
        have := h1.1
        cases e <;> simp [GroupEnd.kind] at this; rfl
      have := h1.2.2
      simp at this
      exact this (g2 he)
    · rw [if_neg h1]
      by_cases h2 : st.type = .quoted ∧ ts = []
      · rw [if_pos h2]
        obtain ⟨h2a, rfl⟩ := h2
        simp at hy
        subst hy
        have hN : NestedIn seg t := by
          obtain ⟨a, q, rfl⟩ := (part_quoted hp).1 (hI.quoted.1 h2a)
          have : contents (a ++ [Tok.quoted q]) = contents a ++ [q] := by simp [contents, Tok.content]
          rw [this] at hcs
          have hl := congrArg List.length hcs
          simp at hl
          rw [hl] at hcs
          simp at hcs
          exact (nest t).2 ⟨a, by rw [hcs], hl⟩
        have hs : e = .separator → 64 ∈ t := by
          rintro rfl
          refine Classical.byContradiction fun hn => h1 ⟨rfl, hty, by simpa using hn⟩
        have huniq : ∀ q, NestedIn seg q → q = t := by
          intro q h
          have := (hq q h).1
          rw [hcs] at this
          simpa using this.symm
        cases hr : rec t with
        | error er =>
          dsimp only
          constructor
          · intro h; cases h; exact ⟨hopen, t, hN, hs, hr⟩
          · rintro ⟨-, q, g1, -, g2⟩
            rw [huniq q g1, hr] at g2
            cases g2; rfl
        | ok as =>
          simp only [reduceCtorEq, false_iff]
          rintro ⟨-, q, g1, -, g2⟩
          rw [huniq q g1, hr] at g2; cases g2
      · rw [if_neg h2]
        simp only [reduceCtorEq, false_iff]
        rintro ⟨-, q, g1, -⟩
        obtain ⟨g2, g3⟩ := hq q g1
        rw [hcs] at g2
        simp at g2
        exact h2 ⟨g3, g2.2⟩

/-! ## The loop -/

variable {R : Bytes → List Bytes → Prop} {H : Bytes → Prop}

theorem stops_sep_iff {g ts : List Tok} {r : Bytes} (hg : OneGroup g) : Stops R H (g ++ .separator :: ts) r ↔ Tok.opening ∉ g ∧
    (ts = [] ∧ (∃ q, NestedIn g q ∧ 64 ∈ q ∧ H q) ∨ ∃ as, Group R g .separator as ∧ Stops R H ts r) := by
  constructor
  · intro h
    generalize hl : g ++ Tok.separator :: ts = l at h
    have sp : ∀ {g' : List Tok} {b ts'}, OneGroup g' → (b = Tok.closing ∨ b = Tok.separator) → g ++ Tok.separator :: ts = g' ++ b :: ts' →
        g = g' ∧ Tok.separator = b ∧ ts = ts' := by
      intro g' b ts' hg' hb hl
      exact split_first_of (p := fun c => c = Tok.closing ∨ c = Tok.separator) hl (.inr rfl) hb (oneGroup_iff.1 hg) (oneGroup_iff.1 hg')
    cases h with
    | unclosed _ _ w q content h1 => exfalso; rw [← hl] at h1; exact h1.2 (by simp)
    | fin _ q _ w h1 => exfalso; rw [← hl] at h1; exact h1.2 (by simp)
    | separator g' q _ h1 h2 h3 h4 h5 =>
      obtain ⟨rfl, -, rfl⟩ := sp h1 (.inr rfl) hl
      exact ⟨h2, .inl ⟨rfl, q, h3, h4, h5⟩⟩
    | closing g' q _ h1 h3 h5 =>
      obtain ⟨-, h, -⟩ := sp h1 (.inl rfl) hl
      cases h
    | afterSeparator g' as ts' _ h1 h2 h3 h4 =>
      obtain ⟨rfl, -, rfl⟩ := sp h1 (.inr rfl) hl
      exact ⟨h2, .inr ⟨as, h3, h4⟩⟩
    | afterClosing g' as ts' _ h1 h3 h4 =>
      obtain ⟨-, h, -⟩ := sp h1 (.inl rfl) hl
      cases h
  · rintro ⟨h1, ⟨rfl, q, h2, h3, h4⟩ | ⟨as, h2, h3⟩⟩
    · exact .separator g q r hg h1 h2 h3 h4
    · exact .afterSeparator g as ts r hg h1 h2 h3

theorem stops_close_iff {g ts : List Tok} {r : Bytes} (hg : OneGroup g) : Stops R H (g ++ .closing :: ts) r ↔
    (ts = [] ∧ (∃ q, NestedIn g q ∧ H q) ∨ ∃ as, Group R g .closing as ∧ Stops R H ts r) := by
  constructor
  · intro h
    generalize hl : g ++ Tok.closing :: ts = l at h
    have sp : ∀ {g' : List Tok} {b ts'}, OneGroup g' → (b = Tok.closing ∨ b = Tok.separator) → g ++ Tok.closing :: ts = g' ++ b :: ts' →
        g = g' ∧ Tok.closing = b ∧ ts = ts' := by
      intro g' b ts' hg' hb hl
      exact split_first_of (p := fun c => c = Tok.closing ∨ c = Tok.separator) hl (.inl rfl) hb (oneGroup_iff.1 hg) (oneGroup_iff.1 hg')
    cases h with
    | unclosed _ _ w q content h1 => exfalso; rw [← hl] at h1; exact h1.1 (by simp)
    | fin _ q _ w h1 => exfalso; rw [← hl] at h1; exact h1.1 (by simp)
    | closing g' q _ h1 h3 h5 =>
      obtain ⟨rfl, -, rfl⟩ := sp h1 (.inl rfl) hl
      exact .inl ⟨rfl, q, h3, h5⟩
    | separator g' q _ h1 h2 h3 h4 h5 =>
      obtain ⟨-, h, -⟩ := sp h1 (.inr rfl) hl
      cases h
    | afterClosing g' as ts' _ h1 h3 h4 =>
      obtain ⟨rfl, -, rfl⟩ := sp h1 (.inl rfl) hl
      exact .inr ⟨as, h3, h4⟩
    | afterSeparator g' as ts' _ h1 h2 h3 h4 =>
      obtain ⟨-, h, -⟩ := sp h1 (.inr rfl) hl
      cases h
  · rintro (⟨rfl, q, h2, h4⟩ | ⟨as, h2, h3⟩)
    · exact .closing g q r hg h2 h4
    · exact .afterClosing g as ts r hg h2 h3

theorem stops_last_iff {g : List Tok} {r : Bytes} (hg : OneGroup g) : Stops R H g r ↔
    ((∃ w q content, ReadsFWS r w (34 :: q) ∧ Quoted false content q) ∨
      Tok.opening ∉ g ∧ (∃ w, ReadsFWS r w []) ∧ ∃ q, NestedIn g q ∧ H q) := by
  constructor
  · intro h
    cases h with
    | unclosed _ _ w q content h1 h2 h3 => exact .inl ⟨w, q, content, h2, h3⟩
    | fin _ q _ w h1 h2 h3 h4 h5 => exact .inr ⟨h2, ⟨w, h4⟩, q, h3, h5⟩
    | separator => exfalso; exact hg.2 (by simp)
    | closing => exfalso; exact hg.1 (by simp)
    | afterSeparator => exfalso; exact hg.2 (by simp)
    | afterClosing => exfalso; exact hg.1 (by simp)
  · rintro (⟨w, q, content, h2, h3⟩ | ⟨h1, ⟨w, h2⟩, q, h3, h4⟩)
    · exact .unclosed g r w q content hg h2 h3
    · exact .fin g q r w hg h1 h3 h2 h4

theorem addrLoop_hang (rec : Bytes → Except Err (List Bytes)) (n : Nat) (st : AddrSt) (s : Bytes) (seg : List Tok)
    (hI : GroupInv st seg) (hc : st.type ≠ .tagClose ∨ st.tokens = []) (hn : s.length + 2 ≤ n) (hty : st.type ≠ .eof) :
    addrLoop false rec n st s = .error .hang ↔
      ∃ ts r, TokensBefore false s ts r ∧ Stops (fun q l => rec q = .ok l) (fun q => rec q = .error .hang) (seg ++ ts) r := by
  induction n generalizing st s seg with
  | zero => omega
  | succ n ih =>
    rw [addrLoop.eq_def]
    dsimp only
    rw [if_neg hty]
    change ((match tokAt false s with
      | .error e => .error e
      | .ok (ty, token, r) =>
        if token.contains 0 then .error (.p .nulInAddress)
        else
          match addrSwitch rec { st with last := st.type, type := ty } token with
          | .error e => .error e
          | .ok st' => addrLoop false rec n st' r) : Except Err (List Bytes)) = .error .hang ↔ _
    -- the right-hand side, by the first token
    have rhs : (∃ ts r, TokensBefore false s ts r ∧ Stops (fun q l => rec q = .ok l) (fun q => rec q = .error .hang) (seg ++ ts) r) ↔
        (tokAt false s = .error .hang) ∨
        ((∃ x r, tokAt false s = .ok (.eof, x, r)) ∧ Tok.opening ∉ seg ∧ ∃ q, NestedIn seg q ∧ rec q = .error .hang) ∨
        ∃ t r ts r', TokText false s t r ∧ TokensBefore false r ts r' ∧
          Stops (fun q l => rec q = .ok l) (fun q => rec q = .error .hang) (seg ++ t :: ts) r' := by
      constructor
      · rintro ⟨ts, r, h1, h2⟩
        cases h1 with
        | none =>
          rw [List.append_nil, stops_last_iff hI.one] at h2
          rcases h2 with h2 | ⟨h2, h3, h4⟩
          · exact .inl ((tokAt_hang s).2 h2)
          · exact .inr (.inl ⟨(tokAt_eof_iff false s).2 h3, h2, h4⟩)
        | cons _ t r1 ts' _ h3 h4 => exact .inr (.inr ⟨t, r1, ts', r, h3, h4, h2⟩)
      · rintro (h | ⟨h1, h2, h3⟩ | ⟨t, r1, ts, r, h1, h2, h3⟩)
        · exact ⟨[], s, .none s, by rw [List.append_nil, stops_last_iff hI.one]; exact .inl ((tokAt_hang s).1 h)⟩
        · exact ⟨[], s, .none s, by rw [List.append_nil, stops_last_iff hI.one]; exact .inr ⟨h2, (tokAt_eof_iff false s).1 h1, h3⟩⟩
        · exact ⟨t :: ts, r, .cons _ _ _ _ _ h1 h2, h3⟩
    rw [rhs]
    clear rhs
    have tokInv : ∀ t r, TokText false s t r → ∃ ty x, tokAt false s = .ok (ty, x, r) ∧ t.Reads ty x ∧ 0 ∉ x :=
      fun t r h => (tokAt_iff false s t r).2 h
    cases htk : tokAt false s with
    | error e =>
      dsimp only
      constructor
      · intro h; cases h; exact .inl rfl
      · rintro (h | ⟨⟨x, r, h⟩, -⟩ | ⟨t, r, ts, r', h, -⟩)
        · cases h; rfl
        · cases h
        · obtain ⟨ty, x, h, -⟩ := tokInv t r h
          rw [htk] at h; cases h
    | ok p =>
      obtain ⟨ty, x, r⟩ := p
      simp only [reduceCtorEq, false_or]
      by_cases h0 : (0 : Byte) ∈ x
      · rw [if_pos (by simpa using h0)]
        constructor
        · intro h; cases h
        · rintro (⟨⟨x', r', h⟩, -⟩ | ⟨t, r', ts, r'', h, -⟩)
          · cases h
            have := tokAt_empty false s _ _ _ htk (by simp)
            rw [this] at h0; cases h0
          · obtain ⟨ty', x', h, -, h0'⟩ := tokInv t r' h
            rw [htk] at h; cases h; exact absurd h0 h0'
      · rw [if_neg (by simpa using h0)]
        have hends := (nextTok_ends false (s.length + 1) [] s (by omega)).2 ty x r htk
        by_cases hte : ty = .eof
        · subst hte
          have hf := flush_hang rec st seg hI hc .fin x
          simp only [ne_eq, reduceCtorEq, not_false_eq_true, forall_const, false_implies, true_and] at hf
          have hno : ¬ ∃ t r1 ts r', TokText false s t r1 ∧ TokensBefore false r1 ts r' ∧
              Stops (fun q l => rec q = .ok l) (fun q => rec q = .error .hang) (seg ++ t :: ts) r' := by
            rintro ⟨t, r1, ts, r', h, -⟩
            obtain ⟨ty', x', h, ⟨h2, -⟩, -⟩ := tokInv t r1 h
            rw [htk] at h; cases h; cases t <;> cases h2
          constructor
          · intro h
            left
            refine ⟨⟨x, r, rfl⟩, hf.1 ?_⟩
            cases hsw : addrSwitch rec { st with last := st.type, type := .eof } x with
            | error e => rw [hsw] at h; cases h; exact hsw
            | ok st' =>
              rw [hsw] at h
              dsimp only at h
              have hst := addrSwitch_type _ _ _ _ hsw
              match n, hn with
              | n + 1, hn =>
                rw [addrLoop.eq_def] at h
                dsimp only at h
                rw [if_pos hst] at h
                cases h
          · rintro (⟨-, h⟩ | h)
            · have hsw : addrSwitch rec { st with last := st.type, type := .eof } x = .error .hang := hf.2 h
              rw [hsw]
            · exact absurd h hno
        · have hlt := hends.2.1 rfl hte
          obtain ⟨t, ht⟩ : ∃ t : Tok, t.Reads ty x := by
            cases ty with
            | quoted => exact ⟨.quoted x, rfl, fun _ => .inl rfl⟩
            | atom => exact ⟨.word x, rfl, fun _ => .inl rfl⟩
            | comment => exact ⟨.comment, rfl, fun h => absurd rfl h⟩
            | tagOpen => exact ⟨.opening, rfl, fun _ => .inr ⟨tokAt_empty false s _ _ _ htk (by simp), rfl⟩⟩
            | tagClose => exact ⟨.closing, rfl, fun _ => .inr ⟨tokAt_empty false s _ _ _ htk (by simp), rfl⟩⟩
            | separator => exact ⟨.separator, rfl, fun _ => .inr ⟨tokAt_empty false s _ _ _ htk (by simp), rfl⟩⟩
            | eof => exact absurd rfl hte
          have hT : TokText false s t r := (tokAt_iff false s t r).1 ⟨ty, x, htk, ht, h0⟩
          have hrhs : ((∃ x' r', (Except.ok (ty, x, r) : Except Err (AddrTok × Bytes × Bytes)) = .ok (.eof, x', r')) ∧ Tok.opening ∉ seg ∧ (∃ q, NestedIn seg q ∧ rec q = .error .hang) ∨
              ∃ t r ts r', TokText false s t r ∧ TokensBefore false r ts r' ∧
                Stops (fun q l => rec q = .ok l) (fun q => rec q = .error .hang) (seg ++ t :: ts) r') ↔
              ∃ ts r', TokensBefore false r ts r' ∧ Stops (fun q l => rec q = .ok l) (fun q => rec q = .error .hang) (seg ++ t :: ts) r' := by
            constructor
            · rintro (⟨⟨x', r', h⟩, -⟩ | ⟨t', r1, ts, r', h1, h2, h3⟩)
              · cases h; exact absurd rfl hte
              · obtain ⟨ty', x', h, hr', -⟩ := tokInv t' r1 h1
                rw [htk] at h
                cases h
                have : t' = t := by
                  obtain ⟨k1, k2⟩ := ht
                  obtain ⟨k1', k2'⟩ := hr'
                  cases t <;> cases t' <;> simp [Tok.kind] at k1 k1' <;> (try subst k1) <;> (try cases k1') <;>
                    first
                      | rfl
                      | (simp [Tok.content] at k2 k2'; rw [← k2, ← k2'])
                subst this
                exact ⟨ts, r', h2, h3⟩
            · rintro ⟨ts, r', h2, h3⟩
              exact .inr ⟨t, r, ts, r', hT, h2, h3⟩
          refine Iff.trans ?_ hrhs.symm
          clear hrhs
          have happ : ∀ ts, seg ++ t :: ts = (seg ++ [t]) ++ ts := by intro ts; simp
          obtain ⟨hk, hx⟩ := ht
          have item : ∀ st' : AddrSt, addrSwitch rec { st with last := st.type, type := ty } x = .ok st' →
              GroupInv st' (seg ++ [t]) → st'.type ≠ .tagClose → ((match addrSwitch rec { st with last := st.type, type := ty } x with
                | .error e => .error e
                | .ok st' => addrLoop false rec n st' r : Except Err (List Bytes)) = .error .hang ↔
                ∃ ts r', TokensBefore false r ts r' ∧ Stops (fun q l => rec q = .ok l) (fun q => rec q = .error .hang) (seg ++ t :: ts) r') := by
            intro st' h1 h3 h4
            rw [h1]
            dsimp only
            have h5 := addrSwitch_type _ _ _ _ h1
            refine (ih st' r _ h3 (.inl h4) (by omega) (by rw [h5]; exact hte)).trans ?_
            constructor <;> rintro ⟨ts, r', g1, g2⟩
            · exact ⟨ts, r', g1, by rw [happ]; exact g2⟩
            · exact ⟨ts, r', g1, by rw [← happ]; exact g2⟩
          have fin : ∀ e : GroupEnd, ty = e.kind → ((match addrSwitch rec { st with last := st.type, type := ty } x with
                | .error e => .error e
                | .ok st' => addrLoop false rec n st' r : Except Err (List Bytes)) = .error .hang ↔
                (e ≠ .closing → Tok.opening ∉ seg) ∧ ((∃ q, NestedIn seg q ∧ (e = .separator → 64 ∈ q) ∧ rec q = .error .hang) ∨
                  ∃ as ts r', Group (fun q l => rec q = .ok l) seg e as ∧ TokensBefore false r ts r' ∧
                    Stops (fun q l => rec q = .ok l) (fun q => rec q = .error .hang) ts r')) := by
            intro e he
            have hfh := flush_hang rec st seg hI hc e x
            have hf := flush_iff rec st seg hI hc e x
            subst he
            cases hsw : addrSwitch rec { st with last := st.type, type := e.kind } x with
            | error er =>
              rw [hsw] at hfh
              dsimp only
              constructor
              · intro h
                cases h
                obtain ⟨h1, h2⟩ := hfh.1 rfl
                exact ⟨h1, .inl h2⟩
              · rintro ⟨h1, h2 | ⟨as, ts, r', h2, -⟩⟩
                · have := hfh.2 ⟨h1, h2⟩
                  cases this; rfl
                · obtain ⟨st', h3, -⟩ := (hf (st.list ++ as)).2 ⟨h1, as, h2, rfl⟩
                  rw [hsw] at h3; cases h3
            | ok st' =>
              rw [hsw] at hfh
              dsimp only
              obtain ⟨k1, k2, k3⟩ := flush_state rec st st' e x hsw
              have hq : st'.type ≠ .quoted := by rw [k3]; cases e <;> simp [GroupEnd.kind]
              refine (ih st' r [] (GroupInv.empty st' k1 k2 hq) (.inr k1) (by omega) (by rw [k3]; exact hte)).trans ?_
              simp only [List.nil_append]
              constructor
              · rintro ⟨ts, r', g1, g2⟩
                obtain ⟨h1, xs, h2, h3⟩ := (hf st'.list).1 ⟨st', hsw, rfl⟩
                exact ⟨h1, .inr ⟨xs, ts, r', h2, g1, g2⟩⟩
              · rintro ⟨h1, h2 | ⟨as, ts, r', h2, g1, g2⟩⟩
                · have := hfh.2 ⟨h1, h2⟩
                  cases this
                · exact ⟨ts, r', g1, g2⟩
          cases t with
          | word a =>
            subst hk
            simp [Tok.content] at hx
            subst hx
            exact item _ rfl (hI.item (.word x) _ (by simp) rfl rfl rfl) (by simp [Tok.kind])
          | quoted a =>
            subst hk
            simp [Tok.content] at hx
            subst hx
            exact item _ rfl (hI.item (.quoted x) _ (by simp) rfl rfl rfl) (by simp [Tok.kind])
          | comment =>
            subst hk
            exact item _ rfl (hI.item .comment _ (by simp) (by simp [Tok.content]) rfl rfl) (by simp [Tok.kind])
          | opening =>
            subst hk
            exact item _ rfl (hI.open _ rfl rfl rfl) (by simp [Tok.kind])
          | closing =>
            refine (fin .closing hk).trans ?_
            simp only [stops_close_iff hI.one]
            constructor
            · rintro ⟨-, ⟨q, h1, -, h2⟩ | ⟨as, ts, r', h1, h2, h3⟩⟩
              · exact ⟨[], r, .none r, .inl ⟨rfl, q, h1, h2⟩⟩
              · exact ⟨ts, r', h2, .inr ⟨as, h1, h3⟩⟩
            · rintro ⟨ts, r', h1, ⟨-, q, h2, h3⟩ | ⟨as, h2, h3⟩⟩
              · exact ⟨fun h => absurd rfl h, .inl ⟨q, h2, by simp, h3⟩⟩
              · exact ⟨fun h => absurd rfl h, .inr ⟨as, ts, r', h2, h1, h3⟩⟩
          | separator =>
            refine (fin .separator hk).trans ?_
            simp only [stops_sep_iff hI.one]
            constructor
            · rintro ⟨h0, ⟨q, h1, h1', h2⟩ | ⟨as, ts, r', h1, h2, h3⟩⟩
              · exact ⟨[], r, .none r, h0 (by simp), .inl ⟨rfl, q, h1, h1' trivial, h2⟩⟩
              · exact ⟨ts, r', h2, h0 (by simp), .inr ⟨as, h1, h3⟩⟩
            · rintro ⟨ts, r', h1, h0, ⟨-, q, h2, h2', h3⟩ | ⟨as, h2, h3⟩⟩
              · exact ⟨fun _ => h0, .inl ⟨q, h2, fun _ => h2', h3⟩⟩
              · exact ⟨fun _ => h0, .inr ⟨as, ts, r', h2, h1, h3⟩⟩

/-! ## The parser -/

theorem quoted_length {sc : Bool} {content text : Bytes} (h : Quoted sc content text) : content.length ≤ text.length := by
  induction h <;> simp <;> omega

theorem readsFWS_length {s w r : Bytes} (h : ReadsFWS s w r) : r.length ≤ s.length := by
  have := readFWS_length ((C08_fws_exact _ _ _).2 h)
  omega

theorem wordText_length {s a r : Bytes} (h : WordText s a r) : r.length ≤ s.length := by
  induction h with
  | fin => simp
  | ws s w r h => exact readsFWS_length h
  | special => simp
  | byte c r a r' _ _ _ ih => simp; omega

theorem tokText_length {sc : Bool} {s : Bytes} {t : Tok} {r : Bytes} (h : TokText sc s t r) :
    r.length ≤ s.length ∧ ∀ q, t = .quoted q → q.length < s.length := by
  cases h with
  | word w c r1 a _ h1 _ h2 =>
    have := readsFWS_length h1
    have := wordText_length h2
    simp at *; omega
  | quoted w text content _ h1 h2 =>
    have := readsFWS_length h1
    have := quoted_length h2
    simp at *; omega
  | comment w text _ h1 => have := readsFWS_length h1; simp at *; omega
  | opening w _ h1 => have := readsFWS_length h1; simp at *; omega
  | closing w _ h1 => have := readsFWS_length h1; simp at *; omega
  | separator w c _ h1 => have := readsFWS_length h1; simp at *; omega

theorem tokensBefore_length {sc : Bool} {s : Bytes} {ts : List Tok} {r : Bytes} (h : TokensBefore sc s ts r) : ∀ q, Tok.quoted q ∈ ts → q.length < s.length := by
  induction h with
  | none => simp
  | cons s t r ts r' h1 _ ih =>
    intro q hq
    have hl := tokText_length h1
    rcases List.mem_cons.1 hq with h | h
    · exact hl.2 q h.symm
    · have := ih q h
      omega

theorem nestedIn_mem {g : List Tok} {q : Bytes} (h : NestedIn g q) : Tok.quoted q ∈ g := by
  obtain ⟨part, hp, -⟩ := h
  rcases hp.2 with rfl | ⟨n, rfl⟩ <;> simp

theorem Spec.Group.mono {R R' : Bytes → List Bytes → Prop} (hR : ∀ q l, R q l → R' q l) {g : List Tok} {e : GroupEnd} {as : List Bytes}
    (h : Group R g e as) : Group R' g e as := by
  cases h with
  | nothing part _ h1 h2 => exact .nothing _ part _ h1 h2
  | name part xs x h1 h2 h3 => exact .name _ part xs x h1 h2 h3
  | nested part _ q _ h1 h2 h3 h4 => exact .nested _ part _ q _ h1 h2 h3 (hR _ _ h4)
  | address part _ xs x h1 h2 h3 h4 => exact .address _ part _ xs x h1 h2 h3 h4

theorem Spec.Stops.mono {R R' : Bytes → List Bytes → Prop} {H H' : Bytes → Prop} (hR : ∀ q l, R q l → R' q l) {ts : List Tok} {r : Bytes}
    (h : Stops R H ts r) : (∀ q, Tok.quoted q ∈ ts → H q → H' q) → Stops R' H' ts r := by
  induction h with
  | unclosed g r w q c h1 h2 h3 => intro _; exact .unclosed g r w q c h1 h2 h3
  | fin g q r w h1 h2 h3 h4 h5 => intro hH; exact .fin g q r w h1 h2 h3 h4 (hH q (nestedIn_mem h3) h5)
  | separator g q r h1 h2 h3 h4 h5 => intro hH; exact .separator g q r h1 h2 h3 h4 (hH q (by simp [nestedIn_mem h3]) h5)
  | closing g q r h1 h3 h5 => intro hH; exact .closing g q r h1 h3 (hH q (by simp [nestedIn_mem h3]) h5)
  | afterSeparator g as ts r h1 h2 h3 _ ih =>
    intro hH; exact .afterSeparator g as ts r h1 h2 (h3.mono hR) (ih fun q hq => hH q (by simp [hq]))
  | afterClosing g as ts r h1 h3 _ ih =>
    intro hH; exact .afterClosing g as ts r h1 (h3.mono hR) (ih fun q hq => hH q (by simp [hq]))

theorem parseAddrDepth_hang (n : Nat) (s : Bytes) (hn : s.length < n) : parseAddrDepth false n s = .error .hang ↔ EndlessIn n s := by
  induction n generalizing s with
  | zero => omega
  | succ n ih =>
    rw [parseAddrDepth, addrLoop_hang _ _ {} s [] (GroupInv.empty _ rfl rfl (by simp)) (.inl (by simp)) (Nat.le_refl _) (by simp), EndlessIn]
    simp only [List.nil_append]
    constructor
    · rintro ⟨ts, r, h1, h2⟩
      exact ⟨ts, r, h1, h2.mono (fun q l h => (parseAddrDepth_iff _ _ _ _).1 h)
        (fun q hq h => (ih q (by have := tokensBefore_length h1 q hq; omega)).1 h)⟩
    · rintro ⟨ts, r, h1, h2⟩
      exact ⟨ts, r, h1, h2.mono (fun q l h => (parseAddrDepth_iff _ _ _ _).2 h)
        (fun q hq h => (ih q (by have := tokensBefore_length h1 q hq; omega)).2 h)⟩

theorem endlessIn_succ (n : Nat) (s : Bytes) (h : EndlessIn n s) : EndlessIn (n + 1) s := by
  induction n generalizing s with
  | zero => cases h
  | succ n ih =>
    obtain ⟨ts, r, h1, h2⟩ := h
    exact ⟨ts, r, h1, h2.mono (fun q l h => addrTextIn_succ _ _ _ _ h) (fun q _ h => ih q h)⟩

theorem endlessIn_le {n m : Nat} (hnm : n ≤ m) (s : Bytes) (h : EndlessIn n s) : EndlessIn m s := by
  induction hnm with
  | refl => exact h
  | step _ ih => exact endlessIn_succ _ s ih

/-! ## No other error -/

/-- Errors are permanent errors, or the call never returns. -/
def PermOrHang {α : Type} (x : Except Err α) : Prop := ∀ e, x = .error e → e = .hang ∨ ∃ r, e = .p r

theorem quotedLoop_permOrHang (sc : Bool) (tok s : Bytes) : PermOrHang (quotedLoop sc tok s) := by
  induction tok, s using quotedLoop.induct (sc := sc) with
  | case1 tok h => rw [quotedLoop]; simp [h]; intro e he; cases he; exact .inr ⟨_, rfl⟩
  | case2 tok h => rw [quotedLoop]; simp [h]; intro e he; cases he; exact .inl rfl
  | case3 tok c r h => rw [quotedLoop.eq_def]; dsimp only; rw [if_pos h]; intro e he; cases he; exact .inr ⟨_, rfl⟩
  | case4 tok h => rw [quotedLoop.eq_def]; dsimp only; rw [if_neg h, if_pos rfl]; intro e he; cases he; exact .inr ⟨_, rfl⟩
  | case5 tok d r' h ih => rw [quotedLoop.eq_def]; dsimp only; rw [if_neg h, if_pos rfl]; exact ih
  | case6 tok r h h2 => rw [quotedLoop.eq_def]; dsimp only; rw [if_neg h, if_neg h2, if_pos rfl]; intro e he; cases he
  | case7 tok c r h h2 h3 ih => rw [quotedLoop.eq_def]; dsimp only; rw [if_neg h, if_neg h2, if_neg h3]; exact ih

theorem nextTok_permOrHang (sc : Bool) (n : Nat) (tok s : Bytes) : PermOrHang (nextTok sc n tok s) := by
  induction n generalizing tok s with
  | zero => intro e he; cases he; exact .inl rfl
  | succ n ih =>
    intro e h
    rw [nextTok.eq_def] at h
    dsimp only at h
    split at h
    · split at h <;> cases h
    · cases hr : readFWS s with
      | error e' =>
        rw [hr] at h
        cases h
        exact .inr ⟨_, (readFWS_error hr).1⟩
      | ok p =>
        obtain ⟨ws, s1⟩ := p
        rw [hr] at h
        dsimp only at h
        split at h
        · split at h <;> cases h
        · cases s1 with
          | nil => dsimp only at h; split at h <;> cases h
          | cons c s1 =>
            dsimp only at h
            split at h
            · split at h
              · cases h
              · cases hq : quotedLoop sc [] s1 with
                | error e' => rw [hq] at h; cases h; exact quotedLoop_permOrHang _ _ _ _ hq
                | ok p => rw [hq] at h; cases h
            · split at h
              · split at h
                · cases h
                · cases hq : commentLoop (s1.length + 2) 1 [] s1 with
                  | error e' => rw [hq] at h; cases h; exact .inr ((commentLoop_ends _ _ _ _ (by omega)).1 _ hq)
                  | ok p => rw [hq] at h; cases h
              · split at h
                · split at h <;> cases h
                · split at h
                  · split at h <;> cases h
                  · split at h
                    · split at h <;> cases h
                    · exact ih _ _ e h

theorem addrSwitch_permOrHang (rec : Bytes → Except Err (List Bytes)) (hrec : ∀ q, PermOrHang (rec q)) (st : AddrSt) (x : Bytes) :
    PermOrHang (addrSwitch rec st x) := by
  intro e h
  unfold addrSwitch at h
  cases hty : st.type <;> rw [hty] at h <;> dsimp only at h <;> first
    | (cases h; done)
    | (split at h
       · cases h; exact .inr ⟨_, rfl⟩
       · cases htk : st.tokens with
         | nil => rw [htk] at h; cases h
         | cons a as =>
           rw [htk] at h
           dsimp only at h
           split at h
           · cases h
           · split at h
             · cases hr : rec a with
               | error e' => rw [hr] at h; cases h; exact hrec a _ hr
               | ok l => rw [hr] at h; cases h
             · cases h)

theorem addrLoop_permOrHang (sc : Bool) (rec : Bytes → Except Err (List Bytes)) (hrec : ∀ q, PermOrHang (rec q)) (n : Nat) (st : AddrSt) (s : Bytes) :
    PermOrHang (addrLoop sc rec n st s) := by
  induction n generalizing st s with
  | zero => intro e he; cases he; exact .inl rfl
  | succ n ih =>
    intro e h
    rw [addrLoop.eq_def] at h
    dsimp only at h
    split at h
    · cases h
    · cases ht : nextTok sc (s.length + 1) [] s with
      | error e' => rw [ht] at h; cases h; exact nextTok_permOrHang _ _ _ _ _ ht
      | ok p =>
        obtain ⟨ty, x, r⟩ := p
        rw [ht] at h
        dsimp only at h
        split at h
        · cases h; exact .inr ⟨_, rfl⟩
        · cases hs : addrSwitch rec { st with last := st.type, type := ty } x with
          | error e' => rw [hs] at h; cases h; exact addrSwitch_permOrHang rec hrec _ _ _ hs
          | ok st' => rw [hs] at h; exact ih _ _ e h

theorem parseAddrDepth_permOrHang (sc : Bool) (n : Nat) (s : Bytes) : PermOrHang (parseAddrDepth sc n s) := by
  induction n generalizing s with
  | zero => intro e he; cases he; exact .inl rfl
  | succ n ih => rw [parseAddrDepth]; exact addrLoop_permOrHang _ _ ih _ _ _

end Dkim

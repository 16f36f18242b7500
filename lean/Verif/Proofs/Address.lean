import Verif.Proofs.Errors
/-!
# The address parser: progress and termination
-/

namespace Dkim
open Spec

/-- The quoted-string loop ends with a permanent error (signed `char`) or consumes its input, and the
decoded text is shorter than what was consumed. -/
theorem quotedLoop_ends (sc : Bool) (tok s : Bytes) : (sc = true → OnlyPerm (quotedLoop sc tok s)) ∧
    ∀ t r, quotedLoop sc tok s = .ok (t, r) → t.length + r.length < tok.length + s.length := by
  induction tok, s using quotedLoop.induct (sc := sc) with
  | case1 tok h => rw [quotedLoop]; simp [h]; exact .err _
  | case2 tok h => rw [quotedLoop]; simp [h]
  | case3 tok c r h =>
    rw [quotedLoop.eq_def]; dsimp only; rw [if_pos h]; exact ⟨fun _ => .err _, by simp⟩
  | case4 tok h =>
    rw [quotedLoop.eq_def]; dsimp only; rw [if_neg h, if_pos rfl]; exact ⟨fun _ => .err _, by simp⟩
  | case5 tok d r' h ih =>
    rw [quotedLoop.eq_def]; dsimp only; rw [if_neg h, if_pos rfl]
    refine ⟨ih.1, fun t r hr => ?_⟩
    have := ih.2 t r hr
    simp at this ⊢
    omega
  | case6 tok r h h2 =>
    rw [quotedLoop.eq_def]; dsimp only; rw [if_neg h, if_neg h2, if_pos rfl]
    refine ⟨fun _ => .ok _, fun t r' hr => ?_⟩
    cases hr
    simp
  | case7 tok c r h h2 h3 ih =>
    rw [quotedLoop.eq_def]; dsimp only; rw [if_neg h, if_neg h2, if_neg h3]
    refine ⟨ih.1, fun t r' hr => ?_⟩
    have := ih.2 t r' hr
    simp at this ⊢
    omega

theorem commentStep_length (d : Nat) (s : Bytes) :
    (commentStep d s).2.2.length ≤ s.length ∧ (s ≠ [] → (commentStep d s).2.2.length < s.length) := by
  unfold commentStep
  cases s with
  | nil => simp
  | cons c r =>
    dsimp only
    generalize hd : (if c = 40 then d + 1 else if c = 41 then d - 1 else d) = d'
    split <;> simp

theorem commentLoop_ends (n d : Nat) (tok s : Bytes) (h : s.length < n) : OnlyPerm (commentLoop n d tok s) ∧
    ∀ t r, commentLoop n d tok s = .ok (t, r) → r.length ≤ s.length := by
  induction n generalizing d tok s with
  | zero => omega
  | succ n ih =>
    rw [commentLoop.eq_def]; dsimp only
    split
    · exact ⟨.ok _, fun t r hr => by cases hr; simp⟩
    · cases s with
      | nil => exact ⟨.err _, by simp⟩
      | cons c r =>
        simp only
        split
        · cases r with
          | nil => exact ⟨.err _, by simp⟩
          | cons e r' =>
            have hl := commentStep_length d r'
            simp at h
            have := ih (commentStep d r').1 (tok ++ [e] ++ (commentStep d r').2.1) (commentStep d r').2.2 (by omega)
            refine ⟨this.1, fun t r hr => ?_⟩
            have := this.2 t r hr
            simp; omega
        · have hl := (commentStep_length d (c :: r)).2 (by simp)
          simp at h hl
          have := ih (commentStep d (c :: r)).1 (tok ++ (commentStep d (c :: r)).2.1) (commentStep d (c :: r)).2.2 (by omega)
          refine ⟨this.1, fun t r' hr => ?_⟩
          have := this.2 t r' hr
          simp; omega

/-- What a token tells about the remaining input. -/
def TokOk (tok s : Bytes) (ty : AddrTok) (t r : Bytes) : Prop :=
  r.length ≤ s.length ∧ (tok = [] → ty ≠ .eof → r.length < s.length) ∧ (ty = .quoted → t.length < s.length)

theorem nextTok_ends (sc : Bool) (n : Nat) (tok s : Bytes) (h : s.length < n) : (sc = true → OnlyPerm (nextTok sc n tok s)) ∧
    ∀ ty t r, nextTok sc n tok s = .ok (ty, t, r) → TokOk tok s ty t r := by
  induction n generalizing tok s with
  | zero => omega
  | succ n ih =>
    rw [nextTok]
    have hdone : ∀ rr : Bytes, rr.length ≤ s.length → (tok = [] ∨ rr.length < s.length ∨ rr.length ≤ s.length) →
        (sc = true → OnlyPerm (if tok.isEmpty then .ok (.eof, [], rr) else .ok (.atom, tok, rr) : Except Err (AddrTok × Bytes × Bytes))) ∧
        ∀ ty t r, (if tok.isEmpty then .ok (.eof, [], rr) else .ok (.atom, tok, rr) : Except Err (AddrTok × Bytes × Bytes)) = .ok (ty, t, r) →
          TokOk tok s ty t r := by
      intro rr hle _
      split
      · refine ⟨fun _ => .ok _, fun ty t r hr => ?_⟩
        cases hr
        exact ⟨hle, fun _ hne => absurd rfl hne, by simp⟩
      · rename_i hne
        refine ⟨fun _ => .ok _, fun ty t r hr => ?_⟩
        cases hr
        exact ⟨hle, fun h0 => by simp [h0] at hne, by simp⟩
    dsimp only
    split
    · exact hdone [] (by simp) (by simp)
    · cases hr : readFWS s with
      | error e => exact ⟨fun _ e' he => by cases he; exact readFWS_perm s e hr, by simp⟩
      | ok p =>
        obtain ⟨ws, s1⟩ := p
        have hlen := readFWS_length hr
        dsimp only
        split
        · exact hdone s1 (by omega) (by omega)
        · cases s1 with
          | nil => exact hdone [] (by simp) (by simp)
          | cons c r =>
            have hatom : ¬ tok.isEmpty = true → (sc = true → OnlyPerm (.ok (.atom, tok, c :: r) : Except Err (AddrTok × Bytes × Bytes))) ∧
                ∀ ty t r', (.ok (.atom, tok, c :: r) : Except Err (AddrTok × Bytes × Bytes)) = .ok (ty, t, r') → TokOk tok s ty t r' := by
              intro hne
              refine ⟨fun _ => .ok _, fun ty t r' hr' => ?_⟩
              cases hr'
              exact ⟨by omega, fun h0 => by simp [h0] at hne, by simp⟩
            have hone : ∀ ty0 : AddrTok, ty0 ≠ .quoted → (sc = true → OnlyPerm (.ok (ty0, [], r) : Except Err (AddrTok × Bytes × Bytes))) ∧
                ∀ ty t r', (.ok (ty0, [], r) : Except Err (AddrTok × Bytes × Bytes)) = .ok (ty, t, r') → TokOk tok s ty t r' := by
              intro ty0 hq
              refine ⟨fun _ => .ok _, fun ty t r' hr' => ?_⟩
              cases hr'
              simp at hlen
              exact ⟨by omega, fun _ _ => by omega, fun h => absurd h hq⟩
            simp at hlen
            dsimp only
            split
            · split
              · rename_i hne; exact hatom (by simpa using hne)
              · obtain ⟨hp, hq⟩ := quotedLoop_ends sc [] r
                cases hql : quotedLoop sc [] r with
                | error e => exact ⟨fun hsc e' he => by cases he; exact hp hsc e hql, by simp⟩
                | ok p =>
                  obtain ⟨t, r'⟩ := p
                  have := hq t r' hql
                  simp at this
                  refine ⟨fun _ => .ok _, fun ty t2 r2 h2 => ?_⟩
                  cases h2
                  exact ⟨by omega, fun _ _ => by omega, fun _ => by omega⟩
            · split
              · split
                · rename_i hne; exact hatom (by simpa using hne)
                · obtain ⟨hp, hq⟩ := commentLoop_ends (r.length + 2) 1 [] r (by omega)
                  cases hql : commentLoop (r.length + 2) 1 [] r with
                  | error e => exact ⟨fun _ e' he => by cases he; exact hp e hql, by simp⟩
                  | ok p =>
                    obtain ⟨t, r'⟩ := p
                    have := hq t r' hql
                    refine ⟨fun _ => .ok _, fun ty t2 r2 h2 => ?_⟩
                    cases h2
                    exact ⟨by omega, fun _ _ => by omega, by simp⟩
              · split
                · split
                  · rename_i hne; exact hatom (by simpa using hne)
                  · exact hone _ (by simp)
                · split
                  · split
                    · rename_i hne; exact hatom (by simpa using hne)
                    · exact hone _ (by simp)
                  · split
                    · split
                      · rename_i hne; exact hatom (by simpa using hne)
                      · exact hone _ (by simp)
                    · obtain ⟨h1, h2⟩ := ih (tok ++ [c]) r (by omega)
                      refine ⟨h1, fun ty t r' hr' => ?_⟩
                      obtain ⟨h3, h4, h5⟩ := h2 ty t r' hr'
                      exact ⟨by omega, fun _ _ => by omega, fun hq => by have := h5 hq; omega⟩

/-- The state invariant behind the recursion: a freshly read quoted string is the last token, and shorter
than the whole input. -/
def AddrInv (N : Nat) (st : AddrSt) : Prop := st.type = .quoted → ∃ t, st.tokens.getLast? = some t ∧ t.length < N

theorem addrLoop_perm (rec : Bytes → Except Err (List Bytes)) (N : Nat)
    (hrec : ∀ t, t.length < N → OnlyPerm (rec t)) (n : Nat) (st : AddrSt) (s : Bytes)
    (hn : s.length + 2 ≤ n ∨ (st.type = .eof ∧ 1 ≤ n)) (hs : s.length ≤ N) (hinv : AddrInv N st) :
    OnlyPerm (addrLoop true rec n st s) := by
  induction n generalizing st s with
  | zero => omega
  | succ n ih =>
    rw [addrLoop]
    split
    · exact .ok _
    · rename_i hne
      have hn : s.length + 2 ≤ n + 1 := by
        rcases hn with h | ⟨h, _⟩
        · exact h
        · exact absurd h hne
      obtain ⟨h1, h2⟩ := nextTok_ends true (s.length + 1) [] s (by omega)
      cases ht : nextTok true (s.length + 1) [] s with
      | error e => exact fun e' he => by cases he; exact h1 rfl e ht
      | ok p =>
        obtain ⟨ty, token, r⟩ := p
        obtain ⟨g1, g2, g3⟩ := h2 ty token r ht
        dsimp only
        split
        · exact .err _
        · have key : OnlyPerm (addrSwitch rec { st with last := st.type, type := ty } token) ∧
              ∀ st', addrSwitch rec { st with last := st.type, type := ty } token = .ok st' → st'.type = ty ∧ AddrInv N st' := by
            have hflush : ∀ (b : Bool) (ty : AddrTok), ty ≠ .quoted → (ty = .tagClose ∨ ty = .separator ∨ ty = .eof) →
                (b = (if ty = .tagClose then false else st.inOpen)) →
                OnlyPerm (addrSwitch rec { st with last := st.type, type := ty } token) ∧
              ∀ st', addrSwitch rec { st with last := st.type, type := ty } token = .ok st' → st'.type = ty ∧ AddrInv N st' := by
              intro b ty hq hty hb
              have main : OnlyPerm (addrSwitch rec { st with last := st.type, type := ty } token) ∧
                  ∀ st', addrSwitch rec { st with last := st.type, type := ty } token = .ok st' → st'.type = ty := by
                unfold addrSwitch
                rcases hty with rfl | rfl | rfl <;> dsimp only
                all_goals
                  split
                  · exact ⟨.err _, by simp⟩
                  · cases htk : st.tokens with
                    | nil => exact ⟨.ok _, fun st' h => by cases h; rfl⟩
                    | cons t ts =>
                      dsimp only
                      split
                      · exact ⟨.ok _, fun st' h => by cases h; rfl⟩
                      · split
                        · rename_i hlq
                          obtain ⟨t', ht', hlt⟩ := hinv hlq.1
                          have : t' = t := by
                            rw [htk, hlq.2] at ht'; simpa using ht'.symm
                          subst this
                          cases hre : rec t' with
                          | error e => exact ⟨fun e' he => by cases he; exact hrec t' hlt e hre, by simp⟩
                          | ok a => exact ⟨.ok _, fun st' h => by cases h; rfl⟩
                        · exact ⟨.ok _, fun st' h => by cases h; rfl⟩
              refine ⟨main.1, fun st' h => ⟨main.2 st' h, ?_⟩⟩
              intro hq'
              rw [main.2 st' h] at hq'
              exact absurd hq' hq
            cases ty with
            | quoted =>
              refine ⟨.ok _, fun st' h => ?_⟩
              simp only [addrSwitch, Except.ok.injEq] at h
              subst h
              exact ⟨rfl, fun _ => ⟨token, by simp, by have := g3 rfl; omega⟩⟩
            | atom => exact ⟨.ok _, fun st' h => by simp only [addrSwitch, Except.ok.injEq] at h; subst h; exact ⟨rfl, fun h => by simp at h⟩⟩
            | comment => exact ⟨.ok _, fun st' h => by simp only [addrSwitch, Except.ok.injEq] at h; subst h; exact ⟨rfl, fun h => by simp at h⟩⟩
            | tagOpen => exact ⟨.ok _, fun st' h => by simp only [addrSwitch, Except.ok.injEq] at h; subst h; exact ⟨rfl, fun h => by simp at h⟩⟩
            | tagClose => exact hflush _ _ (by simp) (by simp) rfl
            | separator => exact hflush _ _ (by simp) (by simp) rfl
            | eof => exact hflush _ _ (by simp) (by simp) rfl
          cases hsw : addrSwitch rec { st with last := st.type, type := ty } token with
          | error e => exact fun e' he => by cases he; exact key.1 e hsw
          | ok st' =>
            obtain ⟨k1, k2⟩ := key.2 st' hsw
            apply ih
            · by_cases he : ty = .eof
              · right; exact ⟨by rw [k1]; exact he, by omega⟩
              · left; have := g2 rfl he; omega
            · omega
            · exact k2

theorem parseAddrDepth_perm (n : Nat) (s : Bytes) (h : s.length < n) : OnlyPerm (parseAddrDepth true n s) := by
  induction n generalizing s with
  | zero => omega
  | succ n ih =>
    rw [parseAddrDepth]
    exact addrLoop_perm _ s.length (fun t ht => ih t (by omega)) _ _ _ (Or.inl (by omega)) (Nat.le_refl _)
      (fun h => by simp at h)

theorem parseAddressList_perm (s : Bytes) : OnlyPerm (parseAddressList true s) :=
  parseAddrDepth_perm _ _ (by omega)

end Dkim

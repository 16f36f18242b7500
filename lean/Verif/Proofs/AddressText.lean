import Verif.Proofs.AddressLex
import Verif.Props.Tokens
import Verif.Spec.AddressText
/-!
# The address parser for every text
-/

namespace Dkim
open Spec

/-! ## Quoted strings and comments -/

theorem quotedLoop_iff (sc : Bool) (tok s t r : Bytes) : quotedLoop sc tok s = .ok (t, r) ↔
    ∃ content text, s = text ++ 34 :: r ∧ Quoted sc content text ∧ t = tok ++ content := by
  constructor
  · induction tok, s using quotedLoop.induct (sc := sc) with
    | case1 tok h => rw [quotedLoop]; simp [h]
    | case2 tok h => rw [quotedLoop]; simp [h]
    | case3 tok c r h => rw [quotedLoop.eq_def]; dsimp only; rw [if_pos h]; simp
    | case4 tok h => rw [quotedLoop.eq_def]; dsimp only; rw [if_neg h, if_pos rfl]; simp
    | case5 tok d r' h ih =>
      rw [quotedLoop.eq_def]; dsimp only; rw [if_neg h, if_pos rfl]
      intro hr
      obtain ⟨content, text, rfl, hq, rfl⟩ := ih hr
      exact ⟨d :: content, 92 :: d :: text, by simp, .escaped _ _ _ hq, by simp⟩
    | case6 tok r' h h2 =>
      rw [quotedLoop.eq_def]; dsimp only; rw [if_neg h, if_neg h2, if_pos rfl]
      intro hr
      cases hr
      exact ⟨[], [], by simp, .nil, by simp⟩
    | case7 tok c r' h h2 h3 ih =>
      rw [quotedLoop.eq_def]; dsimp only; rw [if_neg h, if_neg h2, if_neg h3]
      intro hr
      obtain ⟨content, text, rfl, hq, rfl⟩ := ih hr
      exact ⟨c :: content, c :: text, by simp, .plain _ _ _ h3 h2 (fun hs hc => h ⟨hs, hc⟩) hq, by simp⟩
  · rintro ⟨content, text, rfl, hq, rfl⟩
    exact quotedLoop_text sc hq tok r

/-- One turn of the comment loop after the escape. -/
inductive CommentStep : Nat → Byte → Nat → Bytes → Prop
  | close : CommentStep 1 41 0 []
  | inner (d) : CommentStep (d + 2) 41 (d + 1) [41]
  | nest (d) : CommentStep (d + 1) 40 (d + 2) [40]
  | plain (d c) : c ≠ 40 → c ≠ 41 → CommentStep (d + 1) c (d + 1) [c]

theorem commentStep_cases (d : Nat) (c : Byte) (r : Bytes) : ∃ d' a, commentStep (d + 1) (c :: r) = (d', a, r) ∧ CommentStep (d + 1) c d' a := by
  unfold commentStep
  dsimp only
  by_cases h1 : c = 40
  · subst h1; exact ⟨d + 2, [40], by simp, .nest d⟩
  · by_cases h2 : c = 41
    · subst h2
      cases d with
      | zero => exact ⟨0, [], by simp, .close⟩
      | succ d => exact ⟨d + 1, [41], by simp, .inner d⟩
    · exact ⟨d + 1, [c], by simp [h1, h2], .plain d c h1 h2⟩

theorem commentStep_of {d : Nat} {c : Byte} {d' : Nat} {a : Bytes} (h : CommentStep d c d' a) (r : Bytes) :
    commentStep d (c :: r) = (d', a, r) := by
  cases h <;> simp [commentStep, *]

theorem CommentStep.pos {d : Nat} {c : Byte} {d' : Nat} {a : Bytes} (h : CommentStep d c d' a) : 0 < d := by
  cases h <;> omega

/-- Reading a comment backwards: an escape, a byte, and the rest (nothing if the comment is over). -/
theorem commentText_iff (d : Nat) (text : Bytes) : CommentText d text ↔
    ∃ e c d' a rest, Escape e ∧ (e = [] → c ≠ 92) ∧ CommentStep d c d' a ∧ text = e ++ c :: rest ∧
      (d' = 0 ∧ rest = [] ∨ d' ≠ 0 ∧ CommentText d' rest) := by
  constructor
  · intro h
    cases h with
    | close e he => exact ⟨e, 41, 0, [], [], he, by simp, .close, rfl, .inl ⟨rfl, rfl⟩⟩
    | inner e d t he ht => exact ⟨e, 41, d + 1, [41], t, he, by simp, .inner d, rfl, .inr ⟨by omega, ht⟩⟩
    | nest e d t he ht => exact ⟨e, 40, d + 2, [40], t, he, by simp, .nest d, rfl, .inr ⟨by omega, ht⟩⟩
    | plain e d c t he h1 h2 h3 ht =>
      have hp : 0 < d := by
        clear h3 he
        induction ht <;> omega
      obtain ⟨d, rfl⟩ : ∃ k, d = k + 1 := ⟨d - 1, by omega⟩
      exact ⟨e, c, d + 1, [c], t, he, h3, .plain d c h1 h2, rfl, .inr ⟨by omega, ht⟩⟩
  · rintro ⟨e, c, d', a, rest, he, hc, hs, rfl, h⟩
    cases hs with
    | close =>
      rcases h with ⟨_, rfl⟩ | ⟨h, _⟩
      · exact .close e he
      · omega
    | inner d => rcases h with ⟨h, _⟩ | ⟨_, h⟩; · omega
                 exact .inner e d rest he h
    | nest d => rcases h with ⟨h, _⟩ | ⟨_, h⟩; · omega
                exact .nest e d rest he h
    | plain d c h1 h2 => rcases h with ⟨h, _⟩ | ⟨_, h⟩; · omega
                         exact .plain e _ c rest he h1 h2 hc h

theorem commentLoop_sound (n d : Nat) (tok s t r : Bytes) (h : commentLoop n (d + 1) tok s = .ok (t, r)) :
    ∃ text u, s = text ++ r ∧ CommentText (d + 1) text ∧ t = tok ++ u ∧ (0 ∈ u ↔ 0 ∈ text) := by
  induction n generalizing d tok s with
  | zero => cases h
  | succ n ih =>
    rw [commentLoop.eq_def] at h
    dsimp only at h
    rw [if_neg (by omega)] at h
    cases s with
    | nil => cases h
    | cons c s =>
      -- after one turn
      have turn : ∀ (e : Bytes) (c : Byte) (rest tok' : Bytes) (x : Bytes), Escape e → (e = [] → c ≠ 92) → (0 ∈ x ↔ 0 ∈ e) →
          (match commentStep (d + 1) (c :: rest) with
            | (dep, a, r2) => commentLoop n dep (tok ++ x ++ a) r2) = .ok (t, r) →
          ∃ text u, e ++ c :: rest = text ++ r ∧ CommentText (d + 1) text ∧ t = tok ++ u ∧ (0 ∈ u ↔ 0 ∈ text) := by
        intro e c rest tok' x he hc hx hl
        obtain ⟨d', a, h1, h2⟩ := commentStep_cases d c rest
        rw [h1] at hl
        dsimp only at hl
        have ha : d' ≠ 0 → a = [c] := by
          intro hd; cases h2 <;> simp_all
        cases d' with
        | zero =>
          have : commentLoop n 0 (tok ++ x ++ a) rest = .ok (tok ++ x ++ a, rest) ∨ commentLoop n 0 (tok ++ x ++ a) rest = .error .hang := by
            cases n with
            | zero => exact .inr rfl
            | succ n => left; rw [commentLoop.eq_def]; simp
          rcases this with h3 | h3
          · rw [h3] at hl
            cases hl
            cases h2 with
            | close => exact ⟨e ++ [41], x, by simp, .close e he, by simp, by simp [hx]⟩
          · rw [h3] at hl; cases hl
        | succ d' =>
          obtain ⟨text, u, g1, g2, g3, g4⟩ := ih d' _ _ hl
          subst g1
          refine ⟨e ++ c :: text, x ++ a ++ u, by simp, ?_, by rw [g3]; simp, ?_⟩
          · exact (commentText_iff _ _).2 ⟨e, c, d' + 1, a, text, he, hc, h2, rfl, .inr ⟨by omega, g2⟩⟩
          · rw [ha (by omega)]; simp [hx, g4]
      dsimp only at h
      split at h
      · rename_i h92
        subst h92
        cases s with
        | nil => cases h
        | cons x s =>
          cases s with
          | nil =>
            dsimp only [commentStep] at h
            cases n with
            | zero => cases h
            | succ n => rw [commentLoop.eq_def] at h; simp at h
          | cons c s =>
            have := turn [92, x] c s tok [x] (.inr ⟨x, rfl⟩) (by simp) (by simp) h
            simpa using this
      · rename_i h92
        have := turn [] c s tok [] (.inl rfl) (fun _ => h92) (by simp) (by rw [List.append_nil]; exact h)
        simpa using this

theorem commentLoop_complete (n d : Nat) (tok text r : Bytes) (hn : text.length < n) (h : CommentText d text) :
    ∃ u, commentLoop n d tok (text ++ r) = .ok (tok ++ u, r) ∧ (0 ∈ u ↔ 0 ∈ text) := by
  induction n generalizing d tok text with
  | zero => omega
  | succ n ih =>
    obtain ⟨e, c, d', a, rest, he, hc, hs, rfl, hrest⟩ := (commentText_iff _ _).1 h
    have hpos := hs.pos
    have ha : d' ≠ 0 → a = [c] := by
      intro hd; cases hs <;> simp_all
    have turn : ∀ (x : Bytes), (0 ∈ x ↔ 0 ∈ e) → ∃ u, (match commentStep d (c :: (rest ++ r)) with
            | (dep, a, r2) => commentLoop n dep (tok ++ x ++ a) r2) = .ok (tok ++ u, r) ∧ (0 ∈ u ↔ 0 ∈ e ++ c :: rest) := by
      intro x hx
      rw [commentStep_of hs]
      dsimp only
      rcases hrest with ⟨rfl, rfl⟩ | ⟨hd, hr⟩
      · cases hs with
        | close =>
          refine ⟨x, ?_, by simp [hx]⟩
          simp only [List.length_append, List.length_cons, List.length_nil] at hn
          match n, hn with
          | n + 1, _ => rw [commentLoop.eq_def]; simp
      · obtain ⟨u, g1, g2⟩ := ih d' (tok ++ x ++ a) rest (by simp at hn; omega) hr
        refine ⟨x ++ a ++ u, by rw [g1]; simp, ?_⟩
        rw [ha hd]; simp [hx, g2]
    rw [commentLoop.eq_def]
    dsimp only
    rw [if_neg (by omega)]
    rcases he with rfl | ⟨x, rfl⟩
    · obtain ⟨u, g1, g2⟩ := turn [] (by simp)
      refine ⟨u, ?_, g2⟩
      simp only [List.nil_append, List.cons_append]
      rw [if_neg (hc rfl)]
      rw [List.append_nil] at g1
      exact g1
    · obtain ⟨u, g1, g2⟩ := turn [x] (by simp)
      refine ⟨u, ?_, g2⟩
      simp only [List.nil_append, List.cons_append, if_true]
      exact g1

/-! ## Words -/

theorem nextTok_wordText (sc : Bool) (n : Nat) (tok s : Bytes) (hn : s.length < n) (hne : tok ≠ []) (ty : AddrTok) (t r : Bytes) :
    nextTok sc n tok s = .ok (ty, t, r) ↔ ty = .atom ∧ ∃ a, WordText s a r ∧ t = tok ++ a := by
  have hte : tok.isEmpty = false := by cases tok <;> simp at *
  induction n generalizing tok s with
  | zero => omega
  | succ n ih =>
    rw [nextTok.eq_def]
    simp only [hte, Bool.false_eq_true, if_false]
    cases s with
    | nil =>
      simp only [List.isEmpty_nil, if_true]
      constructor
      · intro h; cases h; exact ⟨rfl, [], .fin, by simp⟩
      · rintro ⟨rfl, a, h, rfl⟩
        cases h with
        | fin => simp
        | ws _ w _ h1 h2 =>
          exfalso
          have := (C08_fws_exact _ _ _).2 h1
          have : readFWS [] = .ok ([], []) := readFWS_stop (by simp [Stop, NotHead])
          rw [‹readFWS [] = .ok (w, r)›] at this
          cases this; exact h2 rfl
    | cons c s =>
      simp only [List.isEmpty_cons, Bool.false_eq_true, if_false]
      cases hr : readFWS (c :: s) with
      | error e =>
        simp only [reduceCtorEq, false_iff]
        rintro ⟨_, a, h, _⟩
        cases h with
        | ws _ w _ h1 h2 => rw [(C08_fws_exact _ _ _).2 h1] at hr; cases hr
        | special _ _ h1 => rw [readFWS_stop (stop_special s h1)] at hr; cases hr
        | byte _ _ _ _ h1 => rw [(C08_fws_exact _ _ _).2 h1] at hr; cases hr
      | ok p =>
        obtain ⟨ws, s1⟩ := p
        dsimp only
        cases ws with
        | cons x ws =>
          simp only [List.isEmpty_cons, Bool.not_false, and_self, if_true]
          have hR := (C08_fws_exact _ _ _).1 hr
          constructor
          · intro h; cases h; exact ⟨rfl, [], .ws _ _ _ hR (by simp), by simp⟩
          · rintro ⟨rfl, a, h, rfl⟩
            cases h with
            | ws _ w _ h1 h2 => rw [(C08_fws_exact _ _ _).2 h1] at hr; cases hr; simp
            | special _ _ h1 => rw [readFWS_stop (stop_special s h1)] at hr; cases hr
            | byte _ _ _ _ h1 => rw [(C08_fws_exact _ _ _).2 h1] at hr; cases hr
        | nil =>
          have hs1 : s1 = c :: s := by
            have := (readFWS_ok hr).1; simpa using this.symm
          subst hs1
          have hR := (C08_fws_exact _ _ _).1 hr
          have hno : ∀ w r', ReadsFWS (c :: s) w r' → w = [] := by
            intro w r' h
            rw [(C08_fws_exact _ _ _).2 h] at hr
            cases hr; rfl
          simp only [List.isEmpty_nil, Bool.not_true, Bool.false_eq_true, false_and, if_false, Bool.not_false, if_true]
          by_cases hsp : isSpecial c = true
          · have hrhs : (ty = .atom ∧ ∃ a, WordText (c :: s) a r ∧ t = tok ++ a) ↔ (ty = .atom ∧ t = tok ∧ r = c :: s) := by
              constructor
              · rintro ⟨rfl, a, h, rfl⟩
                cases h with
                | ws _ w _ h1 h2 => exact absurd (hno _ _ h1) h2
                | special _ _ h1 => simp
                | byte _ _ _ _ _ h1 => rw [hsp] at h1; cases h1
              · rintro ⟨rfl, rfl, rfl⟩
                exact ⟨rfl, [], .special _ _ hsp, by simp⟩
            rw [hrhs]
            have hh : ∀ x : Except Err (AddrTok × Bytes × Bytes), x = .ok (.atom, tok, c :: s) →
                (x = .ok (ty, t, r) ↔ (ty = .atom ∧ t = tok ∧ r = c :: s)) := by
              intro x hx
              rw [hx]
              simp only [Except.ok.injEq, Prod.mk.injEq]
              constructor <;> rintro ⟨rfl, rfl, rfl⟩ <;> simp
            apply hh
            simp [isSpecial] at hsp
            rcases hsp with ((((rfl | rfl) | rfl) | rfl) | rfl) | rfl <;> simp
          · have hsp' : isSpecial c = false := by simpa using hsp
            have hx := hsp'
            simp only [isSpecial, Bool.or_eq_false_iff, beq_eq_false_iff_ne] at hx
            obtain ⟨⟨⟨⟨⟨k1, k2⟩, k3⟩, k4⟩, k5⟩, k6⟩ := hx
            rw [if_neg k1, if_neg k2, if_neg k3, if_neg k4, if_neg (fun h => h.elim k5 k6)]
            have hi := ih (tok ++ [c]) s (by simp at hn; omega) (by simp) (by simp)
            refine hi.trans ?_
            constructor
            · rintro ⟨rfl, a, h, rfl⟩
              exact ⟨rfl, c :: a, .byte _ _ _ _ hR hsp' h, by simp⟩
            · rintro ⟨rfl, a, h, rfl⟩
              cases h with
              | ws _ w _ h1 h2 => exact absurd (hno _ _ h1) h2
              | special _ _ h1 => rw [hsp'] at h1; cases h1
              | byte _ _ a _ _ _ h1 => exact ⟨rfl, a, h1, by simp⟩

/-! ## Tokens -/

/-- The kind of a token. -/
def Spec.Tok.kind : Tok → AddrTok
  | .word _ => .atom
  | .quoted _ => .quoted
  | .comment => .comment
  | .opening => .tagOpen
  | .closing => .tagClose
  | .separator => .separator

/-- Does the token read stand for `t`? -/
def Spec.Tok.Reads (t : Tok) (ty : AddrTok) (x : Bytes) : Prop := ty = t.kind ∧ (t ≠ .comment → [x] = t.content ∨ x = [] ∧ t.content = [])

theorem tokAt_eof_iff (sc : Bool) (s : Bytes) : (∃ t r, tokAt sc s = .ok (.eof, t, r)) ↔ ∃ w, ReadsFWS s w [] := by
  unfold tokAt
  rw [nextTok.eq_def]
  simp only [List.isEmpty_nil, Bool.not_true, Bool.false_eq_true, and_false, if_false, if_true]
  cases s with
  | nil =>
    simp only [List.isEmpty_nil, if_true]
    exact ⟨fun _ => ⟨[], .plain [] [] (by simp [AllWSP]) (by simp [Stop, NotHead])⟩, fun _ => ⟨[], [], rfl⟩⟩
  | cons c s =>
    simp only [List.isEmpty_cons, Bool.false_eq_true, if_false]
    cases hr : readFWS (c :: s) with
    | error e =>
      simp only [reduceCtorEq, exists_false, false_iff, not_exists]
      intro w h
      rw [(C08_fws_exact _ _ _).2 h] at hr; cases hr
    | ok p =>
      obtain ⟨ws, s1⟩ := p
      dsimp only
      cases s1 with
      | nil =>
        simp only [Except.ok.injEq, Prod.mk.injEq, true_and]
        exact ⟨fun _ => ⟨ws, (C08_fws_exact _ _ _).1 hr⟩, fun _ => ⟨[], [], rfl, rfl⟩⟩
      | cons d s1 =>
        constructor
        · rintro ⟨t, r, h⟩
          exfalso
          dsimp only at h
          have hl := readFWS_length hr
          split at h
          · split at h <;> cases h
          · split at h
            · split at h <;> cases h
            · split at h
              · cases h
              · split at h
                · cases h
                · split at h
                  · cases h
                  · have := (nextTok_wordText sc (c :: s).length ([] ++ [d]) s1 (by simp at hl ⊢; omega) (by simp) _ _ _).1 h
                    cases this.1
        · rintro ⟨w, h⟩
          rw [(C08_fws_exact _ _ _).2 h] at hr; cases hr

theorem tokAt_iff (sc : Bool) (s : Bytes) (t : Tok) (r : Bytes) :
    (∃ ty x, tokAt sc s = .ok (ty, x, r) ∧ t.Reads ty x ∧ 0 ∉ x) ↔ TokText sc s t r := by
  unfold tokAt
  rw [nextTok.eq_def]
  simp only [List.isEmpty_nil, Bool.not_true, Bool.false_eq_true, and_false, if_false, if_true]
  have hnil : ∀ w r', ReadsFWS s w r' → s = [] → r' = [] := by
    intro w r' h hs
    subst hs
    have h1 := (C08_fws_exact _ _ _).2 h
    have := readFWS_ok h1
    have := this.1.symm
    simp at this
    exact this.2
  constructor
  · rintro ⟨ty, x, h, ⟨rfl, hx⟩, h0⟩
    split at h
    · cases t <;> cases h
    · cases hr : readFWS s with
      | error e => rw [hr] at h; cases h
      | ok p =>
        obtain ⟨ws, s1⟩ := p
        rw [hr] at h
        dsimp only at h
        have hR := (C08_fws_exact _ _ _).1 hr
        have hl := readFWS_length hr
        cases s1 with
        | nil => cases t <;> cases h
        | cons c s1 =>
          dsimp only at h
          split at h
          · rename_i hc
            subst hc
            cases hq : quotedLoop sc [] s1 with
            | error e => rw [hq] at h; cases h
            | ok p =>
              obtain ⟨t', r'⟩ := p
              rw [hq] at h
              simp only [Except.ok.injEq, Prod.mk.injEq] at h
              obtain ⟨hk, rfl, rfl⟩ := h
              obtain ⟨content, text, rfl, hquo, hc⟩ := (quotedLoop_iff _ _ _ _ _).1 hq
              cases t <;> simp [Tok.kind] at hk
              simp [Tok.content] at hx
              simp at hc
              subst hx hc
              exact .quoted s ws text _ _ hR hquo h0
          · rename_i c1
            split at h
            · rename_i hc
              subst hc
              cases hq : commentLoop (s1.length + 2) 1 [] s1 with
              | error e => rw [hq] at h; cases h
              | ok p =>
                obtain ⟨t', r'⟩ := p
                rw [hq] at h
                simp only [Except.ok.injEq, Prod.mk.injEq] at h
                obtain ⟨hk, rfl, rfl⟩ := h
                obtain ⟨text, u, rfl, hcom, hu, hz⟩ := commentLoop_sound _ 0 _ _ _ _ hq
                cases t <;> simp [Tok.kind] at hk
                simp at hu
                subst hu
                exact .comment s ws text _ hR hcom (fun hz' => h0 (hz.2 hz'))
            · rename_i c2
              split at h
              · rename_i hc
                subst hc
                simp only [Except.ok.injEq, Prod.mk.injEq] at h
                obtain ⟨hk, rfl, rfl⟩ := h
                cases t <;> simp [Tok.kind] at hk
                exact .opening s ws _ hR
              · rename_i c3
                split at h
                · rename_i hc
                  subst hc
                  simp only [Except.ok.injEq, Prod.mk.injEq] at h
                  obtain ⟨hk, rfl, rfl⟩ := h
                  cases t <;> simp [Tok.kind] at hk
                  exact .closing s ws _ hR
                · rename_i c4
                  split at h
                  · rename_i hc
                    simp only [Except.ok.injEq, Prod.mk.injEq] at h
                    obtain ⟨hk, rfl, rfl⟩ := h
                    cases t <;> simp [Tok.kind] at hk
                    exact .separator s ws c _ hR hc
                  · rename_i c5
                    obtain ⟨hk, a, hw, hx'⟩ := (nextTok_wordText sc _ _ s1 (by simp at hl ⊢; omega) (by simp) _ _ _).1 h
                    cases t <;> simp [Tok.kind] at hk
                    simp [Tok.content] at hx
                    simp at hx'
                    subst hx hx'
                    refine .word s ws c s1 a r hR ?_ hw h0
                    simp [isSpecial, c1, c2, c3, c4]
                    simpa using c5
  · intro h
    have hne : ∀ w c r', ReadsFWS s w (c :: r') → s.isEmpty = false := by
      intro w c r' h
      cases hs : s with
      | nil => exact absurd (hnil _ _ h hs) (by simp)
      | cons => rfl
    cases h with
    | word w c r1 a _ h1 h2 h3 h4 =>
      refine ⟨.atom, c :: a, ?_, ⟨rfl, fun _ => .inl rfl⟩, h4⟩
      have hr := (C08_fws_exact _ _ _).2 h1
      have hl := readFWS_length hr
      rw [hne _ _ _ h1, hr]
      simp only [isSpecial, Bool.or_eq_false_iff, beq_eq_false_iff_ne] at h2
      obtain ⟨⟨⟨⟨⟨k1, k2⟩, k3⟩, k4⟩, k5⟩, k6⟩ := h2
      simp only [Bool.false_eq_true, if_false]
      rw [if_neg k1, if_neg k2, if_neg k3, if_neg k4, if_neg (fun h => h.elim k5 k6)]
      exact (nextTok_wordText sc _ _ r1 (by simp at hl ⊢; omega) (by simp) _ _ _).2 ⟨rfl, a, h3, rfl⟩
    | quoted w text content _ h1 h2 h3 =>
      refine ⟨.quoted, content, ?_, ⟨rfl, fun _ => .inl rfl⟩, h3⟩
      rw [hne _ _ _ h1, (C08_fws_exact _ _ _).2 h1]
      simp only [Bool.false_eq_true, if_false, if_true]
      rw [(quotedLoop_iff _ _ _ _ _).2 ⟨content, text, rfl, h2, rfl⟩]
      rfl
    | comment w text _ h1 h2 h3 =>
      obtain ⟨u, g1, g2⟩ := commentLoop_complete ((text ++ r).length + 2) 1 [] text r (by simp; omega) h2
      refine ⟨.comment, u, ?_, ⟨rfl, fun h => absurd rfl h⟩, fun h => h3 (g2.1 h)⟩
      rw [hne _ _ _ h1, (C08_fws_exact _ _ _).2 h1]
      simp only [Bool.false_eq_true, if_false, if_true]
      rw [if_neg (by decide), g1]
      rfl
    | opening w _ h1 =>
      refine ⟨.tagOpen, [], ?_, ⟨rfl, fun _ => .inr ⟨rfl, rfl⟩⟩, by simp⟩
      rw [hne _ _ _ h1, (C08_fws_exact _ _ _).2 h1]
      simp
    | closing w _ h1 =>
      refine ⟨.tagClose, [], ?_, ⟨rfl, fun _ => .inr ⟨rfl, rfl⟩⟩, by simp⟩
      rw [hne _ _ _ h1, (C08_fws_exact _ _ _).2 h1]
      simp
    | separator w c _ h1 h2 =>
      refine ⟨.separator, [], ?_, ⟨rfl, fun _ => .inr ⟨rfl, rfl⟩⟩, by simp⟩
      rw [hne _ _ _ h1, (C08_fws_exact _ _ _).2 h1]
      rcases h2 with rfl | rfl <;> simp

/-! ## Groups -/

theorem split_last {α : Type} {a : α} {x y x' y' : List α} (h : x ++ a :: y = x' ++ a :: y') (hy : a ∉ y) (hy' : a ∉ y') : x = x' ∧ y = y' := by
  rcases List.append_eq_append_iff.1 h with ⟨z, rfl, hz⟩ | ⟨z, rfl, hz⟩
  · cases z with
    | nil => simp at hz; simp [hz]
    | cons b z => exfalso; simp at hz; exact hy (by rw [hz.2]; simp)
  · cases z with
    | nil => simp at hz; simp [hz]
    | cons b z => exfalso; simp at hz; exact hy' (by rw [hz.2]; simp)

theorem Spec.AddrPart.det {g p p' : List Tok} (h : AddrPart g p) (h' : AddrPart g p') : p = p' := by
  obtain ⟨h1, h2⟩ := h
  obtain ⟨h1', h2'⟩ := h'
  rcases h2 with rfl | ⟨n, rfl⟩ <;> rcases h2' with h2' | ⟨n', h2'⟩
  · exact h2'
  · exfalso; apply h1; rw [h2']; simp
  · exfalso; apply h1'; rw [← h2']; simp
  · exact (split_last h2' h1 h1').2

/-- The state of the loop after the tokens `seg` of a group. -/
structure GroupInv (st : AddrSt) (seg : List Tok) : Prop where
  one : OneGroup seg
  tokens : ∃ part, AddrPart seg part ∧ st.tokens = contents part
  inOpen : st.inOpen = true ↔ Tok.opening ∈ seg
  quoted : st.type = .quoted ↔ ∃ a q, seg = a ++ [.quoted q]

theorem GroupInv.empty (st : AddrSt) (h1 : st.tokens = []) (h2 : st.inOpen = false) (h3 : st.type ≠ .quoted) : GroupInv st [] :=
  ⟨by simp [OneGroup], ⟨[], ⟨by simp, .inl rfl⟩, h1⟩, by simp [h2], by simp [h3]⟩

/-- The kind of token that ends a group. -/
def Spec.GroupEnd.kind : GroupEnd → AddrTok
  | .closing => .tagClose
  | .separator => .separator
  | .fin => .eof

/-- The part ends with a quoted string iff the group does. -/
theorem part_quoted {g p : List Tok} (h : AddrPart g p) : (∃ a q, g = a ++ [.quoted q]) ↔ ∃ a q, p = a ++ [.quoted q] := by
  rcases h.2 with rfl | ⟨n, rfl⟩
  · rfl
  · constructor
    · rintro ⟨a, q, hq⟩
      rcases List.eq_nil_or_concat p with rfl | ⟨p', x, rfl⟩
      · have := congrArg List.getLast? hq
        simp at this
      · have := congrArg List.getLast? hq
        have hh : n ++ Tok.opening :: (p' ++ [x]) = (n ++ Tok.opening :: p') ++ [x] := by simp
        rw [List.concat_eq_append] at this
        rw [hh, List.getLast?_append, List.getLast?_append] at this
        simp at this
        exact ⟨p', q, by rw [List.concat_eq_append, this]⟩
    · rintro ⟨a, q, rfl⟩
      exact ⟨n ++ .opening :: a, q, by simp⟩

/-- What the end of a group does. -/
theorem flush_iff (rec : Bytes → Except Err (List Bytes)) (st : AddrSt) (seg : List Tok) (hI : GroupInv st seg) (hc : st.type ≠ .tagClose ∨ st.tokens = [])
    (e : GroupEnd) (x : Bytes) (l : List Bytes) :
    (∃ st', addrSwitch rec { st with last := st.type, type := e.kind } x = .ok st' ∧ st'.list = l) ↔
      (e ≠ .closing → Tok.opening ∉ seg) ∧ ∃ as, Group (fun q l => rec q = .ok l) seg e as ∧ l = st.list ++ as := by
  obtain ⟨part, hp, htok⟩ := hI.tokens
  have hflush : addrSwitch rec { st with last := st.type, type := e.kind } x =
      (let st1 : AddrSt := { st with last := st.type, type := e.kind }
       let o : Bool := if e = .closing then false else st.inOpen
       if o then .error (.p .unclosedAddrSpec)
       else match st.tokens with
        | [] => .ok { st1 with inOpen := o }
        | t :: ts =>
          if e.kind = .separator ∧ st.type ≠ .tagClose ∧ !((t :: ts).getLast (by simp)).contains 64 then .ok { st1 with inOpen := o, tokens := [] }
          else if st.type = .quoted ∧ ts = [] then
            match rec t with
            | .error e => .error e
            | .ok addrs => .ok { st1 with inOpen := o, list := st.list ++ addrs, tokens := [] }
          else .ok { st1 with inOpen := o, list := st.list ++ [(t :: ts).flatten], tokens := [] }) := by
    cases e <;> rfl
  rw [hflush]
  clear hflush
  dsimp only
  have ho : (if e = .closing then false else st.inOpen) = true ↔ ¬ (e ≠ .closing → Tok.opening ∉ seg) := by
    by_cases h : e = .closing
    · simp [h]
    · simp [h, hI.inOpen]
  by_cases hopen : ¬ (e ≠ .closing → Tok.opening ∉ seg)
  · rw [if_pos (ho.2 hopen)]
    simp [hopen]
  replace hopen := Classical.not_not.1 hopen
  rw [if_neg (fun h => (ho.1 h) hopen)]
  rw [htok]
  -- the group relation with the part fixed
  cases hcs : contents part with
  | nil =>
    dsimp only
    constructor
    · rintro ⟨st', h, rfl⟩
      cases h
      exact ⟨hopen, [], .nothing _ _ _ hp hcs, by simp⟩
    · rintro ⟨-, as, h, rfl⟩
      refine ⟨_, rfl, ?_⟩
      cases h with
      | nothing => simp
      | name part' xs y h1 h2 => rw [hp.det h1, h2] at hcs; simp at hcs
      | nested part' _ q _ h1 h2 => rw [hp.det h1] at hcs; simp [contents, Tok.content] at hcs
      | address part' _ xs y h1 h2 => rw [hp.det h1, h2] at hcs; simp at hcs
  | cons t ts =>
    dsimp only
    obtain ⟨xs, y, hxy⟩ : ∃ xs y, t :: ts = xs ++ [y] := by
      rcases List.eq_nil_or_concat (t :: ts) with h | ⟨xs, y, h⟩
      · cases h
      · exact ⟨xs, y, by rw [h, List.concat_eq_append]⟩
    have hlast : (t :: ts).getLast (by simp) = y := by
      simp only [hxy]; simp
    rw [hlast]
    have hcs' := hcs.trans hxy
    have hty : st.type ≠ .tagClose := by
      rcases hc with h | h
      · exact h
      · rw [htok, hcs] at h; cases h
    have hsingle : (st.type = .quoted ∧ ts = []) ↔ (xs = [] ∧ ∃ a, part = a ++ [.quoted y]) := by
      rw [hI.quoted, part_quoted hp]
      constructor
      · rintro ⟨⟨a, q, rfl⟩, rfl⟩
        have hx : xs = [] ∧ t = y := by
          cases xs with
          | nil => simpa using hxy
          | cons => simp at hxy
        refine ⟨hx.1, a, ?_⟩
        have : contents (a ++ [Tok.quoted q]) = contents a ++ [q] := by simp [contents, Tok.content]
        rw [this, hcs'.symm.symm] at hcs'
        rw [this] at hcs
        have := congrArg List.getLast? hcs
        simp at this
        rw [this, hx.2]
      · rintro ⟨rfl, a, rfl⟩
        exact ⟨⟨a, y, rfl⟩, by simpa using (List.cons.inj hxy).2⟩
    by_cases hname : e.kind = .separator ∧ st.type ≠ .tagClose ∧ (!y.contains 64) = true
    · rw [if_pos hname]
      obtain ⟨he, _, hy⟩ := hname
      have he' : e = .separator := by cases e <;> simp [GroupEnd.kind] at he; rfl
      subst he'
      have hy' : (64 : Byte) ∉ y := by simpa using hy
      constructor
      · rintro ⟨st', h, rfl⟩
        cases h
        exact ⟨hopen, [], .name _ _ xs y hp hcs' hy', by simp⟩
      · rintro ⟨-, as, h, rfl⟩
        refine ⟨_, rfl, ?_⟩
        cases h with
        | nothing => simp
        | name => simp
        | nested part' _ q _ h1 h2 h3 h4 =>
          exfalso
          have := hp.det h1
          subst this
          have h5 : contents (part' ++ [Tok.quoted q]) = [q] := by rw [contents, List.flatMap_append]; change contents part' ++ _ = _; rw [h2]; rfl
          rw [h5] at hcs'
          have := congrArg List.getLast? hcs'
          simp at this
          exact hy' (this ▸ h3 rfl)
        | address part' _ xs' y' h1 h2 h3 =>
          exfalso
          rw [← hp.det h1, hcs'] at h2
          have := congrArg List.getLast? h2
          simp at this
          exact hy' (this ▸ h3 rfl)
    · rw [if_neg hname]
      have hsep : e = .separator → 64 ∈ y := by
        intro he
        subst he
        refine Classical.byContradiction fun hy => ?_
        exact hname ⟨rfl, hty, by simpa using hy⟩
      by_cases hq : st.type = .quoted ∧ ts = []
      · rw [if_pos hq]
        obtain ⟨rfl, a, rfl⟩ := hsingle.1 hq
        have ht : t = y := by simpa using (List.cons.inj hxy).1
        subst ht
        have ha : contents a = [] := by
          have : contents (a ++ [Tok.quoted t]) = contents a ++ [t] := by simp [contents, Tok.content]
          rw [this] at hcs'
          simpa using hcs'
        constructor
        · rintro ⟨st', h, rfl⟩
          cases hr : rec t with
          | error er => rw [hr] at h; cases h
          | ok as =>
            rw [hr] at h
            cases h
            exact ⟨hopen, as, .nested _ a _ t as hp ha hsep hr, rfl⟩
        · rintro ⟨-, as, h, rfl⟩
          cases h with
          | nothing part' _ h1 h2 => rw [← hp.det h1, hcs] at h2; cases h2
          | name part' xs y h1 h2 h3 =>
            exfalso
            rw [← hp.det h1, hcs'] at h2
            have := congrArg List.getLast? h2
            simp at this
            exact h3 (this ▸ hsep rfl)
          | nested part' _ q _ h1 h2 h3 h4 =>
            have := hp.det h1
            simp at this
            obtain ⟨_, rfl⟩ := this
            exact ⟨_, by rw [h4], rfl⟩
          | address part' _ xs' y' h1 h2 h3 h4 =>
            exfalso
            have := hp.det h1
            subst this
            rw [hcs'] at h2
            cases xs' with
            | nil => simp at h2; exact h4 rfl a (by rw [h2])
            | cons => simp at h2
      · rw [if_neg hq]
        have hns := fun h => hq (hsingle.2 h)
        constructor
        · rintro ⟨st', h, rfl⟩
          cases h
          refine ⟨hopen, [(xs ++ [y]).flatten], .address _ part _ xs y hp hcs' hsep (fun h1 a h2 => hns ⟨h1, a, h2⟩), by rw [hxy]⟩
        · rintro ⟨-, as, h, rfl⟩
          refine ⟨_, rfl, ?_⟩
          cases h with
          | nothing part' _ h1 h2 => rw [← hp.det h1, hcs] at h2; cases h2
          | name part' xs y h1 h2 h3 =>
            exfalso
            rw [← hp.det h1, hcs'] at h2
            have := congrArg List.getLast? h2
            simp at this
            exact h3 (this ▸ hsep rfl)
          | nested part' _ q _ h1 h2 h3 h4 =>
            exfalso
            have := hp.det h1
            subst this
            have h5 : contents (part' ++ [Tok.quoted q]) = [q] := by rw [contents, List.flatMap_append]; change contents part' ++ _ = _; rw [h2]; rfl
            rw [h5] at hcs'
            cases xs with
            | nil => simp at hcs'; exact hns ⟨rfl, part', by rw [hcs']⟩
            | cons => simp at hcs'
          | address part' _ xs' y' h1 h2 h3 h4 =>
            rw [← hp.det h1, hcs'] at h2
            rw [hxy, h2]

/-- After the end of a group the next group begins. -/
theorem flush_state (rec : Bytes → Except Err (List Bytes)) (st st' : AddrSt) (e : GroupEnd) (x : Bytes)
    (h : addrSwitch rec { st with last := st.type, type := e.kind } x = .ok st') :
    st'.tokens = [] ∧ st'.inOpen = false ∧ st'.type = e.kind := by
  have hty := addrSwitch_type _ _ _ _ h
  suffices st'.tokens = [] ∧ st'.inOpen = false from ⟨this.1, this.2, hty⟩
  have hflush : addrSwitch rec { st with last := st.type, type := e.kind } x =
      (let st1 : AddrSt := { st with last := st.type, type := e.kind }
       let o : Bool := if e = .closing then false else st.inOpen
       if o then .error (.p .unclosedAddrSpec)
       else match st.tokens with
        | [] => .ok { st1 with inOpen := o }
        | t :: ts =>
          if e.kind = .separator ∧ st.type ≠ .tagClose ∧ !((t :: ts).getLast (by simp)).contains 64 then .ok { st1 with inOpen := o, tokens := [] }
          else if st.type = .quoted ∧ ts = [] then
            match rec t with
            | .error e => .error e
            | .ok addrs => .ok { st1 with inOpen := o, list := st.list ++ addrs, tokens := [] }
          else .ok { st1 with inOpen := o, list := st.list ++ [(t :: ts).flatten], tokens := [] }) := by
    cases e <;> rfl
  rw [hflush] at h
  clear hflush
  dsimp only at h
  generalize (if e = .closing then false else st.inOpen) = o at h
  cases o with
  | true => cases h
  | false =>
    cases ht : st.tokens with
    | nil => rw [ht] at h; cases h; exact ⟨rfl, rfl⟩
    | cons t ts =>
      rw [ht] at h
      dsimp only at h
      generalize (t :: ts).getLast _ = y at h
      rw [if_neg (by simp)] at h
      by_cases h1 : e.kind = .separator ∧ st.type ≠ .tagClose ∧ (!y.contains 64) = true
      · rw [if_pos h1] at h; cases h; exact ⟨rfl, rfl⟩
      · rw [if_neg h1] at h
        by_cases h2 : st.type = .quoted ∧ ts = []
        · rw [if_pos h2] at h
          cases hr : rec t with
          | error er => rw [hr] at h; cases h
          | ok as => rw [hr] at h; cases h; exact ⟨rfl, rfl⟩
        · rw [if_neg h2] at h; cases h; exact ⟨rfl, rfl⟩

theorem split_first_of {α : Type} {p : α → Prop} {a b : α} {x y x' y' : List α} (h : x ++ a :: y = x' ++ b :: y') (ha : p a) (hb : p b)
    (hx : ∀ c ∈ x, ¬ p c) (hx' : ∀ c ∈ x', ¬ p c) : x = x' ∧ a = b ∧ y = y' := by
  rcases List.append_eq_append_iff.1 h with ⟨z, rfl, hz⟩ | ⟨z, rfl, hz⟩
  · cases z with
    | nil => simp at hz; simp [hz]
    | cons c z => exfalso; simp at hz; exact hx' c (by simp) (hz.1 ▸ ha)
  · cases z with
    | nil => simp at hz; simp [hz]
    | cons c z => exfalso; simp at hz; exact hx c (by simp) (hz.1 ▸ hb)

theorem oneGroup_iff {g : List Tok} : OneGroup g ↔ ∀ c ∈ g, ¬ (c = .closing ∨ c = .separator) := by
  unfold OneGroup
  constructor
  · rintro ⟨h1, h2⟩ c hc (rfl | rfl)
    · exact h1 hc
    · exact h2 hc
  · intro h
    exact ⟨fun hc => h _ hc (.inl rfl), fun hc => h _ hc (.inr rfl)⟩

theorem groups_sep_iff {R : Bytes → List Bytes → Prop} {g ts : List Tok} {as : List Bytes} (hg : OneGroup g) :
    Groups R (g ++ .separator :: ts) as ↔ Tok.opening ∉ g ∧ ∃ xs ys, Group R g .separator xs ∧ Groups R ts ys ∧ as = xs ++ ys := by
  constructor
  · intro h
    generalize hl : g ++ Tok.separator :: ts = l at h
    cases h with
    | last _ _ h1 => exfalso; rw [← hl] at h1; exact h1.2 (by simp)
    | separator g' xs ts' ys h1 h2 h3 h4 =>
      obtain ⟨rfl, -, rfl⟩ := split_first_of (p := fun c => c = Tok.closing ∨ c = Tok.separator) hl (.inr rfl) (.inr rfl) (oneGroup_iff.1 hg) (oneGroup_iff.1 h1)
      exact ⟨h2, xs, ys, h3, h4, rfl⟩
    | closing g' xs ts' ys h1 h3 h4 =>
      exfalso
      obtain ⟨-, h, -⟩ := split_first_of (p := fun c => c = Tok.closing ∨ c = Tok.separator) hl (.inr rfl) (.inl rfl) (oneGroup_iff.1 hg) (oneGroup_iff.1 h1)
      cases h
  · rintro ⟨h1, xs, ys, h2, h3, rfl⟩
    exact .separator _ _ _ _ hg h1 h2 h3

theorem groups_close_iff {R : Bytes → List Bytes → Prop} {g ts : List Tok} {as : List Bytes} (hg : OneGroup g) :
    Groups R (g ++ .closing :: ts) as ↔ ∃ xs ys, Group R g .closing xs ∧ Groups R ts ys ∧ as = xs ++ ys := by
  constructor
  · intro h
    generalize hl : g ++ Tok.closing :: ts = l at h
    cases h with
    | last _ _ h1 => exfalso; rw [← hl] at h1; exact h1.1 (by simp)
    | closing g' xs ts' ys h1 h3 h4 =>
      obtain ⟨rfl, -, rfl⟩ := split_first_of (p := fun c => c = Tok.closing ∨ c = Tok.separator) hl (.inl rfl) (.inl rfl) (oneGroup_iff.1 hg) (oneGroup_iff.1 h1)
      exact ⟨xs, ys, h3, h4, rfl⟩
    | separator g' xs ts' ys h1 h2 h3 h4 =>
      exfalso
      obtain ⟨-, h, -⟩ := split_first_of (p := fun c => c = Tok.closing ∨ c = Tok.separator) hl (.inl rfl) (.inr rfl) (oneGroup_iff.1 hg) (oneGroup_iff.1 h1)
      cases h
  · rintro ⟨xs, ys, h2, h3, rfl⟩
    exact .closing _ _ _ _ hg h2 h3

theorem groups_last_iff {R : Bytes → List Bytes → Prop} {g : List Tok} {as : List Bytes} (hg : OneGroup g) :
    Groups R g as ↔ Tok.opening ∉ g ∧ Group R g .fin as := by
  constructor
  · intro h
    cases h with
    | last _ _ h1 h2 h3 => exact ⟨h2, h3⟩
    | separator => exfalso; exact hg.2 (by simp)
    | closing => exfalso; exact hg.1 (by simp)
  · rintro ⟨h1, h2⟩
    exact .last _ _ hg h1 h2

theorem GroupInv.item {st : AddrSt} {seg : List Tok} (hI : GroupInv st seg) (t : Tok) (st' : AddrSt) (ht : t ≠ .opening ∧ t ≠ .closing ∧ t ≠ .separator)
    (h1 : st'.tokens = st.tokens ++ t.content) (h2 : st'.inOpen = st.inOpen) (h3 : st'.type = t.kind) : GroupInv st' (seg ++ [t]) := by
  obtain ⟨part, hp, htok⟩ := hI.tokens
  refine ⟨?_, ⟨part ++ [t], ⟨?_, ?_⟩, ?_⟩, ?_, ?_⟩
  · exact ⟨by simp [hI.one.1]; exact fun h => ht.2.1 h.symm, by simp [hI.one.2]; exact fun h => ht.2.2 h.symm⟩
  · simp [hp.1]; exact fun h => ht.1 h.symm
  · rcases hp.2 with rfl | ⟨n, rfl⟩
    · exact .inl rfl
    · exact .inr ⟨n, by simp⟩
  · rw [h1, htok]; simp [contents]
  · rw [h2, hI.inOpen]; simp; exact fun h => absurd h.symm ht.1
  · rw [h3]
    constructor
    · intro h
      cases t <;> simp [Tok.kind] at h
      exact ⟨seg, _, rfl⟩
    · rintro ⟨a, q, h⟩
      have := congrArg List.getLast? h
      simp at this
      rw [this]; rfl

theorem GroupInv.open {st : AddrSt} {seg : List Tok} (hI : GroupInv st seg) (st' : AddrSt)
    (h1 : st'.tokens = []) (h2 : st'.inOpen = true) (h3 : st'.type = .tagOpen) : GroupInv st' (seg ++ [.opening]) := by
  refine ⟨⟨by simp [hI.one.1], by simp [hI.one.2]⟩, ⟨[], ⟨by simp, .inr ⟨seg, rfl⟩⟩, by simp [h1, contents]⟩, by simp [h2], ?_⟩
  rw [h3]
  constructor
  · intro h; cases h
  · rintro ⟨a, q, h⟩
    have := congrArg List.getLast? h
    simp at this

theorem tokAt_empty (sc : Bool) (s : Bytes) (ty : AddrTok) (x r : Bytes) (h : tokAt sc s = .ok (ty, x, r))
    (hty : ty ≠ .quoted ∧ ty ≠ .atom ∧ ty ≠ .comment) : x = [] := by
  unfold tokAt at h
  rw [nextTok.eq_def] at h
  simp only [List.isEmpty_nil, Bool.not_true, Bool.false_eq_true, and_false, if_false, if_true] at h
  split at h
  · cases h; rfl
  · cases hr : readFWS s with
    | error e => rw [hr] at h; cases h
    | ok p =>
      obtain ⟨ws, s1⟩ := p
      rw [hr] at h
      dsimp only at h
      have hl := readFWS_length hr
      cases s1 with
      | nil => cases h; rfl
      | cons d s1 =>
        dsimp only at h
        split at h
        · split at h
          · cases h
          · cases h; exact absurd rfl hty.1
        · split at h
          · split at h
            · cases h
            · cases h; exact absurd rfl hty.2.2
          · split at h
            · cases h; rfl
            · split at h
              · cases h; rfl
              · split at h
                · cases h; rfl
                · have := (nextTok_wordText sc s.length ([] ++ [d]) s1 (by simp at hl ⊢; omega) (by simp) _ _ _).1 h
                  exact absurd this.1 hty.2.1

theorem addrLoop_groups (sc : Bool) (rec : Bytes → Except Err (List Bytes)) (n : Nat) (st : AddrSt) (s : Bytes) (seg : List Tok)
    (hI : GroupInv st seg) (hc : st.type ≠ .tagClose ∨ st.tokens = []) (hn : s.length + 2 ≤ n) (hty : st.type ≠ .eof) (l : List Bytes) :
    addrLoop sc rec n st s = .ok l ↔
      ∃ ts as, TokensText sc s ts ∧ Groups (fun q l => rec q = .ok l) (seg ++ ts) as ∧ l = st.list ++ as := by
  induction n generalizing st s seg with
  | zero => omega
  | succ n ih =>
    rw [addrLoop.eq_def]
    dsimp only
    rw [if_neg hty]
    change ((match tokAt sc s with
      | .error e => .error e
      | .ok (ty, token, r) =>
        if token.contains 0 then .error (.p .nulInAddress)
        else
          match addrSwitch rec { st with last := st.type, type := ty } token with
          | .error e => .error e
          | .ok st' => addrLoop sc rec n st' r) : Except Err (List Bytes)) = .ok l ↔ _
    -- the token list determined by the first token
    have inv : ∀ ts, TokensText sc s ts → (ts = [] ∧ ∃ t r, tokAt sc s = .ok (.eof, t, r)) ∨
        ∃ t r ts' ty x, ts = t :: ts' ∧ tokAt sc s = .ok (ty, x, r) ∧ t.Reads ty x ∧ 0 ∉ x ∧ TokensText sc r ts' := by
      intro ts h
      cases h with
      | done _ w h => exact .inl ⟨rfl, (tokAt_eof_iff sc s).2 ⟨w, h⟩⟩
      | cons _ t r ts' h1 h2 =>
        obtain ⟨ty, x, g1, g2, g3⟩ := (tokAt_iff sc s t r).2 h1
        exact .inr ⟨t, r, ts', ty, x, rfl, g1, g2, g3, h2⟩
    cases htk : tokAt sc s with
    | error e =>
      simp only [reduceCtorEq, false_iff]
      rintro ⟨ts, as, h, -⟩
      rcases inv ts h with ⟨-, t, r, h⟩ | ⟨t, r, ts', ty, x, -, h, -⟩ <;> rw [htk] at h <;> cases h
    | ok p =>
      obtain ⟨ty, x, r⟩ := p
      dsimp only
      by_cases h0 : (0 : Byte) ∈ x
      · rw [if_pos (by simpa using h0)]
        simp only [reduceCtorEq, false_iff]
        rintro ⟨ts, as, h, -⟩
        rcases inv ts h with ⟨-, t, r', h⟩ | ⟨t, r', ts', ty', x', -, h, -, h0', -⟩
        · rw [htk] at h
          cases h
          have hx : x = [] := tokAt_empty sc s _ _ _ htk (by simp)
          rw [hx] at h0; cases h0
        · rw [htk] at h; cases h; exact h0' h0
      · rw [if_neg (by simpa using h0)]
        have hends := (nextTok_ends sc (s.length + 1) [] s (by omega)).2 ty x r htk
        by_cases hte : ty = .eof
        · subst hte
          have hts : ∀ ts, TokensText sc s ts ↔ ts = [] := by
            intro ts
            constructor
            · intro h
              rcases inv ts h with ⟨h, -⟩ | ⟨t, r', ts', ty', x', -, h, ⟨h2, -⟩, -⟩
              · exact h
              · rw [htk] at h; cases h; cases t <;> cases h2
            · rintro rfl
              obtain ⟨w, h⟩ := (tokAt_eof_iff sc s).1 ⟨x, r, htk⟩
              exact .done s w h
          have hrhs : (∃ ts as, TokensText sc s ts ∧ Groups (fun q l => rec q = .ok l) (seg ++ ts) as ∧ l = st.list ++ as) ↔
              (Tok.opening ∉ seg) ∧ ∃ as, Group (fun q l => rec q = .ok l) seg .fin as ∧ l = st.list ++ as := by
            constructor
            · rintro ⟨ts, as, h1, h2, h3⟩
              rw [hts] at h1
              subst h1
              rw [List.append_nil, groups_last_iff hI.one] at h2
              exact ⟨h2.1, as, h2.2, h3⟩
            · rintro ⟨h1, as, h2, h3⟩
              exact ⟨[], as, (hts _).2 rfl, by rw [List.append_nil, groups_last_iff hI.one]; exact ⟨h1, h2⟩, h3⟩
          rw [hrhs]
          have hf := flush_iff rec st seg hI hc .fin x l
          simp only [ne_eq, reduceCtorEq, not_false_eq_true, forall_const] at hf
          refine Iff.trans ?_ hf
          constructor
          · intro h
            cases hsw : addrSwitch rec { st with last := st.type, type := .eof } x with
            | error e => rw [hsw] at h; cases h
            | ok st' =>
              rw [hsw] at h
              dsimp only at h
              have hst := addrSwitch_type _ _ _ _ hsw
              match n, hn with
              | n + 1, hn =>
                rw [addrLoop.eq_def] at h
                dsimp only at h
                rw [if_pos hst] at h
                cases h
                exact ⟨st', hsw, rfl⟩
          · rintro ⟨st', hsw, rfl⟩
            have hsw' : addrSwitch rec { st with last := st.type, type := .eof } x = .ok st' := hsw
            rw [hsw']
            dsimp only
            have hst := addrSwitch_type _ _ _ _ hsw
            match n, hn with
            | n + 1, hn =>
              rw [addrLoop.eq_def]
              dsimp only
              rw [if_pos (show st'.type = .eof from hst)]
        · -- a token
          have hlt := hends.2.1 rfl hte
          obtain ⟨t, ht⟩ : ∃ t : Tok, t.Reads ty x := by
            cases ty with
            | quoted => exact ⟨.quoted x, rfl, fun _ => .inl rfl⟩
            | atom => exact ⟨.word x, rfl, fun _ => .inl rfl⟩
            | comment => exact ⟨.comment, rfl, fun h => absurd rfl h⟩
            | tagOpen => exact ⟨.opening, rfl, fun _ => .inr ⟨tokAt_empty sc s _ _ _ htk (by simp), rfl⟩⟩
            | tagClose => exact ⟨.closing, rfl, fun _ => .inr ⟨tokAt_empty sc s _ _ _ htk (by simp), rfl⟩⟩
            | separator => exact ⟨.separator, rfl, fun _ => .inr ⟨tokAt_empty sc s _ _ _ htk (by simp), rfl⟩⟩
            | eof => exact absurd rfl hte
          have hT : TokText sc s t r := (tokAt_iff sc s t r).1 ⟨ty, x, htk, ht, h0⟩
          have hrhs : (∃ ts as, TokensText sc s ts ∧ Groups (fun q l => rec q = .ok l) (seg ++ ts) as ∧ l = st.list ++ as) ↔
              ∃ ts as, TokensText sc r ts ∧ Groups (fun q l => rec q = .ok l) (seg ++ t :: ts) as ∧ l = st.list ++ as := by
            constructor
            · rintro ⟨ts, as, h1, h2, h3⟩
              rcases inv ts h1 with ⟨-, t', r', h⟩ | ⟨t', r', ts', ty', x', rfl, h, hr', -, h4⟩
              · rw [htk] at h; cases h; exact absurd rfl hte
              · rw [htk] at h
                cases h
                have : t' = t := by
                  obtain ⟨k1, k2⟩ := ht
                  obtain ⟨k1', k2'⟩ := hr'
                  cases t <;> cases t' <;> simp [Tok.kind] at k1 k1' <;> (try subst k1) <;> (try cases k1') <;>
                    first
                      | rfl
                      | (simp [Tok.content] at k2 k2'; rw [← k2, ← k2'])
                subst this
                exact ⟨ts', as, h4, h2, h3⟩
            · rintro ⟨ts, as, h1, h2, h3⟩
              exact ⟨t :: ts, as, .cons _ _ _ _ hT h1, h2, h3⟩
          rw [hrhs]
          have happ : ∀ ts, seg ++ t :: ts = (seg ++ [t]) ++ ts := by intro ts; simp
          obtain ⟨hk, hx⟩ := ht
          -- an item of the group
          have item : ∀ st' : AddrSt, addrSwitch rec { st with last := st.type, type := ty } x = .ok st' → st'.list = st.list →
              GroupInv st' (seg ++ [t]) → st'.type ≠ .tagClose → ((match addrSwitch rec { st with last := st.type, type := ty } x with
                | .error e => .error e
                | .ok st' => addrLoop sc rec n st' r : Except Err (List Bytes)) = .ok l ↔
                ∃ ts as, TokensText sc r ts ∧ Groups (fun q l => rec q = .ok l) (seg ++ t :: ts) as ∧ l = st.list ++ as) := by
            intro st' h1 h2 h3 h4
            rw [h1]
            dsimp only
            have h5 := addrSwitch_type _ _ _ _ h1
            refine (ih st' r _ h3 (.inl h4) (by omega) (by rw [h5]; exact hte)).trans ?_
            rw [h2]
            constructor <;> rintro ⟨ts, as, g1, g2, g3⟩
            · exact ⟨ts, as, g1, by rw [happ]; exact g2, g3⟩
            · exact ⟨ts, as, g1, by rw [← happ]; exact g2, g3⟩
          -- the end of the group
          have fin : ∀ e : GroupEnd, ty = e.kind → e ≠ .fin → ((match addrSwitch rec { st with last := st.type, type := ty } x with
                | .error e => .error e
                | .ok st' => addrLoop sc rec n st' r : Except Err (List Bytes)) = .ok l ↔
                (e ≠ .closing → Tok.opening ∉ seg) ∧ ∃ ts xs ys, TokensText sc r ts ∧ Group (fun q l => rec q = .ok l) seg e xs ∧
                  Groups (fun q l => rec q = .ok l) ts ys ∧ l = st.list ++ (xs ++ ys)) := by
            intro e he hef
            have hf := flush_iff rec st seg hI hc e x
            subst he
            cases hsw : addrSwitch rec { st with last := st.type, type := e.kind } x with
            | error er =>
              simp only [reduceCtorEq, false_iff]
              rintro ⟨h1, ts, xs, ys, -, h2, -⟩
              obtain ⟨st', h3, -⟩ := (hf (st.list ++ xs)).2 ⟨h1, xs, h2, rfl⟩
              rw [hsw] at h3; cases h3
            | ok st' =>
              dsimp only
              obtain ⟨k1, k2, k3⟩ := flush_state rec st st' e x hsw
              have hq : st'.type ≠ .quoted := by rw [k3]; cases e <;> simp [GroupEnd.kind]
              rw [ih st' r [] (GroupInv.empty st' k1 k2 hq) (.inr k1) (by omega) (by rw [k3]; exact hte)]
              simp only [List.nil_append]
              constructor
              · rintro ⟨ts, as, g1, g2, g3⟩
                obtain ⟨h1, xs, h2, h3⟩ := (hf st'.list).1 ⟨st', hsw, rfl⟩
                exact ⟨h1, ts, xs, as, g1, h2, g2, by rw [g3, h3]; simp⟩
              · rintro ⟨h1, ts, xs, ys, g1, g2, g3, g4⟩
                obtain ⟨st'', h3, h4⟩ := (hf (st.list ++ xs)).2 ⟨h1, xs, g2, rfl⟩
                rw [hsw] at h3
                cases h3
                exact ⟨ts, ys, g1, g3, by rw [g4, h4]; simp⟩
          cases t with
          | word a =>
            subst hk
            simp [Tok.content] at hx
            subst hx
            exact item _ rfl rfl (hI.item (.word x) _ (by simp) rfl rfl rfl) (by simp [Tok.kind])
          | quoted a =>
            subst hk
            simp [Tok.content] at hx
            subst hx
            exact item _ rfl rfl (hI.item (.quoted x) _ (by simp) rfl rfl rfl) (by simp [Tok.kind])
          | comment =>
            subst hk
            exact item _ rfl rfl (hI.item .comment _ (by simp) (by simp [Tok.content]) rfl rfl) (by simp [Tok.kind])
          | opening =>
            subst hk
            exact item _ rfl rfl (hI.open _ rfl rfl rfl) (by simp [Tok.kind])
          | closing =>
            refine (fin .closing hk (by simp)).trans ?_
            simp only [ne_eq, not_true, false_implies, true_and]
            constructor
            · rintro ⟨ts, xs, ys, g1, g2, g3, g4⟩
              exact ⟨ts, xs ++ ys, g1, (groups_close_iff hI.one).2 ⟨xs, ys, g2, g3, rfl⟩, g4⟩
            · rintro ⟨ts, as, g1, g2, g3⟩
              obtain ⟨xs, ys, k1, k2, rfl⟩ := (groups_close_iff hI.one).1 g2
              exact ⟨ts, xs, ys, g1, k1, k2, g3⟩
          | separator =>
            refine (fin .separator hk (by simp)).trans ?_
            constructor
            · rintro ⟨g0, ts, xs, ys, g1, g2, g3, g4⟩
              exact ⟨ts, xs ++ ys, g1, (groups_sep_iff hI.one).2 ⟨g0 (by simp), xs, ys, g2, g3, rfl⟩, g4⟩
            · rintro ⟨ts, as, g1, g2, g3⟩
              obtain ⟨g0, xs, ys, k1, k2, rfl⟩ := (groups_sep_iff hI.one).1 g2
              exact ⟨fun _ => g0, ts, xs, ys, g1, k1, k2, g3⟩

/-! ## The parser -/

theorem Spec.Groups.mono {R R' : Bytes → List Bytes → Prop} (hR : ∀ q l, R q l → R' q l) {ts : List Tok} {as : List Bytes} (h : Groups R ts as) :
    Groups R' ts as := by
  have hg : ∀ g e as, Group R g e as → Group R' g e as := by
    intro g e as h
    cases h with
    | nothing part _ h1 h2 => exact .nothing _ part _ h1 h2
    | name part xs x h1 h2 h3 => exact .name _ part xs x h1 h2 h3
    | nested part _ q _ h1 h2 h3 h4 => exact .nested _ part _ q _ h1 h2 h3 (hR _ _ h4)
    | address part _ xs x h1 h2 h3 h4 => exact .address _ part _ xs x h1 h2 h3 h4
  induction h with
  | last g as h1 h2 h3 => exact .last _ _ h1 h2 (hg _ _ _ h3)
  | separator g as ts bs h1 h2 h3 _ ih => exact .separator _ _ _ _ h1 h2 (hg _ _ _ h3) ih
  | closing g as ts bs h1 h3 _ ih => exact .closing _ _ _ _ h1 (hg _ _ _ h3) ih

theorem parseAddrDepth_iff (sc : Bool) (n : Nat) (s : Bytes) (as : List Bytes) : parseAddrDepth sc n s = .ok as ↔ AddrTextIn sc n s as := by
  induction n generalizing s as with
  | zero => simp [parseAddrDepth, AddrTextIn]
  | succ n ih =>
    rw [parseAddrDepth, addrLoop_groups sc _ _ {} s [] (GroupInv.empty _ rfl rfl (by simp)) (.inl (by simp)) (Nat.le_refl _) (by simp), AddrTextIn]
    constructor
    · rintro ⟨ts, as', h1, h2, rfl⟩
      exact ⟨ts, h1, h2.mono (fun q l h => (ih q l).1 h)⟩
    · rintro ⟨ts, h1, h2⟩
      exact ⟨ts, as, h1, h2.mono (fun q l h => (ih q l).2 h), by simp⟩

theorem addrTextIn_succ (sc : Bool) (n : Nat) (s : Bytes) (as : List Bytes) (h : AddrTextIn sc n s as) : AddrTextIn sc (n + 1) s as := by
  induction n generalizing s as with
  | zero => cases h
  | succ n ih =>
    obtain ⟨ts, h1, h2⟩ := h
    exact ⟨ts, h1, h2.mono ih⟩

theorem addrTextIn_le (sc : Bool) {n m : Nat} (hnm : n ≤ m) (s : Bytes) (as : List Bytes) (h : AddrTextIn sc n s as) : AddrTextIn sc m s as := by
  induction hnm with
  | refl => exact h
  | step _ ih => exact addrTextIn_succ sc _ s as ih

end Dkim

import Verif.Proofs.Address
import Verif.Spec.Address
/-!
# The address tokenizer on well-formed text
-/

namespace Dkim
open Spec

theorem readFWS_isFWS {w r : Bytes} (hw : IsFWS w) (hr : Stop r) : readFWS (w ++ r) = .ok (w, r) := by
  rcases hw with h | ⟨a, b, ha, hb, hne, rfl⟩
  · exact readFWS_plain h hr
  · refine readFWS_fold ha hb hne ?_
    intro c hc
    have := hr c hc
    simp at this
    exact this.1

theorem readFWS_stop {r : Bytes} (hr : Stop r) : readFWS r = .ok ([], r) :=
  readFWS_isFWS (w := []) (Or.inl (by simp [AllWSP])) hr

/-- `nextTok` gives the same for every sufficient fuel. -/
theorem nextTok_fuel (sc : Bool) (n m : Nat) (tok s : Bytes) (hn : s.length < n) (hm : s.length < m) :
    nextTok sc n tok s = nextTok sc m tok s := by
  induction n generalizing m tok s with
  | zero => omega
  | succ n ih =>
    match m, hm with
    | m + 1, hm =>
      rw [nextTok.eq_def, nextTok.eq_def]
      dsimp only
      split
      · rfl
      · cases hr : readFWS s with
        | error e => rfl
        | ok p =>
          obtain ⟨ws, s1⟩ := p
          have hl := readFWS_length hr
          dsimp only
          split
          · rfl
          · cases s1 with
            | nil => rfl
            | cons c r =>
              simp at hl
              dsimp only
              rw [ih m (tok ++ [c]) r (by omega) (by omega)]

/-- The next token with enough fuel. -/
def tokAt (sc : Bool) (s : Bytes) : Except Err (AddrTok × Bytes × Bytes) := nextTok sc (s.length + 1) [] s

/-- One unfolding of the tokenizer at a byte that starts no white space. -/
theorem nextTok_char (sc : Bool) (n : Nat) (tok w : Bytes) (c : Byte) (r : Bytes) (hw : IsFWS w)
    (hc : isWSP c = false ∧ c ≠ CR) (hempty : w ≠ [] → tok = []) :
    nextTok sc (n + 1) tok (w ++ c :: r) =
      (if c = 34 then
        if !tok.isEmpty then .ok (.atom, tok, c :: r)
        else match quotedLoop sc [] r with
          | .error e => .error e
          | .ok (t, r') => .ok (.quoted, t, r')
      else if c = 40 then
        if !tok.isEmpty then .ok (.atom, tok, c :: r)
        else match commentLoop (r.length + 2) 1 [] r with
          | .error e => .error e
          | .ok (t, r') => .ok (.comment, t, r')
      else if c = 60 then
        if !tok.isEmpty then .ok (.atom, tok, c :: r) else .ok (.tagOpen, [], r)
      else if c = 62 then
        if !tok.isEmpty then .ok (.atom, tok, c :: r) else .ok (.tagClose, [], r)
      else if c = 44 ∨ c = 59 then
        if !tok.isEmpty then .ok (.atom, tok, c :: r) else .ok (.separator, [], r)
      else nextTok sc n (tok ++ [c]) r) := by
  have hstop : Stop (c :: r) := by
    intro d hd
    simp at hd
    subst hd
    simp [hc.1, hc.2]
  rw [nextTok.eq_def]
  dsimp only
  rw [if_neg (by simp), readFWS_isFWS hw hstop]
  dsimp only
  have hneg : ¬ ((!w.isEmpty) = true ∧ (!tok.isEmpty) = true) := by
    rintro ⟨h1, h2⟩
    have : tok = [] := hempty (by simpa using h1)
    simp [this] at h2
  rw [if_neg hneg]
  rfl

/-- White space before a token does not matter. -/
theorem tokAt_ws (sc : Bool) (w X : Bytes) (hw : IsFWS w) (hX : Stop X) : tokAt sc (w ++ X) = tokAt sc X := by
  unfold tokAt
  cases X with
  | nil =>
    rw [nextTok.eq_def, nextTok.eq_def]
    dsimp only
    have := readFWS_isFWS hw hX
    cases w with
    | nil => simp
    | cons a w => simp at this; simp [this]
  | cons c r =>
    have hc : isWSP c = false ∧ c ≠ CR := by
      have := hX c (by simp)
      simpa using this
    rw [nextTok_fuel sc _ ((w ++ c :: r).length + 1) [] (c :: r) (by simp) (by simp; omega)]
    rw [nextTok_char sc _ [] w c r hw hc (by simp)]
    have := nextTok_char sc (w ++ c :: r).length [] [] c r (Or.inl (by simp [AllWSP])) hc (by simp)
    simp only [List.nil_append] at this
    exact this.symm

theorem quotedLoop_text (sc : Bool) {content text : Bytes} (h : Quoted sc content text) (tok r : Bytes) :
    quotedLoop sc tok (text ++ 34 :: r) = .ok (tok ++ content, r) := by
  induction h generalizing tok with
  | nil => rw [List.nil_append, quotedLoop.eq_def]; dsimp only; rw [if_neg (by simp), if_neg (by decide), if_pos rfl]; simp
  | plain c content text h1 h2 h3 _ ih =>
    rw [List.cons_append, quotedLoop.eq_def]
    dsimp only
    rw [if_neg (fun h => h3 h.1 h.2), if_neg h2, if_neg h1, ih]
    simp
  | escaped c content text _ ih =>
    rw [List.cons_append, List.cons_append, quotedLoop.eq_def]
    dsimp only
    rw [if_neg (by simp), if_pos rfl, ih]
    simp

theorem Spec.CommentTail.pos {d : Nat} {text : Bytes} (h : CommentTail d text) : 0 < d := by
  induction h <;> omega

theorem Spec.CommentTail.ne {d : Nat} {text : Bytes} (h : CommentTail d text) : text ≠ [] := by
  cases h <;> simp

/-- The comment loop on well-formed comment text. -/
theorem commentLoop_text {d : Nat} {text : Bytes} (h : CommentTail d text) :
    ∀ (n : Nat) (tok r : Bytes), text.length < n → 0 ∉ text →
      (∃ t, commentLoop n d tok (text ++ r) = .ok (tok ++ t, r) ∧ 0 ∉ t) ∧
      (NotHead (· == 92) text → ∃ d' a s t, commentStep d (text ++ r) = (d', a, s) ∧ 0 ∉ a ∧
        commentLoop (n - 1) d' (tok ++ a) s = .ok (tok ++ a ++ t, r) ∧ 0 ∉ t) := by
  -- the second part gives the first for texts that do not begin with an escape
  have lift : ∀ {d : Nat} {text : Bytes}, 0 < d → text ≠ [] → NotHead (· == 92) text → ∀ (n : Nat) (tok r : Bytes),
      text.length < n →
      (∃ d' a s t, commentStep d (text ++ r) = (d', a, s) ∧ 0 ∉ a ∧
        commentLoop (n - 1) d' (tok ++ a) s = .ok (tok ++ a ++ t, r) ∧ 0 ∉ t) →
      ∃ t, commentLoop n d tok (text ++ r) = .ok (tok ++ t, r) ∧ 0 ∉ t := by
    intro d text hd hne hnh n tok r hn ⟨d', a, s, t, h1, h2, h3, h4⟩
    match n, hn with
    | n + 1, hn =>
      match text, hne with
      | c :: text, _ =>
        have hc : c ≠ 92 := by have := hnh c (by simp); simpa using this
        refine ⟨a ++ t, ?_, by simp [h2, h4]⟩
        rw [commentLoop.eq_def]
        dsimp only
        rw [if_neg (by omega)]
        simp only [List.cons_append] at h1 ⊢
        rw [if_neg hc, h1]
        dsimp only
        rw [Nat.add_sub_cancel] at h3
        rw [h3]; simp
  induction h with
  | close =>
    intro n tok r hn h0
    have step : ∃ d' a s t, commentStep 1 ([41] ++ r) = (d', a, s) ∧ 0 ∉ a ∧
        commentLoop (n - 1) d' (tok ++ a) s = .ok (tok ++ a ++ t, r) ∧ 0 ∉ t := by
      refine ⟨0, [], r, [], by simp [commentStep], by simp, ?_, by simp⟩
      match n, hn with
      | n + 2, _ => rw [show n + 2 - 1 = n + 1 from rfl, commentLoop.eq_def]; simp
    exact ⟨lift (by omega) (by simp) (by simp [NotHead]) n tok r hn step, fun _ => step⟩
  | inner d text h ih =>
    intro n tok r hn h0
    simp at hn h0
    have step : ∃ d' a s t, commentStep (d + 2) (41 :: text ++ r) = (d', a, s) ∧ 0 ∉ a ∧
        commentLoop (n - 1) d' (tok ++ a) s = .ok (tok ++ a ++ t, r) ∧ 0 ∉ t := by
      obtain ⟨t, ht, h0t⟩ := (ih (n - 1) (tok ++ [41]) r (by omega) h0).1
      exact ⟨d + 1, [41], text ++ r, t, by simp [commentStep], by simp, ht, h0t⟩
    exact ⟨lift (by omega) (by simp) (by simp [NotHead]) n tok r (by simpa using hn) step, fun _ => step⟩
  | nest d text h ih =>
    intro n tok r hn h0
    simp at hn h0
    have step : ∃ d' a s t, commentStep (d + 1) (40 :: text ++ r) = (d', a, s) ∧ 0 ∉ a ∧
        commentLoop (n - 1) d' (tok ++ a) s = .ok (tok ++ a ++ t, r) ∧ 0 ∉ t := by
      obtain ⟨t, ht, h0t⟩ := (ih (n - 1) (tok ++ [40]) r (by omega) h0).1
      exact ⟨d + 2, [40], text ++ r, t, by simp [commentStep], by simp, ht, h0t⟩
    exact ⟨lift (by omega) (by simp) (by simp [NotHead]) n tok r (by simpa using hn) step, fun _ => step⟩
  | plain d c text h1 h2 h3 h ih =>
    intro n tok r hn h0
    have hp := h.pos
    simp at hn h0
    have step : ∃ d' a s t, commentStep d (c :: text ++ r) = (d', a, s) ∧ 0 ∉ a ∧
        commentLoop (n - 1) d' (tok ++ a) s = .ok (tok ++ a ++ t, r) ∧ 0 ∉ t := by
      obtain ⟨t, ht, h0t⟩ := (ih (n - 1) (tok ++ [c]) r (by omega) h0.2).1
      exact ⟨d, [c], text ++ r, t, by simp [commentStep, h1, h2, hp], by simp [h0.1], ht, h0t⟩
    exact ⟨lift (by omega) (by simp) (by simp [NotHead, h3]) n tok r (by simpa using hn) step, fun _ => step⟩
  | escaped d c text hnh h ih =>
    intro n tok r hn h0
    have hp := h.pos
    simp at hn h0
    refine ⟨?_, fun hx => by simp [NotHead] at hx⟩
    match n, hn with
    | n + 1, hn =>
      obtain ⟨d', a, s, t, g1, g2, g3, g4⟩ := (ih (n + 1) (tok ++ [c]) r (by omega) h0.2).2 hnh
      rw [Nat.add_sub_cancel] at g3
      refine ⟨c :: a ++ t, ?_, by simp [h0.1, g2, g4]⟩
      rw [commentLoop.eq_def]
      dsimp only
      rw [if_neg (by omega)]
      simp only [List.cons_append, if_true]
      rw [g1]
      dsimp only
      rw [g3]
      simp

/-- Does a text end a word: white space, a special byte or the end. -/
def EndsWord (R : Bytes) : Prop := ∃ w X, R = w ++ X ∧ IsFWS w ∧ Stop X ∧
  (w ≠ [] ∨ X = [] ∨ ∃ c r, X = c :: r ∧ isSpecial c = true)

theorem stop_special {c : Byte} (r : Bytes) (h : isSpecial c = true) : Stop (c :: r) := by
  intro d hd
  simp at hd
  subst hd
  simp [isSpecial] at h
  rcases h with ((((rfl | rfl) | rfl) | rfl) | rfl) | rfl <;> decide

theorem stop_word {c : Byte} (r : Bytes) (h : IsWordByte c) : Stop (c :: r) := by
  intro d hd
  simp at hd
  subst hd
  have h1 : isWSP c = false := h.2.1
  simp [h1, h.2.2.1]

theorem nextTok_word (sc : Bool) (a R : Bytes) (ha : ∀ c ∈ a, IsWordByte c) (hR : EndsWord R) (n : Nat) (tok : Bytes)
    (hn : a.length + R.length < n) (hne : tok ++ a ≠ []) :
    ∃ X w, R = w ++ X ∧ IsFWS w ∧ Stop X ∧ nextTok sc n tok (a ++ R) = .ok (.atom, tok ++ a, X) := by
  induction a generalizing tok n with
  | nil =>
    obtain ⟨w, X, rfl, hw, hX, hend⟩ := hR
    refine ⟨X, w, rfl, hw, hX, ?_⟩
    have htok : tok ≠ [] := by simpa using hne
    match n, hn with
    | n + 1, _ =>
      rw [List.nil_append, List.append_nil, nextTok.eq_def]
      dsimp only
      have hte : tok.isEmpty = false := by cases tok <;> simp at *
      split
      · rename_i he
        simp at he
        simp [hte, he]
      · rw [readFWS_isFWS hw hX]
        dsimp only
        split
        · simp [hte]
        · rename_i hx
          have hw0 : w = [] := by
            cases w with
            | nil => rfl
            | cons => exact absurd ⟨rfl, by simp [hte]⟩ hx
          subst hw0
          cases X with
          | nil => simp [hte]
          | cons c r =>
            have hs : isSpecial c = true := by
              rcases hend with h | h | ⟨c', r', h, hs⟩
              · simp at h
              · simp at h
              · cases h; exact hs
            simp only [isSpecial, Bool.or_eq_true, beq_iff_eq] at hs
            dsimp only
            rcases hs with ((((rfl | rfl) | rfl) | rfl) | rfl) | rfl <;> simp [hte]
  | cons c a ih =>
    have hc := ha c (by simp)
    match n, hn with
    | n + 1, hn =>
      simp at hn
      obtain ⟨X, w, h1, h2, h3, h4⟩ := ih (fun d hd => ha d (by simp [hd])) n (tok ++ [c]) (by omega) (by simp)
      refine ⟨X, w, h1, h2, h3, ?_⟩
      have := nextTok_char sc n tok [] c (a ++ R) (Or.inl (by simp [AllWSP])) ⟨hc.2.1, hc.2.2.1⟩ (by simp)
      rw [List.nil_append] at this
      rw [List.cons_append, this]
      have hsp := hc.1
      simp only [isSpecial, Bool.or_eq_false_iff, beq_eq_false_iff_ne] at hsp
      obtain ⟨⟨⟨⟨⟨k1, k2⟩, k3⟩, k4⟩, k5⟩, k6⟩ := hsp
      rw [if_neg k1, if_neg k2, if_neg k3, if_neg k4, if_neg (fun h => h.elim k5 k6), h4]
      simp

/-! ## Token streams -/

/-- `s` is read as these tokens (the last one is the end). -/
inductive Lexes (sc : Bool) : Bytes → List (AddrTok × Bytes) → Prop
  | eof (s t r) : tokAt sc s = .ok (.eof, t, r) → t = [] → Lexes sc s [(.eof, [])]
  | cons (s ty t r ts) : tokAt sc s = .ok (ty, t, r) → ty ≠ .eof → 0 ∉ t → Lexes sc r ts → Lexes sc s ((ty, t) :: ts)

theorem Lexes.ws {sc : Bool} {w X : Bytes} {ts : List (AddrTok × Bytes)} (hw : IsFWS w) (hX : Stop X) :
    Lexes sc (w ++ X) ts ↔ Lexes sc X ts := by
  have := tokAt_ws sc w X hw hX
  constructor
  · intro h
    cases h with
    | eof s t r h1 h2 => exact .eof _ t r (by rw [← this]; exact h1) h2
    | cons s ty t r ts h1 h2 h3 h4 => exact .cons _ _ _ r _ (by rw [← this]; exact h1) h2 h3 h4
  · intro h
    cases h with
    | eof s t r h1 h2 => exact .eof _ t r (by rw [this]; exact h1) h2
    | cons s ty t r ts h1 h2 h3 h4 => exact .cons _ _ _ r _ (by rw [this]; exact h1) h2 h3 h4

/-- What the loop does with a token list. -/
def addrRun (rec : Bytes → Except Err (List Bytes)) : AddrSt → List (AddrTok × Bytes) → Except Err (List Bytes)
  | st, [] => .ok st.list
  | st, (ty, t) :: ts =>
    match addrSwitch rec { st with last := st.type, type := ty } t with
    | .error e => .error e
    | .ok st' => addrRun rec st' ts

theorem addrSwitch_type (rec : Bytes → Except Err (List Bytes)) (st st' : AddrSt) (t : Bytes)
    (h : addrSwitch rec st t = .ok st') : st'.type = st.type := by
  unfold addrSwitch at h
  cases hty : st.type <;> rw [hty] at h <;> dsimp only at h <;> first
    | (cases h; rfl)
    | (cases h; exact hty)
    | (split at h
       · cases h
       · cases htk : st.tokens with
         | nil => rw [htk] at h; cases h; rfl
         | cons a as =>
           rw [htk] at h
           dsimp only at h
           split at h
           · cases h; rfl
           · split at h
             · split at h
               · cases h
               · cases h; rfl
             · cases h; rfl)

theorem addrLoop_lexes (sc : Bool) (rec : Bytes → Except Err (List Bytes)) {s : Bytes} {ts : List (AddrTok × Bytes)}
    (h : Lexes sc s ts) : ∀ (n : Nat) (st : AddrSt), s.length + 2 ≤ n → st.type ≠ .eof →
      addrLoop sc rec n st s = addrRun rec st ts := by
  induction h with
  | eof s t r h1 h2 =>
    intro n st hn hty
    subst h2
    match n, hn with
    | n + 2, hn =>
      rw [addrLoop.eq_def]
      dsimp only
      unfold tokAt at h1
      rw [if_neg hty, h1]
      dsimp only
      rw [if_neg (by simp), addrRun]
      cases hsw : addrSwitch rec { st with last := st.type, type := .eof } [] with
      | error e => rfl
      | ok st' =>
        dsimp only
        have := addrSwitch_type _ _ _ _ hsw
        rw [addrLoop.eq_def]
        dsimp only
        rw [if_pos this, addrRun]
  | cons s ty t r ts h1 h2 h3 h4 ih =>
    intro n st hn hty
    match n, hn with
    | n + 1, hn =>
      rw [addrLoop.eq_def]
      dsimp only
      unfold tokAt at h1
      obtain ⟨_, hp, _⟩ := (nextTok_ends sc (s.length + 1) [] s (by omega)).2 ty t r h1
      have hlt := hp rfl h2
      rw [if_neg hty, h1]
      dsimp only
      rw [if_neg (by simpa using h3), addrRun]
      cases hsw : addrSwitch rec { st with last := st.type, type := ty } t with
      | error e => rfl
      | ok st' =>
        dsimp only
        have := addrSwitch_type _ _ _ _ hsw
        exact ih n st' (by omega) (by rw [this]; exact h2)

/-- The whole parser on a text read as `ts`. -/
theorem parseAddressList_lexes {sc : Bool} {s : Bytes} {ts : List (AddrTok × Bytes)} (h : Lexes sc s ts) :
    parseAddressList sc s = addrRun (parseAddrDepth sc s.length) {} ts := by
  unfold parseAddressList
  rw [parseAddrDepth]
  exact addrLoop_lexes sc _ h _ _ (Nat.le_refl _) (by simp)

end Dkim

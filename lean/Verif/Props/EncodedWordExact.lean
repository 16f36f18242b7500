import Verif.Spec.EwText
import Verif.Props.EncodedWord
import Verif.Props.Tokens
import Verif.Props.QpDecode
import Verif.Tests.Toy
/-!
# Property C65: decoding encoded words, for every text
-/

namespace Dkim
open Spec

/-! ### The scanner -/

/-- `x` is a beginning of `k` parts, each ended by a question mark, and an equals sign. -/
def Parts : Nat → Bytes → Prop
  | 0, x => x = [] ∨ x = [61]
  | k + 1, x => (63 : Byte) ∉ x ∨ ∃ p y, (63 : Byte) ∉ p ∧ x = p ++ 63 :: y ∧ Parts k y

/-- The first question mark is where it is. -/
theorem split_q {a a' b b' : Bytes} (ha : (63 : Byte) ∉ a) (ha' : (63 : Byte) ∉ a') (h : a ++ 63 :: b = a' ++ 63 :: b') : a = a' ∧ b = b' := by
  have h1 := untilQ_of ha b
  have h2 := untilQ_of ha' b'
  rw [h, h2] at h1
  simp only [Prod.mk.injEq, List.cons.injEq, true_and] at h1
  exact ⟨h1.1.symm, h1.2.symm⟩

theorem split_cases (x : Bytes) : (63 : Byte) ∉ x ∨ ∃ p y, (63 : Byte) ∉ p ∧ x = p ++ 63 :: y := by
  induction x with
  | nil => left; simp
  | cons c x ih =>
    by_cases hc : c = 63
    · right; exact ⟨[], x, by simp, by simp [hc]⟩
    · rcases ih with h | ⟨p, y, hp, rfl⟩
      · left; simp only [List.mem_cons, not_or]; exact ⟨fun e => hc e.symm, h⟩
      · right; exact ⟨c :: p, y, by simp only [List.mem_cons, not_or]; exact ⟨fun e => hc e.symm, hp⟩, by simp⟩

/-- Cut off a beginning of `a ++ 63 :: t`. -/
theorem prefix_split {a t x y : Bytes} (ha : (63 : Byte) ∉ a) (h : x ++ y = a ++ 63 :: t) :
    (63 : Byte) ∉ x ∨ ∃ z, x = a ++ 63 :: z ∧ z ++ y = t := by
  rcases split_cases x with hx | ⟨p, z, hp, rfl⟩
  · exact .inl hx
  · right
    rw [List.append_assoc, List.cons_append] at h
    obtain ⟨rfl, e⟩ := split_q hp ha h
    exact ⟨z, rfl, e⟩

theorem starts_iff (b : Bytes) : Starts b ↔ b = [] ∨ b = [61] ∨ ∃ x, b = 61 :: 63 :: x ∧ Parts 3 x := by
  constructor
  · rintro ⟨y, cs, enc, dat, ⟨ht, h1, h2, h3⟩⟩
    cases b with
    | nil => exact .inl rfl
    | cons c b =>
      cases b with
      | nil => simp only [List.cons_append, List.nil_append, List.cons.injEq] at ht; right; left; rw [ht.1]
      | cons d b =>
        simp only [List.cons_append, List.cons.injEq] at ht
        obtain ⟨rfl, rfl, ht⟩ := ht
        right; right
        refine ⟨b, rfl, ?_⟩
        rcases prefix_split h1 ht with g | ⟨z, rfl, e1⟩
        · exact .inl g
        · refine .inr ⟨cs, z, h1, rfl, ?_⟩
          rcases prefix_split h2 e1 with g | ⟨z, rfl, e2⟩
          · exact .inl g
          · refine .inr ⟨enc, z, h2, rfl, ?_⟩
            rcases prefix_split h3 e2 with g | ⟨z, rfl, e3⟩
            · exact .inl g
            · refine .inr ⟨dat, z, h3, rfl, ?_⟩
              cases z with
              | nil => exact .inl rfl
              | cons u z =>
                simp only [List.cons_append, List.cons.injEq, List.append_eq_nil_iff] at e3
                right; rw [e3.1, e3.2.1]
  · rintro (rfl | rfl | ⟨x, rfl, hx⟩)
    · exact ⟨_, [], [], [], ⟨rfl, by simp, by simp, by simp⟩⟩
    · exact ⟨_, [], [], [], ⟨rfl, by simp, by simp, by simp⟩⟩
    · rcases hx with h | ⟨p, y, hp, rfl, hx⟩
      · exact ⟨63 :: 63 :: 63 :: [61], x, [], [], ⟨by simp, h, by simp, by simp⟩⟩
      · rcases hx with h | ⟨p2, y, hp2, rfl, hx⟩
        · exact ⟨63 :: 63 :: [61], p, y, [], ⟨by simp, hp, h, by simp⟩⟩
        · rcases hx with h | ⟨p3, y, hp3, rfl, hx⟩
          · exact ⟨63 :: [61], p, p2, y, ⟨by simp, hp, hp2, h⟩⟩
          · rcases hx with rfl | rfl
            · exact ⟨[61], p, p2, p3, ⟨by simp, hp, hp2, hp3⟩⟩
            · exact ⟨[], p, p2, p3, ⟨by simp, hp, hp2, hp3⟩⟩

theorem parts_q {k : Nat} {p y : Bytes} (hp : (63 : Byte) ∉ p) : Parts (k + 1) (p ++ 63 :: y) ↔ Parts k y := by
  constructor
  · rintro (h | ⟨p', y', h1, h2, h3⟩)
    · exact absurd (by simp) h
    · obtain ⟨rfl, rfl⟩ := split_q hp h1 h2
      exact h3
  · intro h; exact .inr ⟨p, y, hp, rfl, h⟩

theorem starts_parts (x : Bytes) : Starts (61 :: 63 :: x) ↔ Parts 3 x := by
  rw [starts_iff]
  simp

theorem untilQ_cases (s : Bytes) : ((63 : Byte) ∉ s ∧ untilQ s = (s, [])) ∨ ∃ p y, (63 : Byte) ∉ p ∧ s = p ++ 63 :: y ∧ untilQ s = (p, 63 :: y) := by
  rcases split_cases s with h | ⟨p, y, hp, rfl⟩
  · left
    refine ⟨h, ?_⟩
    induction s with
    | nil => rfl
    | cons c s ih =>
      simp only [List.mem_cons, not_or] at h
      rw [untilQ, if_neg (fun e => h.1 e.symm), ih h.2]
  · right; exact ⟨p, y, hp, rfl, untilQ_of hp y⟩

/-- What the scanner finds. -/
theorem ewScan_spec (r : Bytes) : EQ :: r = (ewScan r).buffer ++ (ewScan r).rest ∧ (ewScan r).buffer ≠ [] ∧
    Longest (ewScan r).buffer (ewScan r).rest ∧
    ∀ enc dat, (ewScan r).word = some (enc, dat) ↔ ∃ cs, EncodedWord (ewScan r).buffer cs enc dat ∧ BlankNext (ewScan r).rest := by
  have noword : ∀ b x : Bytes, Longest b x → (∀ y, b = 61 :: 63 :: y → ∀ p1 p2 p3, (63 : Byte) ∉ p1 → (63 : Byte) ∉ p2 → (63 : Byte) ∉ p3 →
      y ≠ p1 ++ 63 :: (p2 ++ 63 :: (p3 ++ [63, 61]))) → ∀ enc dat, (none : Option (Bytes × Bytes)) = some (enc, dat) ↔ ∃ cs, EncodedWord b cs enc dat ∧ BlankNext x := by
    intro b x _ hn enc dat
    constructor
    · intro h; cases h
    · rintro ⟨cs, h, _⟩
      exact absurd rfl (hn _ h.text cs enc dat h.charset h.encoding h.data)
  unfold ewScan
  cases r with
  | nil =>
    have hl : Longest [EQ] [] := ⟨(starts_iff _).2 (.inr (.inl rfl)), by simp⟩
    exact ⟨rfl, by simp, hl, noword _ _ hl (by intro y h; cases h)⟩
  | cons c0 s0 =>
    dsimp only
    split
    · rename_i hc
      have hl : Longest [EQ] (c0 :: s0) := by
        refine ⟨(starts_iff _).2 (.inr (.inl rfl)), ?_⟩
        intro c r' e hs
        cases e
        rw [starts_iff] at hs
        rcases hs with h | h | ⟨x, h, _⟩
        · cases h
        · cases h
        · simp only [List.singleton_append, List.cons.injEq] at h
          exact hc h.2.1
      exact ⟨rfl, by simp, hl, noword _ _ hl (by intro y h; cases h)⟩
    · rename_i hc
      have hc : c0 = 63 := by simpa using hc
      subst hc
      have st : ∀ x, Starts ([EQ, 63] ++ x) ↔ Parts 3 x := fun x => starts_parts x
      rcases untilQ_cases s0 with ⟨h1, e1⟩ | ⟨cs, y1, h1, rfl, e1⟩
      · rw [e1]
        dsimp only
        have hl : Longest ([EQ, 63] ++ s0) [] := ⟨(st _).2 (.inl h1), by simp⟩
        refine ⟨by simp, by simp, hl, noword _ _ hl ?_⟩
        intro y hy p1 p2 p3 _ _ _ e
        simp only [List.cons_append, List.nil_append, List.cons.injEq] at hy
        rw [hy.2.2, e] at h1
        exact h1 (by simp)
      · rw [e1]
        dsimp only
        rcases untilQ_cases y1 with ⟨h2, e2⟩ | ⟨enc, y2, h2, rfl, e2⟩
        · rw [e2]
          dsimp only
          have eb : [EQ, 63] ++ cs ++ [63] ++ y1 = [EQ, 63] ++ (cs ++ 63 :: y1) := by simp
          have hl : Longest ([EQ, 63] ++ cs ++ [63] ++ y1) [] := by
            rw [eb]; exact ⟨(st _).2 ((parts_q h1).2 (.inl h2)), by simp⟩
          refine ⟨by simp, by simp, hl, noword _ _ hl ?_⟩
          intro y hy p1 p2 p3 g1 _ _ e
          rw [eb] at hy
          simp only [List.cons_append, List.nil_append, List.cons.injEq] at hy
          rw [e] at hy
          have := (split_q h1 g1 hy.2.2).2
          rw [this] at h2
          exact h2 (by simp)
        · rw [e2]
          dsimp only
          rcases untilQ_cases y2 with ⟨h3, e3⟩ | ⟨dat, y3, h3, rfl, e3⟩
          · rw [e3]
            dsimp only
            have eb : [EQ, 63] ++ cs ++ [63] ++ enc ++ [63] ++ y2 = [EQ, 63] ++ (cs ++ 63 :: (enc ++ 63 :: y2)) := by simp
            have hl : Longest ([EQ, 63] ++ cs ++ [63] ++ enc ++ [63] ++ y2) [] := by
              rw [eb]; exact ⟨(st _).2 ((parts_q h1).2 ((parts_q h2).2 (.inl h3))), by simp⟩
            refine ⟨by simp, by simp, hl, noword _ _ hl ?_⟩
            intro y hy p1 p2 p3 g1 g2 _ e
            rw [eb] at hy
            simp only [List.cons_append, List.nil_append, List.cons.injEq] at hy
            rw [e] at hy
            have := (split_q h2 g2 (split_q h1 g1 hy.2.2).2).2
            rw [this] at h3
            exact h3 (by simp)
          · rw [e3]
            dsimp only
            have eb : ∀ t, [EQ, 63] ++ cs ++ [63] ++ enc ++ [63] ++ dat ++ (63 :: t) = [EQ, 63] ++ (cs ++ 63 :: (enc ++ 63 :: (dat ++ 63 :: t))) := by simp
            have full : ∀ t, Starts ([EQ, 63] ++ (cs ++ 63 :: (enc ++ 63 :: (dat ++ 63 :: t)))) ↔ t = [] ∨ t = [61] := by
              intro t
              rw [st, parts_q h1, parts_q h2, parts_q h3]; rfl
            have nof : ∀ y, [EQ, 63] ++ cs ++ [63] ++ enc ++ [63] ++ dat ++ [63] = 61 :: 63 :: y → ∀ p1 p2 p3, (63 : Byte) ∉ p1 → (63 : Byte) ∉ p2 → (63 : Byte) ∉ p3 →
                y ≠ p1 ++ 63 :: (p2 ++ 63 :: (p3 ++ [63, 61])) := by
              intro y hy p1 p2 p3 g1 g2 g3 e
              rw [eb] at hy
              simp only [List.cons_append, List.nil_append, List.cons.injEq] at hy
              rw [e] at hy
              have := (split_q h3 g3 (split_q h2 g2 (split_q h1 g1 hy.2.2).2).2).2
              cases this
            cases y3 with
            | nil =>
              dsimp only
              have hl : Longest ([EQ, 63] ++ cs ++ [63] ++ enc ++ [63] ++ dat ++ [63]) [] := by
                rw [eb]; exact ⟨(full _).2 (.inl rfl), by simp⟩
              exact ⟨by simp, by simp, hl, noword _ _ hl nof⟩
            | cons c4 s4 =>
              dsimp only
              split
              · rename_i hc4
                have hl : Longest ([EQ, 63] ++ cs ++ [63] ++ enc ++ [63] ++ dat ++ [63]) (c4 :: s4) := by
                  rw [eb]
                  refine ⟨(full _).2 (.inl rfl), ?_⟩
                  intro c r' e hs
                  cases e
                  have : [EQ, 63] ++ (cs ++ 63 :: (enc ++ 63 :: (dat ++ 63 :: []))) ++ [c4] = [EQ, 63] ++ (cs ++ 63 :: (enc ++ 63 :: (dat ++ 63 :: [c4]))) := by simp
                  rw [this, full] at hs
                  rcases hs with h | h
                  · cases h
                  · cases h; exact hc4 rfl
                exact ⟨by simp, by simp, hl, noword _ _ hl nof⟩
              · rename_i hc4
                have hc4 : c4 = 61 := by simpa using hc4
                subst hc4
                have hl : Longest ([EQ, 63] ++ cs ++ [63] ++ enc ++ [63] ++ dat ++ [63, EQ]) s4 := by
                  rw [eb]
                  refine ⟨(full _).2 (.inr rfl), ?_⟩
                  intro c r' e hs
                  have : [EQ, 63] ++ (cs ++ 63 :: (enc ++ 63 :: (dat ++ 63 :: [EQ]))) ++ [c] = [EQ, 63] ++ (cs ++ 63 :: (enc ++ 63 :: (dat ++ 63 :: [EQ, c]))) := by simp
                  rw [this, full] at hs
                  rcases hs with h | h <;> cases h
                have isw : EncodedWord ([EQ, 63] ++ cs ++ [63] ++ enc ++ [63] ++ dat ++ [63, EQ]) cs enc dat := by
                  refine ⟨?_, h1, h2, h3⟩
                  rw [eb]; rfl
                have uniq : ∀ cs' enc' dat', EncodedWord ([EQ, 63] ++ cs ++ [63] ++ enc ++ [63] ++ dat ++ [63, EQ]) cs' enc' dat' → enc = enc' ∧ dat = dat' := by
                  rintro cs' enc' dat' ⟨t, g1, g2, g3⟩
                  rw [eb] at t
                  simp only [List.cons_append, List.nil_append, List.cons.injEq] at t
                  obtain ⟨_, t⟩ := split_q h1 g1 t.2.2
                  obtain ⟨e1, t⟩ := split_q h2 g2 t
                  exact ⟨e1, (split_q h3 g3 t).1⟩
                cases s4 with
                | nil =>
                  dsimp only
                  refine ⟨by simp, by simp, hl, ?_⟩
                  intro enc' dat'
                  constructor
                  · intro h; cases h; exact ⟨cs, isw, by simp [BlankNext]⟩
                  · rintro ⟨cs', h, _⟩
                    obtain ⟨rfl, rfl⟩ := uniq _ _ _ h; rfl
                | cons c5 s5 =>
                  dsimp only
                  split
                  · rename_i hb
                    refine ⟨by simp, by simp, hl, ?_⟩
                    intro enc' dat'
                    constructor
                    · intro h; cases h
                    · rintro ⟨cs', _, hbl⟩
                      have := hbl c5 (by simp)
                      obtain ⟨b1, b2, b3, b4⟩ := hb
                      rcases this with h | h | h | h
                      · exact absurd h b1
                      · exact absurd h b2
                      · exact absurd h b3
                      · exact absurd h b4
                  · rename_i hb
                    refine ⟨by simp, by simp, hl, ?_⟩
                    intro enc' dat'
                    constructor
                    · intro h
                      cases h
                      refine ⟨cs, isw, ?_⟩
                      intro c hc
                      simp only [List.head?_cons, Option.mem_def, Option.some.injEq] at hc
                      subst hc
                      by_cases x1 : c5 = 32
                      · exact .inl x1
                      · by_cases x2 : c5 = 13
                        · exact .inr (.inl x2)
                        · by_cases x3 : c5 = 10
                          · exact .inr (.inr (.inl x3))
                          · by_cases x4 : c5 = 9
                            · exact .inr (.inr (.inr x4))
                            · exact absurd ⟨x1, x2, x3, x4⟩ hb
                    · rintro ⟨cs', h, _⟩
                      obtain ⟨rfl, rfl⟩ := uniq _ _ _ h; rfl

theorem ewData_iff (E : Env) (enc dat x : Bytes) : ewData E enc dat = some x ↔
    ((enc = b!"q" ∨ enc = b!"Q") ∧ QpText true dat x ∨ (enc = b!"b" ∨ enc = b!"B") ∧ x = E.b64dec dat) := by
  unfold ewData
  split
  · rename_i hq
    have nb : ¬ (enc = b!"b" ∨ enc = b!"B") := by rintro (rfl | rfl) <;> revert hq <;> decide
    rw [← C64_decode_iff]
    cases hd : qpDecode dat true with
    | ok o =>
      dsimp only
      constructor
      · intro h; cases h; exact .inl ⟨hq, rfl⟩
      · rintro (⟨_, h⟩ | ⟨h, _⟩)
        · cases h; rfl
        · exact absurd h nb
    | error e =>
      dsimp only
      constructor
      · intro h; cases h
      · rintro (⟨_, h⟩ | ⟨h, _⟩)
        · cases h
        · exact absurd h nb
  · rename_i hq
    split
    · rename_i hb
      constructor
      · intro h; cases h; exact .inr ⟨hb, rfl⟩
      · rintro (⟨h, _⟩ | ⟨_, h⟩)
        · exact absurd h hq
        · rw [h]
    · rename_i hb
      constructor
      · intro h; cases h
      · rintro (⟨h, _⟩ | ⟨h, _⟩)
        · exact absurd h hq
        · exact absurd h hb

/-- Reading an encoded word, or something that looks like one. -/
theorem ewScan_stands (E : Env) (r x : Bytes) :
    (∃ enc dat, (ewScan r).word = some (enc, dat) ∧ ewData E enc dat = some x) ↔ Stands E (ewScan r).buffer (ewScan r).rest x := by
  obtain ⟨_, _, _, h⟩ := ewScan_spec r
  constructor
  · rintro ⟨enc, dat, h1, h2⟩
    obtain ⟨cs, g1, g2⟩ := (h enc dat).1 h1
    exact ⟨cs, enc, dat, g1, g2, (ewData_iff E _ _ _).1 h2⟩
  · rintro ⟨cs, enc, dat, g1, g2, g3⟩
    exact ⟨enc, dat, (h enc dat).2 ⟨cs, g1, g2⟩, (ewData_iff E _ _ _).2 g3⟩

/-- The longest beginning is unique. -/
theorem longest_unique {b r b' r' : Bytes} (h : Longest b r) (h' : Longest b' r') (e : b ++ r = b' ++ r') : b = b' ∧ r = r' := by
  have pre : ∀ a c : Bytes, Starts (a ++ c) → Starts a := by
    rintro a c ⟨x, cs, enc, dat, g⟩
    exact ⟨c ++ x, cs, enc, dat, by rw [← List.append_assoc]; exact g⟩
  have one : ∀ {b r b' r' : Bytes}, Longest b r → Longest b' r' → b ++ r = b' ++ r' → ∀ x, b' = b ++ x → x = [] := by
    intro b r b' r' h h' e x hx
    cases x with
    | nil => rfl
    | cons c x =>
      subst hx
      rw [List.append_assoc, List.append_cancel_left_eq] at e
      refine absurd (pre (b ++ [c]) x ?_) (h.2 c (x ++ r') (by rw [e]; rfl))
      rw [List.append_assoc]
      exact h'.1
  rcases List.append_eq_append_iff.1 e with ⟨x, h1, h2⟩ | ⟨x, h1, h2⟩
  · have := one h h' e x h1
    subst this
    exact ⟨by simpa using h1.symm, by simpa using h2⟩
  · have := one h' h e.symm x h1
    subst this
    exact ⟨by simpa using h1, by simpa using h2.symm⟩

/-! ### White space -/

theorem ewSpace_spec (n : Nat) (ws s ws' r : Bytes) (h : ewSpace n ws s = .ok (ws', r)) :
    ∃ w, s = w ++ r ∧ LinearWS w ∧ ws' = ws ++ w.filter Spec.isWSP ∧ Stop r := by
  induction n generalizing ws s with
  | zero => simp [ewSpace] at h
  | succ n ih =>
    cases s with
    | nil =>
      simp [ewSpace, readWSP, readCRLF] at h
      obtain ⟨rfl, rfl⟩ := h
      exact ⟨[], rfl, .nil, by simp, by simp [Stop, NotHead]⟩
    | cons c s =>
      by_cases hw : isWSP c = true
      · simp [ewSpace, readWSP, hw] at h
        obtain ⟨w, rfl, h1, h2, h3⟩ := ih _ _ h
        refine ⟨c :: w, rfl, .wsp _ _ (by simpa using hw) h1, ?_, h3⟩
        rw [h2]
        simp [List.filter_cons, hw]
      · by_cases hc : c = CR
        · subst hc
          cases s with
          | nil => simp [ewSpace, readWSP, readCRLF, hw] at h
          | cons d s =>
            by_cases hd : d = LF
            · subst hd
              simp [ewSpace, readWSP, readCRLF, hw] at h
              obtain ⟨w, rfl, h1, h2, h3⟩ := ih _ _ h
              refine ⟨CR :: LF :: w, rfl, .crlf _ h1, ?_, h3⟩
              rw [h2]
              have e1 : Spec.isWSP CR = false := by decide
              have e2 : Spec.isWSP LF = false := by decide
              simp only [List.filter_cons, e1, e2]
              rfl
            · simp [ewSpace, readWSP, readCRLF, hw, hd] at h
        · simp [ewSpace, readWSP, readCRLF, hw, hc] at h
          obtain ⟨rfl, rfl⟩ := h
          refine ⟨[], rfl, .nil, by simp, ?_⟩
          intro x hx
          simp only [List.head?_cons, Option.mem_def, Option.some.injEq] at hx
          subst hx
          simp [hw, hc]

theorem linear_unique {w w' r r' : Bytes} (h : LinearWS w) (h' : LinearWS w') (hr : Stop r) (hr' : Stop r') (e : w ++ r = w' ++ r') : w = w' ∧ r = r' := by
  induction h generalizing w' with
  | nil =>
    cases h' with
    | nil => exact ⟨rfl, e⟩
    | wsp c t hc _ =>
      simp only [List.nil_append, List.cons_append] at e
      have := hr c (by rw [e]; rfl)
      simp_all
    | crlf t _ =>
      simp only [List.nil_append, List.cons_append] at e
      have := hr CR (by rw [e]; rfl)
      simp at this
  | wsp c t hc _ ih =>
    cases h' with
    | nil =>
      simp only [List.nil_append, List.cons_append] at e
      have := hr' c (by rw [← e]; rfl)
      simp_all
    | wsp c' t' hc' ht' =>
      simp only [List.cons_append, List.cons.injEq] at e
      obtain ⟨rfl, e⟩ := e
      obtain ⟨rfl, g⟩ := ih ht' e
      exact ⟨rfl, g⟩
    | crlf t' _ =>
      simp only [List.cons_append, List.cons.injEq] at e
      rw [e.1] at hc
      exact absurd hc (by decide)
  | crlf t _ ih =>
    cases h' with
    | nil =>
      simp only [List.nil_append, List.cons_append] at e
      have := hr' CR (by rw [← e]; rfl)
      simp at this
    | wsp c' t' hc' ht' =>
      simp only [List.cons_append, List.cons.injEq] at e
      rw [← e.1] at hc'
      exact absurd hc' (by decide)
    | crlf t' ht' =>
      simp only [List.cons_append, List.cons.injEq, true_and] at e
      obtain ⟨rfl, g⟩ := ih ht' e
      exact ⟨rfl, g⟩

theorem longest_head {b r : Bytes} (hb : b ≠ []) (h : Longest b r) : ∃ t, b ++ r = EQ :: t := by
  rcases (starts_iff b).1 h.1 with rfl | rfl | ⟨x, rfl, _⟩
  · exact absurd rfl hb
  · exact ⟨_, rfl⟩
  · exact ⟨_, rfl⟩

theorem stop_eq (t : Bytes) : Stop (EQ :: t) := by
  intro c hc
  simp only [List.head?_cons, Option.mem_def, Option.some.injEq] at hc
  subst hc
  decide

/-- White space before anything that is not white space is read. -/
theorem ewSpace_exact {w t : Bytes} (hw : LinearWS w) (ht : Stop t) : ewSpace ((w ++ t).length + 1) [] (w ++ t) = .ok (w.filter Spec.isWSP, t) := by
  obtain ⟨ws', h⟩ := ewSpace_run hw ht ((w ++ t).length + 1) (by simp; omega) []
  obtain ⟨w', e, h1, h2, h3⟩ := ewSpace_spec _ _ _ _ _ h
  obtain ⟨rfl, _⟩ := linear_unique hw h1 ht h3 e
  rw [h, h2, List.nil_append]

theorem ewLoop_iff (E : Env) (n : Nat) (s o : Bytes) (hn : s.length < n) : ewLoop E n [] s = .ok o ↔ EwText E s o := by
  induction n generalizing s o with
  | zero => omega
  | succ n ih =>
    constructor
    · intro h
      rw [ewLoop] at h
      cases hs : ewSpace (s.length + 1) [] s with
      | error e => rw [hs] at h; cases h
      | ok p =>
        obtain ⟨ws, r⟩ := p
        rw [hs] at h
        obtain ⟨w, rfl, h1, h2, h3⟩ := ewSpace_spec _ _ _ _ _ hs
        rw [List.nil_append] at h2
        cases r with
        | nil =>
          dsimp only at h
          cases h
          rw [List.append_nil]
          exact .done w h1
        | cons c r =>
          dsimp only at h
          split at h
          · rename_i hc
            subst hc
            obtain ⟨e1, e2, e3, _⟩ := ewScan_spec r
            have e4 := ewScan_stands E r
            have hlen := ewScan_length r
            rw [e1]
            cases hl : ewLoop E n [] (ewScan r).rest with
            | error e => rw [hl] at h; cases h
            | ok o' =>
              rw [hl] at h
              have ho := (ih _ o' (by simp at hn; omega)).1 hl
              by_cases hst : ∃ x, Stands E (ewScan r).buffer (ewScan r).rest x
              · obtain ⟨x, hx⟩ := hst
                obtain ⟨enc, dat, g1, g2⟩ := (e4 x).2 hx
                rw [g1] at h
                simp only [g2, Except.ok.injEq] at h
                subst h
                exact .word _ _ _ _ _ h1 e2 e3 hx ho
              · have : (match (ewScan r).word with
                    | none => ws ++ (ewScan r).buffer
                    | some (enc, dat) => match ewData E enc dat with
                      | some o => o
                      | none => ws ++ (ewScan r).buffer) = ws ++ (ewScan r).buffer := by
                  cases hw : (ewScan r).word with
                  | none => rfl
                  | some p =>
                    obtain ⟨enc, dat⟩ := p
                    dsimp only
                    cases hd : ewData E enc dat with
                    | none => rfl
                    | some x => exact absurd ⟨x, (e4 x).1 ⟨enc, dat, hw, hd⟩⟩ hst
                have h : Except.ok ((match (ewScan r).word with
                    | none => ws ++ (ewScan r).buffer
                    | some (enc, dat) => match ewData E enc dat with
                      | some o => o
                      | none => ws ++ (ewScan r).buffer) ++ o') = (Except.ok o : Except Err Bytes) := h
                rw [this] at h
                cases h
                rw [h2, List.append_assoc]
                exact .other _ _ _ _ h1 e2 e3 (fun x hx => hst ⟨x, hx⟩) ho
          · rename_i hc
            cases hl : ewLoop E n [] r with
            | error e => rw [hl] at h; cases h
            | ok o' =>
              rw [hl] at h
              cases h
              have ho := (ih _ o' (by simp at hn; omega)).1 hl
              have hst := h3 c (by simp)
              simp only [Bool.or_eq_false_iff, beq_eq_false_iff_ne] at hst
              rw [h2, List.append_assoc]
              exact .char _ _ _ _ h1 hc hst.1 hst.2 ho
    · intro h
      have bufcase : ∀ (w b r o' out : Bytes), LinearWS w → b ≠ [] → Longest b r → EwText E r o' →
          ((∃ x, Stands E b r x ∧ out = x) ∨ ((∀ x, ¬ Stands E b r x) ∧ out = w.filter Spec.isWSP ++ b)) → (w ++ (b ++ r)).length < n + 1 →
          ewLoop E (n + 1) [] (w ++ (b ++ r)) = .ok (out ++ o') := by
        rintro w b r o' out hw hb hl ho hout hn
        obtain ⟨t, et⟩ := longest_head hb hl
        have hlen : r.length < n := by
          have : 0 < b.length := List.length_pos_iff.2 hb
          simp at hn; omega
        rw [ewLoop, et, ewSpace_exact hw (stop_eq t)]
        dsimp only
        rw [if_pos rfl]
        obtain ⟨e1, e2, e3, _⟩ := ewScan_spec t
        have e4 := ewScan_stands E t
        rw [← et] at e1
        obtain ⟨eb, er⟩ := longest_unique hl e3 e1
        rw [← eb, ← er] at e4
        rw [← er, (ih r o' hlen).2 ho]
        dsimp only
        congr 2
        rcases hout with ⟨x, hx, rfl⟩ | ⟨hx, rfl⟩
        · obtain ⟨enc, dat, g1, g2⟩ := (e4 out).2 hx
          rw [g1]
          simp only [g2]
        · cases hwd : (ewScan t).word with
          | none => simp only [← eb]
          | some p =>
            obtain ⟨enc, dat⟩ := p
            dsimp only
            cases hd : ewData E enc dat with
            | none => simp only [← eb]
            | some x => exact absurd ((e4 x).1 ⟨enc, dat, hwd, hd⟩) (hx x)
      cases h with
      | done w hw =>
        have := ewSpace_exact hw (t := []) (by simp [Stop, NotHead])
        rw [List.append_nil] at this
        rw [ewLoop, this]
      | char w c r o' hw h1 h2 h3 ho =>
        have hst : Stop (c :: r) := by
          intro x hx
          simp only [List.head?_cons, Option.mem_def, Option.some.injEq] at hx
          subst hx
          show (Spec.isWSP c || c == CR) = false
          rw [h2]
          simpa using h3
        rw [ewLoop, ewSpace_exact hw hst]
        dsimp only
        rw [if_neg h1, (ih r o' (by simp at hn; omega)).2 ho]
        simp
      | word w b r o' x hw hb hl hx ho => exact bufcase w b r o' x hw hb hl ho (.inl ⟨x, hx, rfl⟩) hn
      | other w b r o' hw hb hl hx ho =>
        have := bufcase w b r o' (w.filter Spec.isWSP ++ b) hw hb hl ho (.inr ⟨hx, rfl⟩) hn
        rw [List.append_assoc] at this
        exact this

theorem skipFWS_iff (n : Nat) (s r : Bytes) (hn : s.length < n) : (∃ b, skipFWS n s = .ok (b, r)) ↔ AfterFWS s r := by
  induction n generalizing s with
  | zero => omega
  | succ n ih =>
    rw [skipFWS]
    constructor
    · rintro ⟨b, h⟩
      cases hf : readFWS s with
      | error e => rw [hf] at h; cases h
      | ok p =>
        obtain ⟨w, r1⟩ := p
        rw [hf] at h
        have hr := (C08_fws_exact s w r1).1 hf
        dsimp only at h
        split at h
        · rename_i hw
          have : w = [] := by simpa using hw
          subst this
          cases h
          have := (C08_fws_lossless _ _ _ hf).1
          rw [List.nil_append] at this
          subst this
          exact .stop _ hr
        · rename_i hw
          have hl := readFWS_length hf
          have hw' : w ≠ [] := by simpa using hw
          have : 0 < w.length := List.length_pos_iff.2 hw'
          refine .step _ w r1 _ hr hw' ((ih r1 (by omega)).1 ?_)
          split at h
          · cases h
          · rename_i b' r2 he
            cases h
            exact ⟨_, he⟩
    · intro h
      cases h with
      | stop _ hr =>
        rw [(C08_fws_exact _ [] _).2 hr]
        exact ⟨false, rfl⟩
      | step _ w r1 _ hr hw ha =>
        have hf := (C08_fws_exact s w r1).2 hr
        rw [hf]
        have hl := readFWS_length hf
        have : 0 < w.length := List.length_pos_iff.2 hw
        obtain ⟨b, hb⟩ := (ih r1 (by omega)).2 ha
        dsimp only
        rw [if_neg (by simpa using hw), hb]
        exact ⟨_, rfl⟩

/-- C65: what decoding returns, for every text: leading folding white space is skipped and the rest is decoded as specified. -/
theorem C65_decode_iff (E : Env) (s o : Bytes) : ewDecode E s = .ok o ↔ ∃ r, AfterFWS s r ∧ EwText E r o := by
  unfold ewDecode
  constructor
  · intro h
    cases hs : skipFWS (s.length + 1) s with
    | error e => rw [hs] at h; cases h
    | ok p =>
      obtain ⟨b, r⟩ := p
      rw [hs] at h
      exact ⟨r, (skipFWS_iff _ s r (by omega)).1 ⟨b, hs⟩, (ewLoop_iff E _ r o (by omega)).1 h⟩
  · rintro ⟨r, h1, h2⟩
    obtain ⟨b, hb⟩ := (skipFWS_iff (s.length + 1) s r (by omega)).2 h1
    rw [hb]
    exact (ewLoop_iff E _ r o (by omega)).2 h2

/-- C65: every other text is a permanent error. -/
theorem C65_otherwise_error (E : Env) (s : Bytes) (h : ∀ o r, AfterFWS s r → ¬ EwText E r o) : ∃ r, ewDecode E s = .error (.p r) := by
  cases hd : ewDecode E s with
  | ok o =>
    obtain ⟨r, h1, h2⟩ := (C65_decode_iff E s o).1 hd
    exact absurd h2 (h o r h1)
  | error e =>
    obtain ⟨r, hr⟩ := ewDecode_perm E s e hd
    exact ⟨r, by rw [hr]⟩

/-- A text with an encoded word, something that only looks like one, and a text that is refused. -/
theorem ewText_example : EwText toyEnv b!"a =?x?Q?b_c?= =?y?" b!"ab c =?y?" ∧
    ∀ o r, AfterFWS b!"A\rA" r → ¬ EwText toyEnv r o := by
  have fws : AfterFWS b!"a =?x?Q?b_c?= =?y?" b!"a =?x?Q?b_c?= =?y?" :=
    .stop _ ((C08_fws_exact _ _ _).1 (by decide +kernel))
  constructor
  · obtain ⟨r, h1, h2⟩ := (C65_decode_iff toyEnv b!"a =?x?Q?b_c?= =?y?" b!"ab c =?y?").1 (by decide +kernel)
    obtain ⟨b, hb⟩ := (skipFWS_iff 100 _ _ (by decide)).2 h1
    have : skipFWS 100 b!"a =?x?Q?b_c?= =?y?" = .ok (false, b!"a =?x?Q?b_c?= =?y?") := by decide +kernel
    rw [this] at hb
    cases hb
    exact h2
  · intro o r h1 h2
    have := (C65_decode_iff toyEnv _ o).2 ⟨r, h1, h2⟩
    have e : (ewDecode toyEnv b!"A\rA").toOption = none := by decide +kernel
    rw [this] at e; cases e

end Dkim

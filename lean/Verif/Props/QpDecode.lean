import Verif.Spec.QpText
import Verif.Props.QuotedPrintable
import Verif.Proofs.Errors
/-!
# Property C64: exactly what the quoted-printable decoder accepts
-/

namespace Dkim
open Spec

theorem hex_lookup : ∀ c : Byte, isHexDigit c = true → hexAlphabet.getD (hexVal c).toNat 0 = c ∧ (hexVal c).toNat < 16 :=
  byte_forall (by decide +kernel)

theorem hexPair_of {a b : Byte} (ha : isHexDigit a = true) (hb : isHexDigit b = true) : hexPair (hexVal a * 16 + hexVal b) = [EQ, a, b] := by
  obtain ⟨a1, a2⟩ := hex_lookup a ha
  obtain ⟨b1, b2⟩ := hex_lookup b hb
  have e1 : (hexVal a * 16 + hexVal b).toNat / 16 = (hexVal a).toNat := by simp; omega
  have e2 : (hexVal a * 16 + hexVal b).toNat % 16 = (hexVal b).toNat := by simp; omega
  unfold hexPair
  rw [e1, e2, a1, b1]

theorem hexPair_digits : ∀ c : Byte, ∃ a b, hexPair c = [EQ, a, b] ∧ isHexDigit a = true ∧ isHexDigit b = true ∧ hexVal a * 16 + hexVal b = c := by
  intro c
  have h1 := hexDigit_lt (div16_lt c)
  have h2 := hexDigit_lt (mod16_lt c)
  refine ⟨_, _, ?_, h1.1, h2.1, by rw [h1.2.1, h2.2.1, div_mod_16]⟩
  have := hexPair_of h1.1 h2.1
  rw [h1.2.1, h2.2.1, div_mod_16] at this
  exact this

theorem literal_iff : ∀ c : Byte, isQpLiteral c = true ↔ QpSafe c := byte_forall (by unfold QpSafe; decide +kernel)

theorem qpText_allWSP {q : Bool} {a r o : Bytes} (ha : AllWSP a) (h : QpText q r o) : QpText q (a ++ r) o := by
  induction a with
  | nil => exact h
  | cons c a ih => exact .wsp _ _ _ (ha c (by simp)) (ih (fun x hx => ha x (by simp [hx])))

theorem qpText_fws {q : Bool} {w r o : Bytes} (hw : IsFWS w) (h : QpText q r o) : QpText q (w ++ r) o := by
  rcases hw with hw | ⟨a, b, ha, hb, hne, rfl⟩
  · exact qpText_allWSP hw h
  · rw [List.append_assoc, List.append_assoc]
    refine qpText_allWSP ha ?_
    cases b with
    | nil => exact absurd rfl hne
    | cons c b =>
      exact .fold c (b ++ r) o (hb c (by simp)) (qpText_allWSP hb h)

/-- Bytes that are white space are nothing else. -/
theorem wsp_other : ∀ c : Byte, Spec.isWSP c = true → ¬ QpSafe c ∧ c ≠ 95 ∧ c ≠ 61 ∧ c ≠ 13 := byte_forall (by unfold QpSafe; decide +kernel)

theorem qpText_unwsp {q : Bool} {c : Byte} {r o : Bytes} (hc : Spec.isWSP c = true) (h : QpText q (c :: r) o) : QpText q r o := by
  obtain ⟨h1, h2, h3, h4⟩ := wsp_other c hc
  generalize e : c :: r = s at h
  cases h with
  | nil => cases e
  | underscore r o _ _ => cases e; exact absurd rfl h2
  | safe c' r o g _ _ => cases e; exact absurd g h1
  | hex c' r o _ => simp only [hexPair, List.cons_append] at e; cases e; exact absurd rfl h3
  | wsp w r o _ g => cases e; exact g
  | fold w r o _ _ => cases e; exact absurd rfl h4

theorem qpText_unAll {q : Bool} {a r o : Bytes} (ha : AllWSP a) (h : QpText q (a ++ r) o) : QpText q r o := by
  induction a with
  | nil => exact h
  | cons c a ih => exact ih (fun x hx => ha x (by simp [hx])) (qpText_unwsp (ha c (by simp)) h)

theorem qpText_cr {q : Bool} {r o : Bytes} (h : QpText q (CR :: r) o) : ∃ w r', r = LF :: w :: r' ∧ Spec.isWSP w = true ∧ QpText q (w :: r') o := by
  generalize e : CR :: r = s at h
  cases h with
  | nil => cases e
  | underscore r o _ _ => cases e
  | safe c' r o g _ _ => cases e; exact absurd g (by unfold QpSafe; decide)
  | hex c' r o _ => simp only [hexPair, List.cons_append] at e; cases e
  | wsp w r o hw g => cases e; exact absurd hw (by decide)
  | fold w r o hw g => cases e; exact ⟨w, _, rfl, hw, g⟩

/-- White space at the start of an acceptable text is read. -/
theorem qpText_read {q : Bool} {c : Byte} {r o : Bytes} (hc : Spec.isWSP c = true ∨ c = CR) (h : QpText q (c :: r) o) :
    ∃ w r', readFWS (c :: r) = .ok (w, r') ∧ w ≠ [] ∧ QpText q r' o := by
  rcases readFWS_cases (c :: r) with ⟨a, t, e, ha, ht⟩ | ⟨a, b, t, e, ha, hb, hne, ht⟩ | ⟨a, t, e, ha, ht⟩ | ⟨a, t, e, ha, ht⟩
  · rw [e] at h ⊢
    refine ⟨a, t, readFWS_plain ha ht, ?_, qpText_unAll ha h⟩
    rintro rfl
    rw [List.nil_append] at e
    have := ht c (by rw [← e]; rfl)
    rcases hc with hc | hc <;> simp_all
  · rw [e] at h ⊢
    refine ⟨_, t, readFWS_fold ha hb hne ht, by simp [CRLF], ?_⟩
    rw [List.append_assoc, List.append_assoc] at h
    obtain ⟨w, r', e', _, g⟩ := qpText_cr (qpText_unAll ha h)
    have : w :: r' = b ++ t := by simpa [LF] using e'.symm
    rw [this] at g
    exact qpText_unAll hb g
  · rw [e, List.append_assoc] at h
    obtain ⟨w, r', e', hw, g⟩ := qpText_cr (qpText_unAll ha h)
    have : w :: r' = t := by simpa [LF] using e'.symm
    have := ht w (by rw [← this]; rfl)
    simp_all
  · rw [e] at h
    obtain ⟨w, r', e', hw, g⟩ := qpText_cr (qpText_unAll ha h)
    have := ht LF (by rw [e']; rfl)
    simp at this

theorem qpLoop_iff (q : Bool) (n : Nat) (s o : Bytes) (hn : s.length < n) : qpLoop q n s = .ok o ↔ QpText q s o := by
  induction n generalizing s o with
  | zero => omega
  | succ n ih =>
    rw [qpLoop.eq_def]
    dsimp only
    cases s with
    | nil =>
      constructor
      · intro h; cases h; exact .nil
      · intro h
        generalize e : ([] : Bytes) = s at h
        cases h with
        | nil => rfl
        | hex c r o _ => simp [hexPair] at e
        | _ => cases e
    | cons c r =>
      have hr : r.length < n := by simp at hn; omega
      have sub : ∀ (s' : Bytes) (x : Byte), s'.length < n → ((match qpLoop q n s' with | .error e => Except.error e | .ok o => .ok (x :: o)) = .ok o ↔
          ∃ o', o = x :: o' ∧ QpText q s' o') := by
        intro s' x hs
        cases hq : qpLoop q n s' with
        | error e =>
          constructor
          · intro h; cases h
          · rintro ⟨o', rfl, h⟩
            rw [(ih s' o' hs).2 h] at hq; cases hq
        | ok o1 =>
          constructor
          · intro h; cases h; exact ⟨o1, rfl, (ih s' o1 hs).1 hq⟩
          · rintro ⟨o', rfl, h⟩
            rw [(ih s' o' hs).2 h] at hq
            cases hq; rfl
      dsimp only
      split
      · rename_i hu
        obtain ⟨hq, rfl⟩ := hu
        refine (sub r SP hr).trans ?_
        constructor
        · rintro ⟨o', rfl, h⟩; exact .underscore _ _ hq h
        · intro h
          generalize e : (95 : Byte) :: r = s at h
          cases h with
          | nil => cases e
          | underscore r o _ g => cases e; exact ⟨_, rfl, g⟩
          | safe c r o _ g _ => cases e; exact absurd rfl (g hq)
          | hex c r o _ => simp only [hexPair, List.cons_append] at e; cases e
          | wsp w r o hw _ => cases e; exact absurd hw (by decide)
          | fold w r o _ _ => cases e
      · rename_i hu
        split
        · rename_i hc
          subst hc
          have inv : QpText q (EQ :: r) o → ∃ c r' o', EQ :: r = hexPair c ++ r' ∧ o = c :: o' ∧ QpText q r' o' := by
            intro h
            generalize e : EQ :: r = s at h
            cases h with
            | nil => cases e
            | underscore r o _ g => cases e
            | safe c r o g _ _ => cases e; exact absurd g (by unfold QpSafe; decide)
            | hex c r o g => exact ⟨c, r, o, rfl, rfl, g⟩
            | wsp w r o hw _ => cases e; exact absurd hw (by decide)
            | fold w r o _ _ => cases e
          have fail : (∀ a b t, r = a :: b :: t → isHexDigit a = true → isHexDigit b = true → False) →
              ((Except.error (Err.p .qpHex) : Except Err Bytes) = .ok o ↔ QpText q (EQ :: r) o) := by
            intro hf
            constructor
            · intro h; cases h
            · intro h
              obtain ⟨c, r', o', e, _, _⟩ := inv h
              obtain ⟨a, b, e2, ha, hb, _⟩ := hexPair_digits c
              rw [e2] at e
              simp only [List.cons_append, List.cons.injEq, true_and, List.nil_append] at e
              exact (hf a b r' e ha hb).elim
          cases r with
          | nil => exact fail (by intro a b t h; cases h)
          | cons a r1 =>
            dsimp only
            split
            · rename_i ha
              cases r1 with
              | nil => exact fail (by intro a b t h; cases h)
              | cons b r2 =>
                dsimp only
                split
                · rename_i hb
                  refine (sub r2 (hexVal a * 16 + hexVal b) (by simp at hr; omega)).trans ?_
                  constructor
                  · rintro ⟨o', rfl, h⟩
                    have := QpText.hex (q := q) (hexVal a * 16 + hexVal b) r2 o' h
                    rw [hexPair_of ha hb] at this
                    exact this
                  · intro h
                    obtain ⟨c, r', o', e, rfl, g⟩ := inv h
                    obtain ⟨a', b', e2, ha', hb', e3⟩ := hexPair_digits c
                    rw [e2] at e
                    simp only [List.cons_append, List.cons.injEq, true_and, List.nil_append] at e
                    obtain ⟨rfl, rfl, rfl⟩ := e
                    exact ⟨o', by rw [e3], g⟩
                · rename_i hb
                  refine fail ?_
                  rintro x y t e hx hy
                  cases e
                  exact hb hy
            · rename_i ha
              refine fail ?_
              rintro x y t e hx hy
              cases e
              exact ha hx
        · rename_i hne
          split
          · rename_i hl
            refine (sub r c hr).trans ?_
            have hs := (literal_iff c).1 hl
            constructor
            · rintro ⟨o', rfl, h⟩
              exact .safe _ _ _ hs (fun hq e => hu ⟨hq, e⟩) h
            · intro h
              generalize e : c :: r = s at h
              cases h with
              | nil => cases e
              | underscore r o hq g => cases e; exact absurd ⟨hq, rfl⟩ hu
              | safe c r o _ g h => cases e; exact ⟨_, rfl, h⟩
              | hex c r o _ => simp only [hexPair, List.cons_append] at e; cases e; exact absurd rfl hne
              | wsp w r o hw _ => cases e; exact absurd hs (wsp_other c hw).1
              | fold w r o _ _ => cases e; exact absurd hs (by unfold QpSafe; decide)
          · rename_i hl
            have inv : QpText q (c :: r) o → Spec.isWSP c = true ∨ c = CR := by
              intro h
              generalize e : c :: r = s at h
              cases h with
              | nil => cases e
              | underscore r o hq g => cases e; exact absurd ⟨hq, rfl⟩ hu
              | safe c r o g _ h => cases e; exact absurd ((literal_iff c).2 g) hl
              | hex c r o _ => simp only [hexPair, List.cons_append] at e; cases e; exact absurd rfl hne
              | wsp w r o hw _ => cases e; exact .inl hw
              | fold w r o _ _ => cases e; exact .inr rfl
            cases hf : readFWS (c :: r) with
            | error e =>
              constructor
              · intro h; cases h
              · intro h
                obtain ⟨w, r', e1, _, _⟩ := qpText_read (inv h) h
                rw [hf] at e1; cases e1
            | ok p =>
              obtain ⟨ws, r'⟩ := p
              dsimp only
              obtain ⟨e1, e2⟩ := readFWS_ok hf
              split
              · rename_i hws
                have : ws = [] := by simpa using hws
                subst this
                constructor
                · intro h; cases h
                · intro h
                  obtain ⟨w, r', e1, hne, _⟩ := qpText_read (inv h) h
                  rw [hf] at e1; cases e1; exact absurd rfl hne
              · rename_i hws
                have hlen : r'.length < n := by
                  have := readFWS_length hf
                  have : 0 < ws.length := by
                    cases ws with
                    | nil => simp at hws
                    | cons => simp
                  simp at *; omega
                rw [ih r' o hlen]
                constructor
                · intro h; rw [e1]; exact qpText_fws e2 h
                · intro h
                  obtain ⟨w, r'', e1, _, g⟩ := qpText_read (inv h) h
                  rw [hf] at e1; cases e1; exact g

/-- C64: the decoder accepts exactly the specified texts and returns the bytes they stand for. -/
theorem C64_decode_iff (q : Bool) (s o : Bytes) : qpDecode s q = .ok o ↔ QpText q s o := qpLoop_iff q _ s o (by omega)

/-- C64: every other text is a permanent error. -/
theorem C64_otherwise_error (q : Bool) (s : Bytes) (h : ∀ o, ¬ QpText q s o) : ∃ r, qpDecode s q = .error (.p r) := by
  cases hd : qpDecode s q with
  | ok o => exact absurd ((C64_decode_iff q s o).1 hd) (h o)
  | error e =>
    obtain ⟨r, hr⟩ := qpDecode_perm s q e hd
    exact ⟨r, by rw [hr]⟩

/-- C64: a text stands for at most one byte string. -/
theorem C64_unique (q : Bool) (s o o' : Bytes) (h : QpText q s o) (h' : QpText q s o') : o = o' := by
  have a := (C64_decode_iff q s o).2 h
  have b := (C64_decode_iff q s o').2 h'
  rw [a] at b; cases b; rfl

/-- A folded text with escapes. -/
theorem qpText_example : QpText true b!"a_=3D\r\n\tb" b!"a =b" ∧ ∀ o, ¬ QpText false b!"a=3d" o := by
  constructor
  · exact (C64_decode_iff _ _ _).1 (by decide +kernel)
  · intro o h
    have := (C64_decode_iff _ _ _).2 h
    have e : qpDecode b!"a=3d" false = .error (.p .qpHex) := by decide +kernel
    rw [e] at this; cases this

end Dkim

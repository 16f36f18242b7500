import Verif.Proofs.Encodings
import Verif.Model.QuotedPrintable
/-!
# Properties C16, C17: quoted-printable
-/

namespace Dkim

/-- One upper-case hexadecimal digit. -/
def IsUpperHex (c : Byte) : Prop := (48 ≤ c ∧ c ≤ 57) ∨ (65 ≤ c ∧ c ≤ 70)

theorem hexDigit_fin : ∀ i : Fin 16, isHexDigit (hexDigit (UInt8.ofNat i)) = true ∧
    hexVal (hexDigit (UInt8.ofNat i)) = UInt8.ofNat i ∧ IsUpperHex (hexDigit (UInt8.ofNat i)) := by
  unfold IsUpperHex; decide

theorem hexDigit_lt {n : Byte} (h : n.toNat < 16) : isHexDigit (hexDigit n) = true ∧ hexVal (hexDigit n) = n ∧
    IsUpperHex (hexDigit n) := by
  have := hexDigit_fin ⟨n.toNat, h⟩
  simpa using this

theorem div16_lt (c : Byte) : (c / 16).toNat < 16 := by
  have := c.toNat_lt
  simp; omega

theorem mod16_lt (c : Byte) : (c % 16).toNat < 16 := by
  simp; omega

theorem div_mod_16 (c : Byte) : c / 16 * 16 + c % 16 = c := by
  apply UInt8.toNat_inj.1
  have := c.toNat_lt
  simp; omega

theorem qpPlain_literal {c : Byte} (h : qpPlain c = true) : isQpLiteral c = true ∧ c ≠ EQ := by
  simp only [qpPlain, Bool.and_eq_true, decide_eq_true_eq, bne_iff_ne, ne_eq] at h
  obtain ⟨⟨⟨h1, h2⟩, h3⟩, h4⟩ := h
  refine ⟨?_, h4⟩
  simp only [isQpLiteral, Bool.or_eq_true, Bool.and_eq_true, decide_eq_true_eq, beq_iff_eq]
  simp only [UInt8.le_iff_toNat_le, ← UInt8.toNat_inj] at *
  simp at *
  omega

theorem qpLoop_encode (x : Bytes) (n : Nat) (hn : (qpEncode x).length < n) :
    qpLoop false n (qpEncode x) = .ok x := by
  induction x generalizing n with
  | nil =>
    cases n with
    | zero => omega
    | succ n => simp [qpEncode, qpLoop]
  | cons c x ih =>
    cases n with
    | zero => omega
    | succ n =>
      simp only [qpEncode, List.flatMap_cons] at ih hn ⊢
      by_cases h : qpPlain c = true
      · rw [if_pos h] at hn ⊢
        obtain ⟨h1, h2⟩ := qpPlain_literal h
        rw [List.singleton_append, qpLoop.eq_def]
        simp only [List.length_append, List.length_singleton] at hn
        simp [h1, h2, ih n (by omega)]
      · rw [if_neg h] at hn ⊢
        simp only [List.length_append, List.length_cons, List.length_nil] at hn
        have a1 := hexDigit_lt (div16_lt c)
        have a2 := hexDigit_lt (mod16_lt c)
        simp only [List.cons_append, List.nil_append]
        rw [qpLoop.eq_def]
        simp [a1.1, a1.2.1, a2.1, a2.2.1, ih n (by omega), div_mod_16]

/-- C16: the encoder writes exactly the specified text. -/
theorem C16_encode_exact (x : Bytes) : qpEncode x = Spec.quotedPrintable x := (quotedPrintable_eq x).symm

/-- C16: decoding inverts encoding, for every byte string. -/
theorem C16_decode_encode (x : Bytes) : qpDecode (qpEncode x) = .ok x :=
  qpLoop_encode x _ (by omega)

/-- C17: every byte of an encoding is printable ASCII other than `;` and SP. -/
theorem C17_safe_bytes (x : Bytes) (c : Byte) (h : c ∈ qpEncode x) : 0x21 ≤ c ∧ c ≤ 0x7E ∧ c ≠ SEMI := by
  obtain ⟨d, _, hd⟩ := List.mem_flatMap.1 h
  have hex : ∀ y : Byte, IsUpperHex y → 0x21 ≤ y ∧ y ≤ 0x7E ∧ y ≠ SEMI := by
    intro y hy
    simp only [IsUpperHex, SEMI, UInt8.le_iff_toNat_le, ne_eq, ← UInt8.toNat_inj] at *
    simp at *
    omega
  split at hd
  · rename_i hp
    simp only [List.mem_singleton] at hd
    subst hd
    simp only [qpPlain, Bool.and_eq_true, decide_eq_true_eq, bne_iff_ne, ne_eq] at hp
    exact ⟨hp.1.1.1, hp.1.1.2, hp.1.2⟩
  · simp only [List.mem_cons, List.not_mem_nil, or_false] at hd
    rcases hd with rfl | rfl | rfl
    · decide
    · exact hex _ (hexDigit_lt (div16_lt d)).2.2
    · exact hex _ (hexDigit_lt (mod16_lt d)).2.2

/-- C17: `=` occurs only as the start of `=` plus two upper-case hex digits. -/
theorem C17_equals_sign (x a b : Bytes) (h : qpEncode x = a ++ EQ :: b) :
    ∃ h1 h2 r, b = h1 :: h2 :: r ∧ IsUpperHex h1 ∧ IsUpperHex h2 := by
  have hexne : ∀ y : Byte, IsUpperHex y → y ≠ EQ := by
    intro y hy e; subst e; revert hy; unfold IsUpperHex; decide
  induction x generalizing a with
  | nil => simp [qpEncode] at h
  | cons c x ih =>
    simp only [qpEncode, List.flatMap_cons] at ih h
    by_cases hp : qpPlain c = true
    · rw [if_pos hp] at h
      cases a with
      | nil => simp at h; exact absurd h.1 (qpPlain_literal hp).2
      | cons d a => simp at h; exact ih a h.2
    · rw [if_neg hp] at h
      have a1 := (hexDigit_lt (div16_lt c)).2.2
      have a2 := (hexDigit_lt (mod16_lt c)).2.2
      cases a with
      | nil => simp at h; exact ⟨_, _, _, h.symm, a1, a2⟩
      | cons d a =>
        cases a with
        | nil => simp at h; exact absurd h.2.1 (hexne _ a1)
        | cons e a =>
          cases a with
          | nil => simp at h; exact absurd h.2.2.1 (hexne _ a2)
          | cons f a => simp at h; exact ih a h.2.2.2

example : qpEncode b!"a;b= \xff" = b!"a=3Bb=3D=20=C3=BF" := by decide

end Dkim

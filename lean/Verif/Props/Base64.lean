import Verif.Model.Base64
import Verif.Model.Env
import Verif.Proofs.Ascii
import Verif.Proofs.Encodings
/-!
# Property C18: base64

`b64Encode` is the contract of OpenSSL's encoder as driven by `Base64_Encode`. The decoder is an
external function; `Env.B64Law` is the law assumed of it, and `C18_law_satisfiable` exhibits a decoder
that has it.
-/

namespace Dkim
open Spec

/-- The 64 letters and the padding sign. -/
def IsB64 (c : Byte) : Prop :=
  (65 ≤ c ∧ c ≤ 90) ∨ (97 ≤ c ∧ c ≤ 122) ∨ (48 ≤ c ∧ c ≤ 57) ∨ c = 43 ∨ c = 47

theorem b64Char_fin : ∀ i : Fin 64, b64Val (b64Char i) = i ∧ IsB64 (b64Char i) ∧ b64Char i ≠ EQ := by
  unfold IsB64; decide

theorem b64Char_val {i : Nat} (h : i < 64) : b64Val (b64Char i) = i := (b64Char_fin ⟨i, h⟩).1
theorem b64Char_is {i : Nat} (h : i < 64) : IsB64 (b64Char i) := (b64Char_fin ⟨i, h⟩).2.1
theorem b64Char_ne {i : Nat} (h : i < 64) : b64Char i ≠ EQ := (b64Char_fin ⟨i, h⟩).2.2

theorem ofNat_eq {n : Nat} {a : Byte} (h : n = a.toNat) : UInt8.ofNat n = a := by
  subst h; simp

/-- C18: the reference decoder inverts the encoder, so the law assumed of OpenSSL's is consistent. -/
theorem C18_law_satisfiable (x : Bytes) : b64DecodeRef (b64Encode x) = x := by
  induction x using b64Encode.induct with
  | case1 => rfl
  | case2 a =>
    have := a.toNat_lt
    simp only [b64Encode, b64DecodeRef, if_true]
    rw [b64Char_val (by omega), b64Char_val (by omega), ofNat_eq (a := a) (by omega)]
  | case3 a b =>
    have := a.toNat_lt
    have := b.toNat_lt
    simp only [b64Encode, b64DecodeRef, if_true]
    rw [if_neg (b64Char_ne (by omega)), b64Char_val (by omega), b64Char_val (by omega), b64Char_val (by omega)]
    rw [ofNat_eq (a := a) (by omega), ofNat_eq (a := b) (by omega)]
  | case4 a b c r ih =>
    have := a.toNat_lt
    have := b.toNat_lt
    have := c.toNat_lt
    simp only [b64Encode, b64DecodeRef]
    rw [if_neg (b64Char_ne (by omega)), if_neg (b64Char_ne (by omega)), b64Char_val (by omega),
      b64Char_val (by omega), b64Char_val (by omega), b64Char_val (by omega), ih]
    rw [ofNat_eq (a := a) (by omega), ofNat_eq (a := b) (by omega), ofNat_eq (a := c) (by omega)]

/-- C18: the encoding determines the data. -/
theorem C18_injective (x y : Bytes) (h : b64Encode x = b64Encode y) : x = y := by
  rw [← C18_law_satisfiable x, h, C18_law_satisfiable]

/-- C18: alphabet. -/
theorem C18_alphabet (x : Bytes) (c : Byte) (h : c ∈ b64Encode x) : IsB64 c ∨ c = EQ := by
  induction x using b64Encode.induct with
  | case1 => simp [b64Encode] at h
  | case2 a =>
    have := a.toNat_lt
    simp only [b64Encode, List.mem_cons, List.not_mem_nil, or_false] at h
    rcases h with rfl | rfl | rfl | rfl
    · exact .inl (b64Char_is (by omega))
    · exact .inl (b64Char_is (by omega))
    · exact .inr rfl
    · exact .inr rfl
  | case3 a b =>
    have := a.toNat_lt
    have := b.toNat_lt
    simp only [b64Encode, List.mem_cons, List.not_mem_nil, or_false] at h
    rcases h with rfl | rfl | rfl | rfl
    · exact .inl (b64Char_is (by omega))
    · exact .inl (b64Char_is (by omega))
    · exact .inl (b64Char_is (by omega))
    · exact .inr rfl
  | case4 a b d r ih =>
    have := a.toNat_lt
    have := b.toNat_lt
    have := d.toNat_lt
    simp only [b64Encode, List.mem_cons] at h
    rcases h with rfl | rfl | rfl | rfl | h
    · exact .inl (b64Char_is (by omega))
    · exact .inl (b64Char_is (by omega))
    · exact .inl (b64Char_is (by omega))
    · exact .inl (b64Char_is (by omega))
    · exact ih h

/-- C18: length 4·⌈n/3⌉. -/
theorem C18_length (x : Bytes) : (b64Encode x).length = 4 * ((x.length + 2) / 3) := by
  induction x using b64Encode.induct with
  | case1 => rfl
  | case2 a => simp [b64Encode]
  | case3 a b => simp [b64Encode]
  | case4 a b d r ih => simp only [b64Encode, List.length_cons, ih]; omega

/-- C18: `=` occurs only as padding: at most twice, at the very end. -/
theorem C18_padding (x : Bytes) : ∃ body pad, b64Encode x = body ++ pad ∧ (∀ c ∈ body, c ≠ EQ) ∧
    (pad = [] ∨ pad = [EQ] ∨ pad = [EQ, EQ]) := by
  induction x using b64Encode.induct with
  | case1 => exact ⟨[], [], rfl, by simp, .inl rfl⟩
  | case2 a =>
    have := a.toNat_lt
    refine ⟨[b64Char (a.toNat / 4), b64Char (a.toNat % 4 * 16)], [EQ, EQ], rfl, ?_, .inr (.inr rfl)⟩
    intro c hc
    simp only [List.mem_cons, List.not_mem_nil, or_false] at hc
    rcases hc with rfl | rfl <;> exact b64Char_ne (by omega)
  | case3 a b =>
    have := a.toNat_lt
    have := b.toNat_lt
    refine ⟨[b64Char (a.toNat / 4), b64Char (a.toNat % 4 * 16 + b.toNat / 16), b64Char (b.toNat % 16 * 4)], [EQ],
      rfl, ?_, .inr (.inl rfl)⟩
    intro c hc
    simp only [List.mem_cons, List.not_mem_nil, or_false] at hc
    rcases hc with rfl | rfl | rfl <;> exact b64Char_ne (by omega)
  | case4 a b d r ih =>
    have := a.toNat_lt
    have := b.toNat_lt
    have := d.toNat_lt
    obtain ⟨body, pad, h1, h2, h3⟩ := ih
    refine ⟨b64Char (a.toNat / 4) :: b64Char (a.toNat % 4 * 16 + b.toNat / 16) ::
      b64Char (b.toNat % 16 * 4 + d.toNat / 64) :: b64Char (d.toNat % 64) :: body, pad, ?_, ?_, h3⟩
    · simp only [b64Encode, h1]; rfl
    · intro c hc
      simp only [List.mem_cons] at hc
      rcases hc with rfl | rfl | rfl | rfl | hc
      · exact b64Char_ne (by omega)
      · exact b64Char_ne (by omega)
      · exact b64Char_ne (by omega)
      · exact b64Char_ne (by omega)
      · exact h2 c hc

/-- C18: the encoder writes exactly the base64 of RFC 4648. -/
theorem C18_rfc4648 (x : Bytes) : b64Encode x = Spec.base64 x := (base64_eq x).symm

/-- `t` is `x` with white space put in anywhere. -/
inductive Spec.Spaced : Bytes → Bytes → Prop
  | nil : Spaced [] []
  | keep (c x t) : Spaced x t → Spaced (c :: x) (c :: t)
  | space (w x t) : Spec.isSpace w = true → Spaced x t → Spaced x (w :: t)

theorem b64_not_space {x : Bytes} {c : Byte} (hc : c ∈ b64Encode x) : Spec.isSpace c = false ∧ Spec.isLoose c = false := by
  have : IsB64 c ∨ c = EQ := C18_alphabet x c hc
  have h : ∀ c : Byte, (IsB64 c ∨ c = EQ) → Spec.isSpace c = false ∧ Spec.isLoose c = false := by
    apply byte_forall
    unfold IsB64
    decide +kernel
  exact h c this

/-- C18: an encoding with white space put in anywhere is, once the white space is dropped again, the same encoding, and
decodes to the same bytes. (Dropping every SP, TAB, CR, LF, VT, FF; the second form drops SP, TAB, CR and LF only.) -/
theorem C18_fold_safe (E : Env) (hE : E.B64Law) (x t : Bytes) (h : Spaced (b64Encode x) t) :
    E.b64dec (t.filter (fun c => !Spec.isSpace c)) = x ∧
      ((∀ c ∈ t, Spec.isSpace c = true → Spec.isLoose c = true) → E.b64dec (t.filter (fun c => !Spec.isLoose c)) = x) := by
  have key : ∀ (p : Byte → Bool) (y t : Bytes), Spaced y t → (∀ c ∈ y, p c = false) →
      (∀ c ∈ t, Spec.isSpace c = true → p c = true) → t.filter (fun c => !p c) = y := by
    intro p y t h
    induction h with
    | nil => intros; rfl
    | keep c x t _ ih =>
      intro h1 h2
      rw [List.filter_cons, h1 c (by simp), ih (fun d hd => h1 d (by simp [hd])) (fun d hd => h2 d (by simp [hd]))]
      rfl
    | space w x t hw _ ih =>
      intro h1 h2
      rw [List.filter_cons, h2 w (by simp) hw, ih h1 (fun d hd => h2 d (by simp [hd]))]
      rfl
  constructor
  · rw [key _ _ _ h (fun c hc => (b64_not_space hc).1) (fun _ _ h => h)]; exact hE x
  · intro hl
    rw [key _ _ _ h (fun c hc => (b64_not_space hc).2) hl]; exact hE x

/-- The encoding itself contains no white space, so stripping cannot remove part of it. -/
theorem C18_strip_encoding (x : Bytes) : (b64Encode x).filter (fun c => !Spec.isSpace c) = b64Encode x := by
  rw [List.filter_eq_self]
  intro c hc
  rw [(b64_not_space hc).1]; rfl

example : Spaced (b64Encode b!"Man") b!"TW\r\n\t Fu" := by
  refine .keep _ _ _ (.keep _ _ _ (.space _ _ _ rfl (.space _ _ _ rfl (.space _ _ _ rfl (.space _ _ _ rfl (.keep _ _ _ (.keep _ _ _ .nil)))))))

example : b64Encode b!"Man" = b!"TWFu" ∧ b64Encode b!"Ma" = b!"TWE=" ∧ b64Encode b!"M" = b!"TQ==" := by decide

end Dkim

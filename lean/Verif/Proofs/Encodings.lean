import Verif.Spec.Encodings
import Verif.Model.QuotedPrintable
import Verif.Model.Base64
/-!
# Proofs: the encoders of the model produce the specified texts
-/

namespace Dkim
open Spec

theorem byte_forall {p : Byte → Prop} (h : ∀ k : Fin 256, p (UInt8.ofNat k)) : ∀ c, p c := by
  intro c
  have := h ⟨c.toNat, c.toNat_lt⟩
  simpa using this

theorem hexPair_eq (c : Byte) : hexPair c = [EQ, hexDigit (c / 16), hexDigit (c % 16)] := by
  revert c; apply byte_forall; decide +kernel

theorem qpSafe_iff (c : Byte) : QpSafe c ↔ qpPlain c = true := by
  simp [QpSafe, qpPlain, and_assoc]

@[simp] theorem quotedPrintable_eq (x : Bytes) : quotedPrintable x = qpEncode x := by
  unfold quotedPrintable qpEncode
  congr 1
  funext c
  simp only [qpSafe_iff, hexPair_eq]

theorem b64Digit_eq : ∀ n : Nat, b64Digit n = b64Char (n % 64) := by
  have : ∀ k : Fin 64, b64Alphabet.getD k 0 = b64Char k := by decide +kernel
  intro n
  exact this ⟨n % 64, Nat.mod_lt _ (by omega)⟩

@[simp] theorem base64_eq (x : Bytes) : base64 x = b64Encode x := by
  fun_induction base64 x with
  | case1 => rfl
  | case2 a n =>
    have := a.toNat_lt
    simp only [b64Encode, b64Digit_eq, EQ, n]
    rw [show a.toNat * 65536 / 262144 % 64 = a.toNat / 4 from by omega,
      show a.toNat * 65536 / 4096 % 64 = a.toNat % 4 * 16 from by omega]
  | case3 a b n =>
    have := a.toNat_lt
    have := b.toNat_lt
    simp only [b64Encode, b64Digit_eq, EQ, n]
    rw [show (a.toNat * 65536 + b.toNat * 256) / 262144 % 64 = a.toNat / 4 from by omega,
      show (a.toNat * 65536 + b.toNat * 256) / 4096 % 64 = a.toNat % 4 * 16 + b.toNat / 16 from by omega,
      show (a.toNat * 65536 + b.toNat * 256) / 64 % 64 = b.toNat % 16 * 4 from by omega]
  | case4 a b c r n ih =>
    have := a.toNat_lt
    have := b.toNat_lt
    have := c.toNat_lt
    rw [ih]
    simp only [b64Encode, b64Digit_eq, List.cons_append, List.nil_append, n]
    rw [show (a.toNat * 65536 + b.toNat * 256 + c.toNat) / 262144 % 64 = a.toNat / 4 from by omega,
      show (a.toNat * 65536 + b.toNat * 256 + c.toNat) / 4096 % 64 = a.toNat % 4 * 16 + b.toNat / 16 from by omega,
      show (a.toNat * 65536 + b.toNat * 256 + c.toNat) / 64 % 64 = b.toNat % 16 * 4 + c.toNat / 64 from by omega,
      show (a.toNat * 65536 + b.toNat * 256 + c.toNat) % 64 = c.toNat % 64 from by omega]

end Dkim

import Verif.Proofs.MailSteps
import Verif.Props.Message
/-!
# C85, C86: how long reading the header block takes

A step is one byte read, copied or looked at (`Model/MailSteps.lean`).
-/

namespace Dkim

open Spec

/-- C85: reading the header block of any message takes at most quadratic time. -/
theorem C85_message (d : Bytes) : Message.parseAllSteps {} (freshStream d) ≤ 8 * ((d.length + 1) * (d.length + 1)) := by
  obtain ⟨ls, off, h⟩ := HeadText.total d 0
  have h1 := (allSteps_head h _ (at_fresh d)).2
  have h2 := headText_size h
  have h3 := linesWork_le (2 * d.length + 1) ls none (by simpa using h2.1)
  have h4 : ls.length * (2 * d.length + 1) ≤ d.length * (2 * d.length + 1) := Nat.mul_le_mul_right _ h2.2
  have h5 : d.length * (2 * d.length + 1) = 2 * (d.length * d.length) + d.length := by
    rw [Nat.mul_add, Nat.mul_one, Nat.mul_left_comm]
  have h6 : (d.length + 1) * (d.length + 1) = d.length * d.length + 2 * d.length + 1 := by
    rw [Nat.add_mul, Nat.mul_add]; omega
  have h7 := h2.1
  omega

/-- C85: reading the header block takes linear time if the lines of the header block (`HeadText`) that start a
field, that is the first line and every line not starting with a space or tab, all have a colon. -/
theorem C85_message_named (d : Bytes) (ls : List Bytes) (off : Int) (h : HeadText 0 d ls off) (hf : ∀ l ∈ ls.head?, COLON ∈ l)
    (hn : ∀ l ∈ ls, isCont l = false → COLON ∈ l) : Message.parseAllSteps {} (freshStream d) ≤ 7 * d.length + 5 := by
  have h1 := (allSteps_head h _ (at_fresh d)).2
  have h2 := headText_size h
  have h3 := linesWork_named ls none hn (.inr ⟨rfl, hf⟩)
  omega

/-- A message of `n` continuation lines without a colon. -/
def manyLines : Nat → Bytes
  | 0 => []
  | n + 1 => b!" a\n" ++ manyLines n

theorem manyLines_length (n : Nat) : (manyLines n).length = 3 * n := by
  induction n with
  | zero => rfl
  | succ n ih => simp [manyLines, ih]; omega

theorem manyLines_head (n : Nat) : ∀ pos, HeadText pos (manyLines n) (List.replicate n b!" a") (-1) := by
  induction n with
  | zero => intro pos; exact .none pos
  | succ n ih =>
    intro pos
    exact .lineLF pos b!" a" (manyLines n) _ _ (by simp) (by decide) (by decide) (ih _)

/-- C86, negation: the header block parser, too, takes `n * n` steps on a message of `3 * n` bytes: while a field
has no colon, every further line of it makes the search start at the field's first byte again. -/
theorem C86_message_witness (n : Nat) : n * n ≤ Message.parseAllSteps {} (freshStream (manyLines n)) := by
  have h1 := (allSteps_head (manyLines_head n 0) _ (at_fresh _)).1
  have h2 := linesWork_lower b!" a" (by decide) (by decide) (by decide) n none rfl (by decide)
  omega

/-- C86: so no constant bounds the steps per byte of the message. -/
theorem C86_message_no_linear_bound (c : Nat) : ∃ d, c * (d.length + 1) < Message.parseAllSteps {} (freshStream d) := by
  refine ⟨manyLines (4 * c + 1), Nat.lt_of_lt_of_le ?_ (C86_message_witness _)⟩
  rw [manyLines_length]
  have : (4 * c + 1) * (4 * c + 1) = c * (3 * (4 * c + 1) + 1) + (c * (4 * c) + 4 * c + 1) := by
    simp only [Nat.add_mul, Nat.mul_add, Nat.mul_one, Nat.one_mul, Nat.mul_assoc, Nat.mul_left_comm c]
    omega
  omega

/-! Non-vacuity. -/
example : Message.parseAllSteps {} (freshStream b!"A: b\r\n c\r\n\r\nbody") = 25 := by decide +kernel
example : Message.parseAllSteps {} (freshStream (manyLines 10)) = 271 := by decide +kernel
example : ∃ ls off, HeadText 0 b!"A: b\r\n c\r\n\r\nbody" ls off ∧ (∀ l ∈ ls.head?, COLON ∈ l) ∧ ∀ l ∈ ls, isCont l = false → COLON ∈ l := by
  refine ⟨[b!"A: b", b!" c"], 12, .lineCRLF 0 b!"A: b" _ _ _ (by simp) (by decide) (.lineCRLF 6 b!" c" _ _ _ (by simp) (by decide) (.blankCRLF 10 _)), ?_, ?_⟩
  · decide
  · decide

end Dkim

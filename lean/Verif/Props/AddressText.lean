import Verif.Proofs.AddressHang
import Verif.Props.Termination
import Verif.Props.Address
/-!
# Properties C72 and C09: address lists, for every text

Spec: `Verif/Spec/AddressText.lean`.
-/

namespace Dkim
open Spec

/-- C72: `ParseAddressList` accepts a text with these addresses iff the text stands for them. -/
theorem C72_list_iff (sc : Bool) (s : Bytes) (as : List Bytes) : parseAddressList sc s = .ok as ↔ AddrText sc s as := by
  unfold parseAddressList AddrText
  rw [parseAddrDepth_iff]
  constructor
  · intro h; exact ⟨_, h⟩
  · rintro ⟨n, h⟩
    have h1 := addrTextIn_le sc (Nat.le_max_left n (s.length + 1)) s as h
    rw [← parseAddrDepth_iff, parseAddrDepth_depth sc _ (s.length + 1) s (by omega) (by omega), parseAddrDepth_iff] at h1
    exact h1

/-- C72: a text stands for at most one list of addresses. -/
theorem C72_unique (sc : Bool) (s : Bytes) (as bs : List Bytes) (ha : AddrText sc s as) (hb : AddrText sc s bs) : as = bs := by
  have h1 := (C72_list_iff sc s as).2 ha
  rw [(C72_list_iff sc s bs).2 hb] at h1
  cases h1; rfl

/-- C72: every other text is a permanent error (signed `char`). -/
theorem C72_otherwise (s : Bytes) (h : ∀ as, ¬ AddrText true s as) : ∃ r a, parseAddressList true s = .error (.perm r a) := by
  cases hp : parseAddressList true s with
  | ok as => exact absurd ((C72_list_iff true s as).1 hp) (h as)
  | error e =>
    obtain ⟨r, rfl⟩ := parseAddressList_perm s e hp
    exact ⟨r, _, rfl⟩

/-- C72 applies to lists with display names, nested lists, comments with escapes, and folding. -/
theorem addressText_example (sc : Bool) :
    AddrText sc (b!"Doe, John <j@a.b> (x\\)(y)), \"c@d, <e@f>\";\r\n g@h (i)") [b!"j@a.b", b!"c@d", b!"e@f", b!"g@h"] ∧
    AddrText sc b!"" [] ∧ (∀ as, ¬ AddrText sc b!"<a@b, c@d" as) ∧ (∀ as, ¬ AddrText sc b!"a@b (c" as) := by
  refine ⟨(C72_list_iff _ _ _).1 ?_, (C72_list_iff _ _ _).1 ?_, ?_, ?_⟩
  · cases sc <;> decide +kernel
  · cases sc <;> decide +kernel
  · intro as h
    have h1 := (C72_list_iff _ _ _).2 h
    have h2 : parseAddressList sc b!"<a@b, c@d" = .error (.p .unclosedAddrSpec) := by cases sc <;> decide +kernel
    rw [h2] at h1; cases h1
  · intro as h
    have h1 := (C72_list_iff _ _ _).2 h
    have h2 : parseAddressList sc b!"a@b (c" = .error (.p .unclosedComment) := by cases sc <;> decide +kernel
    rw [h2] at h1; cases h1

/-- C09: with unsigned `char`, `ParseAddressList` never returns exactly on the texts `Endless` describes: reading reaches a quotation mark
that is never closed, in the text itself or in a nested list. -/
theorem C09_address_endless_iff (s : Bytes) : parseAddressList false s = .error .hang ↔ Endless s := by
  unfold parseAddressList Endless
  rw [parseAddrDepth_hang _ _ (by omega)]
  constructor
  · intro h; exact ⟨_, h⟩
  · rintro ⟨n, h⟩
    have h1 := endlessIn_le (Nat.le_max_left n (s.length + 1)) s h
    rw [← parseAddrDepth_hang _ _ (by omega), parseAddrDepth_depth false _ (s.length + 1) s (by omega) (by omega), parseAddrDepth_hang _ _ (by omega)] at h1
    exact h1

/-- C72, C09: with unsigned `char` there are exactly three outcomes: the addresses the text stands for, no end, or a permanent error. -/
theorem C72_unsigned (s : Bytes) :
    (∃ as, AddrText false s as ∧ parseAddressList false s = .ok as) ∨
    (Endless s ∧ parseAddressList false s = .error .hang) ∨
    ((∀ as, ¬ AddrText false s as) ∧ ¬ Endless s ∧ ∃ r a, parseAddressList false s = .error (.perm r a)) := by
  cases hp : parseAddressList false s with
  | ok as => exact .inl ⟨as, (C72_list_iff false s as).1 hp, rfl⟩
  | error e =>
    rcases parseAddrDepth_permOrHang false _ s e hp with rfl | ⟨r, rfl⟩
    · exact .inr (.inl ⟨(C09_address_endless_iff s).1 hp, rfl⟩)
    · refine .inr (.inr ⟨?_, ?_, r, _, rfl⟩)
      · intro as h; rw [(C72_list_iff false s as).2 h] at hp; cases hp
      · intro h; rw [(C09_address_endless_iff s).2 h] at hp; cases hp

theorem endless_example : Endless b!"a@b, \"c" ∧ Endless b!"\"x@y \\\"z\"" ∧ ¬ Endless b!"\"x@y\", \"\\" := by
  refine ⟨(C09_address_endless_iff _).1 ?_, (C09_address_endless_iff _).1 ?_, fun h => ?_⟩
  · decide +kernel
  · decide +kernel
  · have h1 := (C09_address_endless_iff _).2 h
    have h2 : parseAddressList false b!"\"x@y\", \"\\" = .error (.p .incompleteEscape) := by decide +kernel
    rw [h2] at h1; cases h1

end Dkim

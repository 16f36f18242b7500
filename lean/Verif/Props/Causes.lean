import Verif.Spec.Causes
/-!
# C102: the text of an exception tells its cause
-/

namespace Dkim
open Spec

theorem bears (pre mid post : Bytes) : Bears (pre ++ mid ++ post) (pre, post) :=
  ⟨⟨mid ++ post, by simp⟩, ⟨pre ++ mid, by simp⟩⟩

theorem bears_apart {t : Bytes} {p q : Bytes × Bytes} (hp : Bears t p) (hq : Bears t q) : Apart p q = false := by
  have h1 : p.1.isPrefixOf q.1 = true ∨ q.1.isPrefixOf p.1 = true := by
    simp only [List.isPrefixOf_iff_prefix]
    exact List.prefix_or_prefix_of_prefix hp.1 hq.1
  have h2 : p.2.isSuffixOf q.2 = true ∨ q.2.isSuffixOf p.2 = true := by
    simp only [List.isSuffixOf_iff_suffix]
    exact List.suffix_or_suffix_of_suffix hp.2 hq.2
  unfold Apart
  rcases h1 with h1 | h1 <;> rcases h2 with h2 | h2 <;> simp [h1, h2]

/-- The causes in the table are all apart. -/
theorem causes_apart : ∀ i : Fin 61, ∀ j : Fin 61, i ≠ j →
    Apart (causes[i.1]?.getD ([], [])) (causes[j.1]?.getD ([], [])) = true := by decide +kernel

/-- C102: every exception's text begins and ends like the entry for its cause in the table, whatever names and numbers it quotes. -/
theorem C102_text (r : Reason) (n : Num) : ∃ p, causes[r.ctorIdx]? = some p ∧ Bears (r.what n) p := by
  cases r
  case crWithoutLf =>
    unfold Reason.what
    simp only
    split
    · exact ⟨_, rfl, ⟨⟨_, rfl⟩, ⟨_, List.append_nil _⟩⟩⟩
    · exact ⟨_, rfl, ⟨⟨_, rfl⟩, ⟨_, List.append_nil _⟩⟩⟩
  case strictDomain => exact ⟨_, rfl, ⟨⟨_, rfl⟩, ⟨b!"Domain must match sub-domain", rfl⟩⟩⟩
  all_goals exact ⟨_, rfl, by
    first
    | exact ⟨⟨_, rfl⟩, ⟨_, List.append_nil _⟩⟩
    | exact bears _ _ _⟩

/-- C102: if two exceptions have the same text, they have the same cause. -/
theorem C102_cause (r s : Reason) (n m : Num) (h : r.what n = s.what m) : r.ctorIdx = s.ctorIdx := by
  obtain ⟨p, hp, bp⟩ := C102_text r n
  obtain ⟨q, hq, bq⟩ := C102_text s m
  rw [h] at bp
  have hr : r.ctorIdx < 61 := (List.getElem?_eq_some_iff.1 hp).1
  have hs : s.ctorIdx < 61 := (List.getElem?_eq_some_iff.1 hq).1
  by_cases he : r.ctorIdx = s.ctorIdx
  · exact he
  · have := causes_apart ⟨r.ctorIdx, hr⟩ ⟨s.ctorIdx, hs⟩ (fun e => he (by simpa using e))
    rw [hp, hq] at this
    simp only [Option.getD_some] at this
    rw [bears_apart bp bq] at this
    cases this

/-- C102: of two texts with the same cause that quote one name, the names are equal up to their first NUL bytes, and conversely. -/
theorem C102_quoted (v w : Bytes) (n m : Num) :
    ((Reason.badV v).what n = (Reason.badV w).what m ↔ cstr v = cstr w) ∧
    ((Reason.badA v).what n = (Reason.badA w).what m ↔ cstr v = cstr w) ∧
    ((Reason.badC v).what n = (Reason.badC w).what m ↔ cstr v = cstr w) ∧
    ((Reason.badQ v).what n = (Reason.badQ w).what m ↔ cstr v = cstr w) ∧
    ((Reason.keyBadV v).what n = (Reason.keyBadV w).what m ↔ cstr v = cstr w) ∧
    ((Reason.keyBadK v).what n = (Reason.keyBadK w).what m ↔ cstr v = cstr w) ∧
    ((Reason.duplicateTag v).what n = (Reason.duplicateTag w).what m ↔ cstr v = cstr w) ∧
    ((Reason.missingColon v).what n = (Reason.missingColon w).what m ↔ cstr v = cstr w) := by
  refine ⟨?_, ?_, ?_, ?_, ?_, ?_, ?_, ?_⟩ <;>
  · simp only [Reason.what]
    rw [List.append_cancel_right_eq, List.append_cancel_left_eq]

/-! Concrete texts: two causes whose texts share beginning and end up to a few bytes, even with names chosen to confuse. -/
example : (Reason.badV b!"1 (v supports DKIM").what {} ≠ (Reason.keyBadV b!"1").what {} := by decide +kernel
example : (Reason.badI b!"must match sub-domain (flag s)" b!"").what {} ≠ Reason.strictDomain.what {} := by decide +kernel
/-- The two names of `badI` cannot be told apart in general. -/
theorem C102_two_names_witness : (Reason.badI b!"a" b!"b is not a (sub)domain of c").what {} =
    (Reason.badI b!"a is not a (sub)domain of b" b!"c").what {} := by decide +kernel

end Dkim

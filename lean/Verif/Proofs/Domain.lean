import Verif.Model.Util
import Verif.Spec.Domain

namespace Dkim
open Spec

theorem isAlnum_iff (c : Byte) : isAlnum c = true ↔ IsLetDig c := by
  simp [isAlnum, IsLetDig, or_assoc]

theorem validateSub_iff (s : Bytes) : validateSub s = true ↔ IsLabel s := by
  unfold validateSub IsLabel
  cases hh : s.head? with
  | none => simp
  | some a =>
    cases hl : s.getLast? with
    | none => simp
    | some z =>
      simp only [Bool.and_eq_true, List.all_eq_true, Bool.or_eq_true, beq_iff_eq, isAlnum_iff,
        Option.some.injEq, exists_eq_left']
      constructor
      · rintro ⟨⟨h1, h2⟩, h3⟩; exact ⟨h3, h1, h2⟩
      · rintro ⟨h3, h1, h2⟩; exact ⟨⟨h1, h2⟩, h3⟩

theorem Spec.IsLabel.no_dot {l : Bytes} (h : IsLabel l) : (46 : Byte) ∉ l := by
  intro hm
  rcases h.1 _ hm with h | h
  · revert h; unfold IsLetDig; decide
  · revert h; decide

theorem domainLoop_lab (lab l r : Bytes) (h : (46 : Byte) ∉ l) :
    domainLoop lab (l ++ r) = domainLoop (lab ++ l) r := by
  induction l generalizing lab with
  | nil => simp
  | cons c l ih =>
    have hc : c ≠ 46 := fun e => h (by simp [e])
    rw [List.cons_append, domainLoop, if_neg hc, ih _ (fun hm => h (by simp [hm]))]
    simp

theorem domainLoop_iff (s lab : Bytes) (hlab : (46 : Byte) ∉ lab) :
    domainLoop lab s = true ↔ IsDomain (lab ++ s) := by
  induction s generalizing lab with
  | nil =>
    rw [domainLoop, validateSub_iff, List.append_nil]
    constructor
    · intro h; exact ⟨[lab], by simp, by simpa using h, rfl⟩
    · rintro ⟨ls, hne, hl, he⟩
      match ls, hne, hl, he with
      | [x], _, hl, he => rw [he]; exact hl x (by simp)
      | x :: y :: r, _, _, he => exact absurd (by rw [he]; simp [joinDots]) hlab
  | cons c r ih =>
    rw [domainLoop]
    by_cases hc : c = 46
    · subst hc
      simp only [if_pos]
      by_cases hv : validateSub lab = true
      · simp only [hv, if_true]
        rw [ih [] (by simp), List.nil_append]
        constructor
        · rintro ⟨ls, hne, hl, he⟩
          refine ⟨lab :: ls, by simp, ?_, ?_⟩
          · intro l hm
            rcases List.mem_cons.1 hm with rfl | hm
            · exact (validateSub_iff _).1 hv
            · exact hl l hm
          · match ls, hne with
            | y :: q, _ => rw [joinDots, he]
        · rintro ⟨ls, hne, hl, he⟩
          match ls, hne, hl, he with
          | [x], _, hl, he =>
            exact absurd (show (46 : Byte) ∈ x by rw [show x = _ from he.symm]; simp) (hl x (by simp)).no_dot
          | x :: y :: q, _, hl, he =>
            rw [joinDots] at he
            have hx := (hl x (by simp)).no_dot
            have h2 : lab = x ∧ r = joinDots (y :: q) := by
              have := congrArg (fun s => (s.takeWhile (· != 46), s.dropWhile (· != 46))) he
              have tw : ∀ (a b : Bytes), (46 : Byte) ∉ a → (a ++ 46 :: b).takeWhile (· != 46) = a ∧
                  (a ++ 46 :: b).dropWhile (· != 46) = 46 :: b := by
                intro a b ha
                induction a with
                | nil => simp
                | cons d a ih =>
                  have hd : d ≠ 46 := fun e => ha (by simp [e])
                  have := ih (fun hm => ha (by simp [hm]))
                  simp [hd, this]
              simp only [(tw lab r hlab).1, (tw lab r hlab).2, (tw x _ hx).1, (tw x _ hx).2, Prod.mk.injEq,
                List.cons.injEq, true_and] at this
              exact this
            exact ⟨y :: q, by simp, fun l hm => hl l (by simp_all), h2.2⟩
      · simp only [hv]
        constructor
        · intro h; simp at h
        · rintro ⟨ls, hne, hl, he⟩
          exfalso
          match ls, hne, hl, he with
          | [x], _, hl, he =>
            exact absurd (show (46 : Byte) ∈ x by rw [show x = _ from he.symm]; simp) (hl x (by simp)).no_dot
          | x :: y :: q, _, hl, he =>
            rw [joinDots] at he
            have hx := (hl x (by simp)).no_dot
            have h2 : lab = x := by
              have := congrArg (fun s => s.takeWhile (· != 46)) he
              have tw : ∀ (a b : Bytes), (46 : Byte) ∉ a → (a ++ 46 :: b).takeWhile (· != 46) = a := by
                intro a b ha
                induction a with
                | nil => simp
                | cons d a ih =>
                  have hd : d ≠ 46 := fun e => ha (by simp [e])
                  simp [hd, ih (fun hm => ha (by simp [hm]))]
              simpa only [tw lab r hlab, tw x _ hx] using this
            exact hv ((validateSub_iff _).2 (h2 ▸ hl x (by simp)))
    · rw [if_neg hc, ih _ (by simp [hlab, Ne.symm hc])]
      simp

theorem validateDomain_iff (s : Bytes) : validateDomain s = true ↔ IsDomain s := by
  have := domainLoop_iff s [] (by simp)
  simpa [validateDomain] using this

end Dkim

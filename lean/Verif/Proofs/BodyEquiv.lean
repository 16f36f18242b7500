import Verif.Proofs.BodyLoop
/-! Immaterial edits of a body. -/

namespace Dkim
open Spec

theorem bodyBlock_pending (mode : CanonMode) (body : Bytes) (st : BodySt)
    (h : st.pending = true → mode = .relaxed) :
    (bodyBlock mode st body).1.pending = true → mode = .relaxed := by
  induction body generalizing st with
  | nil => simpa [bodyBlock] using h
  | cons c r ih =>
    simp only [bodyBlock]
    apply ih
    unfold bodyByte
    split
    · exact h
    · split
      · simp
      · split
        · rename_i h'; intro _; exact h'.1
        · simp

/-- Two continuations are interchangeable after any prefix. -/
theorem machineBody_congr (mode : CanonMode) (a x y : Bytes)
    (h : ∀ st : BodySt, (bodyBlock mode st x).2 = (bodyBlock mode st y).2) :
    machineBody mode (a ++ x) = machineBody mode (a ++ y) := by
  simp only [machineBody, bodyBlock_append, h]

theorem bodyBlock_congr_tail (mode : CanonMode) (st : BodySt) (x y b : Bytes)
    (h : bodyBlock mode st x = bodyBlock mode st y) :
    (bodyBlock mode st (x ++ b)).2 = (bodyBlock mode st (y ++ b)).2 := by
  simp only [bodyBlock_append, h]

theorem wsp_ne {w : Byte} (h : isWSP w = true) : w ≠ CR ∧ w ≠ LF := by
  constructor <;> rintro rfl <;> exact absurd h (by decide)

theorem machineBody_equiv {mode : CanonMode} {a b : Bytes} (h : BodyEquiv mode a b) :
    machineBody mode a = machineBody mode b := by
  induction h with
  | refl => rfl
  | symm _ ih => exact ih.symm
  | trans _ _ ih1 ih2 => exact ih1.trans ih2
  | cr a b => exact machineBody_congr mode a _ _ (fun st => by simp [bodyBlock, bodyByte])
  | blankLine a =>
    have := machineBody_congr mode a [LF] [] (fun st => by
      simp [bodyBlock, bodyByte, show (LF = CR) = False by decide])
    simpa using this
  | wspRun a b w w' hm hw hw' =>
    rw [Spec.isWSP_eq] at hw hw'
    apply machineBody_congr
    intro st
    simp [bodyBlock, bodyByte, hm, hw, hw', wsp_ne hw, wsp_ne hw']
  | wspKind a b w w' hm hw hw' =>
    rw [Spec.isWSP_eq] at hw hw'
    apply machineBody_congr
    intro st
    simp [bodyBlock, bodyByte, hm, hw, hw', wsp_ne hw, wsp_ne hw']
  | wspEol a b w hm hw =>
    rw [Spec.isWSP_eq] at hw
    apply machineBody_congr
    intro st
    simp [bodyBlock, bodyByte, hm, hw, wsp_ne hw, show (LF = CR) = False by decide]
  | wspEnd a w hm hw =>
    rw [Spec.isWSP_eq] at hw
    have := machineBody_congr mode a [w] [] (fun st => by
      simp [bodyBlock, bodyByte, hm, hw, wsp_ne hw])
    simpa using this

/-- What the machine has seen so far, normalised. -/
def seen (mode : CanonMode) (p : Bytes) : Bytes :=
  (bodyBlock mode {} p).2 ++ (List.replicate (bodyBlock mode {} p).1.lines CRLF).flatten ++
    pendTxt (bodyBlock mode {} p).1

theorem bodyBlock_single (mode : CanonMode) (st : BodySt) (c : Byte) :
    bodyBlock mode st [c] = bodyByte mode st c := by simp [bodyBlock]

theorem seen_equiv (mode : CanonMode) (p r : Bytes) : BodyEquiv mode (p ++ r) (seen mode p ++ r) := by
  induction hn : p.length generalizing p r with
  | zero =>
    have : p = [] := by simpa using hn
    subst this
    exact .refl _
  | succ n ih =>
    obtain ⟨q, c, rfl⟩ : ∃ q c, p = q ++ [c] := by
      have hne : p ≠ [] := by intro h; simp [h] at hn
      exact ⟨p.dropLast, p.getLast hne, (List.dropLast_concat_getLast hne).symm⟩
    have ihq := fun r => ih q r (by simpa using hn)
    have h1 : BodyEquiv mode (q ++ [c] ++ r) (seen mode q ++ (c :: r)) := by
      simpa using ihq (c :: r)
    refine .trans h1 ?_
    have hp := bodyBlock_pending mode q {} (by simp)
    have hdef : seen mode (q ++ [c]) =
        ((bodyBlock mode {} q).2 ++ (bodyByte mode (bodyBlock mode {} q).1 c).2) ++
        (List.replicate (bodyByte mode (bodyBlock mode {} q).1 c).1.lines CRLF).flatten ++
        pendTxt (bodyByte mode (bodyBlock mode {} q).1 c).1 := by
      simp only [seen, bodyBlock_append, bodyBlock_single]
    rw [hdef, seen]
    generalize bodyBlock mode {} q = z at *
    obtain ⟨st, out⟩ := z
    simp only at hp ⊢
    unfold bodyByte
    by_cases hcr : c = CR
    · subst hcr
      simpa using BodyEquiv.cr (mode := mode)
        (out ++ (List.replicate st.lines CRLF).flatten ++ pendTxt st) r
    · by_cases hlf : c = LF
      · subst hlf
        simp only [hcr, if_false, if_true, List.append_nil, replicate_flatten_succ]
        have hcrlf : BodyEquiv mode (out ++ (List.replicate st.lines CRLF).flatten ++ LF :: r)
            (out ++ ((List.replicate st.lines CRLF).flatten ++ CRLF) ++
              pendTxt { pending := false, lines := st.lines + 1 } ++ r) := by
          have := BodyEquiv.cr (mode := mode) (out ++ (List.replicate st.lines CRLF).flatten) (LF :: r)
          simpa [pendTxt] using this.symm
        cases hpe : st.pending with
        | false => simpa [pendTxt, hpe] using hcrlf
        | true =>
          refine .trans ?_ hcrlf
          have := BodyEquiv.wspEol (mode := mode) (out ++ (List.replicate st.lines CRLF).flatten) r SP
            (hp hpe) isWSP_SP
          simpa [pendTxt, hpe] using this
      · by_cases hw : mode = .relaxed ∧ isWSP c
        · simp only [hcr, hlf, if_false, hw, and_self, if_true, List.append_nil]
          cases hpe : st.pending with
          | false =>
            have := BodyEquiv.wspKind (mode := mode) (out ++ (List.replicate st.lines CRLF).flatten) r c SP
              hw.1 hw.2 isWSP_SP
            rw [hw.1] at this
            simpa [pendTxt, hpe] using this
          | true =>
            have := BodyEquiv.wspRun (mode := mode) (out ++ (List.replicate st.lines CRLF).flatten) r SP c
              hw.1 isWSP_SP hw.2
            rw [hw.1] at this
            simpa [pendTxt, hpe] using this
        · simp only [hcr, hlf, if_false, hw]
          have : out ++ (List.replicate st.lines CRLF).flatten ++ pendTxt st ++ c :: r =
            out ++ ((List.replicate st.lines CRLF).flatten ++ (if st.pending = true then [SP] else []) ++ [c]) ++
              (List.replicate (0 : Nat) CRLF).flatten ++ pendTxt { pending := false, lines := 0 } ++ r := by
            simp [pendTxt]
          rw [this]
          exact .refl _

theorem equiv_append_crlf (mode : CanonMode) (a : Bytes) : BodyEquiv mode (a ++ CRLF) a := by
  have h1 : BodyEquiv mode (a ++ CRLF) (a ++ [LF]) := by
    simpa using BodyEquiv.cr (mode := mode) a [LF]
  exact h1.trans (.blankLine a)

theorem equiv_append_crlfs (mode : CanonMode) (a : Bytes) (n : Nat) :
    BodyEquiv mode (a ++ (List.replicate n CRLF).flatten) a := by
  induction n with
  | zero => simpa using BodyEquiv.refl a
  | succ n ih =>
    rw [replicate_flatten_succ, ← List.append_assoc]
    exact (equiv_append_crlf mode _).trans ih

theorem equiv_machineBody (mode : CanonMode) (body : Bytes) :
    BodyEquiv mode body (machineBody mode body) := by
  have h := seen_equiv mode body []
  simp only [List.append_nil] at h
  refine h.trans ?_
  have hp := bodyBlock_pending mode body {} (by simp)
  unfold seen machineBody
  generalize bodyBlock mode {} body = z at *
  obtain ⟨st, out⟩ := z
  simp only at hp ⊢
  have h1 : BodyEquiv mode (out ++ (List.replicate st.lines CRLF).flatten ++ pendTxt st)
      (out ++ (List.replicate st.lines CRLF).flatten) := by
    cases hpe : st.pending with
    | false => simpa [pendTxt, hpe] using BodyEquiv.refl _
    | true =>
      have := BodyEquiv.wspEnd (mode := mode)
        (out ++ (List.replicate st.lines CRLF).flatten) SP (hp hpe) isWSP_SP
      simpa [pendTxt, hpe] using this
  refine h1.trans ((equiv_append_crlfs mode out _).trans ?_)
  split
  · rename_i h
    have : out = [] := by simpa using h.1
    subst this
    exact .refl _
  · exact (equiv_append_crlf mode out).symm

theorem equiv_mono {mode : CanonMode} {a b : Bytes} (h : BodyEquiv .simple a b) :
    BodyEquiv mode a b := by
  induction h with
  | refl a => exact .refl a
  | symm _ ih => exact ih.symm
  | trans _ _ ih1 ih2 => exact ih1.trans ih2
  | cr a b => exact .cr a b
  | blankLine a => exact .blankLine a
  | wspRun _ _ _ _ hm => exact absurd hm (by decide)
  | wspKind _ _ _ _ hm => exact absurd hm (by decide)
  | wspEol _ _ _ hm => exact absurd hm (by decide)
  | wspEnd _ _ hm => exact absurd hm (by decide)

theorem equiv_iff (mode : CanonMode) (a b : Bytes) :
    BodyEquiv mode a b ↔ Spec.canonBody mode a = Spec.canonBody mode b := by
  rw [← machineBody_eq, ← machineBody_eq]
  constructor
  · exact machineBody_equiv
  · intro h
    exact (equiv_machineBody mode a).trans (h ▸ (equiv_machineBody mode b).symm)

end Dkim

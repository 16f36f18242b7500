import Verif.Proofs.Ascii
import Verif.Model.Canonicalization
import Verif.Spec.Body
/-! Lemmas about body canonicalization. -/

namespace Dkim
open Spec

/-! ### rstrip -/

theorem rstrip_nil {α} (p : α → Bool) : rstrip p [] = [] := rfl

theorem rstrip_cons {α} (p : α → Bool) (x : α) (l : List α) :
    rstrip p (x :: l) = if rstrip p l = [] ∧ p x then [] else x :: rstrip p l := by
  unfold rstrip
  simp only [List.reverse_cons, List.dropWhile_append, List.reverse_eq_nil_iff]
  by_cases h : (l.reverse.dropWhile p) = []
  · by_cases hx : p x <;> simp [h, hx]
  · simp [h, List.isEmpty_iff]

theorem rstrip_append_last {α} (p : α → Bool) (l : List α) (x : α) (hx : p x) :
    rstrip p (l ++ [x]) = rstrip p l := by
  simp [rstrip, hx]

theorem rstrip_append_keep {α} (p : α → Bool) (l : List α) (x : α) (hx : p x = false) :
    rstrip p (l ++ [x]) = l ++ [x] := by
  simp [rstrip, hx]

/-! ### squeeze and canonLine -/

theorem squeeze_cons_not {c : Byte} {r : Bytes} (h : isWSP c = false) :
    squeeze (c :: r) = c :: squeeze r := by simp [squeeze, h]

theorem squeeze_wsp_wsp {c d : Byte} {r : Bytes} (h : isWSP c) (hd : isWSP d) :
    squeeze (c :: d :: r) = squeeze (d :: r) := by rw [squeeze]; simp [h, hd]

theorem squeeze_wsp_not {c d : Byte} {r : Bytes} (h : isWSP c) (hd : isWSP d = false) :
    squeeze (c :: d :: r) = SP :: squeeze (d :: r) := by rw [squeeze]; simp [h, hd]

theorem squeeze_wsp_eq {c d : Byte} (hc : isWSP c) (hd : isWSP d) (r : Bytes) :
    squeeze (c :: r) = squeeze (d :: r) := by
  cases r with
  | nil => simp [squeeze, hc, hd]
  | cons e r =>
    by_cases he : isWSP e
    · rw [squeeze_wsp_wsp hc he, squeeze_wsp_wsp hd he]
    · have he : isWSP e = false := by simpa using he
      rw [squeeze_wsp_not hc he, squeeze_wsp_not hd he]

theorem isWSP_SP : isWSP SP = true := by decide

theorem canonLine_cons_not {c : Byte} {r : Bytes} (mode : CanonMode)
    (h : mode = .relaxed → isWSP c = false) : canonLine mode (c :: r) = c :: canonLine mode r := by
  cases mode with
  | simple => rfl
  | relaxed =>
    have h := h rfl
    simp [canonLine, squeeze_cons_not h, rstrip_cons, h]

theorem canonLine_sp_not {c : Byte} {r : Bytes} (h : isWSP c = false) :
    canonLine .relaxed (SP :: c :: r) = SP :: c :: canonLine .relaxed r := by
  simp [canonLine, squeeze_wsp_not isWSP_SP h, squeeze_cons_not h, rstrip_cons, h]

theorem canonLine_sp : canonLine .relaxed [SP] = [] := by decide

/-- Joining lines by CRLF. -/
def joinCRLF : List Bytes → Bytes
  | [] => []
  | [l] => l
  | l :: m :: ls => l ++ CRLF ++ joinCRLF (m :: ls)

theorem joinCRLF_cons_ne {l : Bytes} {ls : List Bytes} (h : ls ≠ []) :
    joinCRLF (l :: ls) = l ++ CRLF ++ joinCRLF ls := by
  cases ls with
  | nil => exact absurd rfl h
  | cons m ls => rfl

theorem joinCRLF_append_crlf {ls : List Bytes} (h : ls ≠ []) :
    joinCRLF ls ++ CRLF = ls.flatMap (· ++ CRLF) := by
  induction ls with
  | nil => exact absurd rfl h
  | cons l ls ih =>
    cases ls with
    | nil => simp [joinCRLF]
    | cons m ls => rw [joinCRLF, List.flatMap_cons, ← ih (by simp)]; simp

theorem splitLF_ne_nil (s : Bytes) : splitLF s ≠ [] := by
  cases s with
  | nil => simp [splitLF]
  | cons c r =>
    unfold splitLF
    split
    · simp
    · split <;> simp

/-- The pending space as text. -/
def pendTxt (st : BodySt) : Bytes := if st.pending then [SP] else []

/-- `n` pending line breaks followed by lines, nothing if there are no lines. -/
def emitLines (n : Nat) (ls : List Bytes) : Bytes :=
  if ls = [] then [] else (List.replicate n CRLF).flatten ++ joinCRLF ls

/-- What `bodyBlock` computes from a state, in terms of the specification. -/
def specFrom (mode : CanonMode) (st : BodySt) (r : Bytes) : Bytes :=
  emitLines st.lines
    (rstrip List.isEmpty ((splitLF (pendTxt st ++ r.filter (· ≠ CR))).map (canonLine mode)))

theorem splitLF_cons_ne {c : Byte} (h : c ≠ LF) (r : Bytes) :
    ∃ l ls, splitLF r = l :: ls ∧ splitLF (c :: r) = (c :: l) :: ls := by
  match hs : splitLF r with
  | [] => exact absurd hs (splitLF_ne_nil r)
  | l :: ls => exact ⟨l, ls, rfl, by simp [splitLF, h, hs]⟩

theorem replicate_flatten_succ (n : Nat) (x : Bytes) :
    (List.replicate (n + 1) x).flatten = (List.replicate n x).flatten ++ x := by
  rw [List.replicate_succ']; simp

theorem bodyBlock_spec (mode : CanonMode) (st : BodySt) (r : Bytes)
    (hp : st.pending = true → mode = .relaxed) :
    (bodyBlock mode st r).2 = specFrom mode st r := by
  induction r generalizing st with
  | nil =>
    have e : rstrip List.isEmpty ((splitLF (pendTxt st ++ [])).map (canonLine mode)) = [] := by
      cases hpe : st.pending with
      | false => cases mode <;> simp [pendTxt, hpe, splitLF, canonLine, rstrip, squeeze]
      | true => rw [hp hpe]; simp only [pendTxt, hpe]; decide
    simp only [bodyBlock, specFrom, List.filter_nil, e, emitLines, if_true]
  | cons c r ih =>
    simp only [bodyBlock]
    by_cases hcr : c = CR
    · subst hcr
      simp only [bodyByte]
      simp [ih st hp, specFrom]
    · by_cases hlf : c = LF
      · subst hlf
        have e1 : bodyByte mode st LF = ({ pending := false, lines := st.lines + 1 }, []) := by
          simp [bodyByte, show (LF = CR) = False by decide]
        rw [e1]
        simp only [List.nil_append]
        rw [ih _ (by simp)]
        have e2 : splitLF (pendTxt st ++ List.filter (· ≠ CR) (LF :: r)) =
            pendTxt st :: splitLF (List.filter (· ≠ CR) r) := by
          have : List.filter (· ≠ CR) (LF :: r) = LF :: List.filter (· ≠ CR) r := by
            simp [show (LF ≠ CR) by decide]
          rw [this]
          cases hpe : st.pending <;> simp [pendTxt, hpe, splitLF, show (SP = LF) = False by decide]
        have e3 : canonLine mode (pendTxt st) = [] := by
          cases hpe : st.pending with
          | false => cases mode <;> simp [pendTxt, hpe, canonLine, squeeze, rstrip]
          | true => rw [hp hpe]; simp [pendTxt, hpe, canonLine_sp]
        simp only [specFrom, e2, List.map_cons, e3, rstrip_cons]
        have e4 : pendTxt { pending := false, lines := st.lines + 1 : BodySt } = [] := rfl
        rw [e4, List.nil_append]
        generalize rstrip List.isEmpty (List.map (canonLine mode) (splitLF (List.filter (fun x => decide (x ≠ CR)) r))) = M
        by_cases hM : M = []
        · simp [hM, emitLines]
        · simp [hM, emitLines, joinCRLF_cons_ne, replicate_flatten_succ]
      · by_cases hw : mode = .relaxed ∧ isWSP c
        · obtain ⟨hm, hw⟩ := hw
          have e1 : bodyByte mode st c = ({ st with pending := true }, []) := by
            simp [bodyByte, hcr, hlf, hm, hw]
          rw [e1]
          simp only [List.nil_append]
          rw [ih _ (by simp [hm])]
          have hf : List.filter (· ≠ CR) (c :: r) = c :: List.filter (· ≠ CR) r := by simp [hcr]
          simp only [specFrom, hf]
          generalize List.filter (· ≠ CR) r = q
          have e5 : (splitLF (pendTxt { st with pending := true } ++ q)).map (canonLine mode) =
              (splitLF (pendTxt st ++ c :: q)).map (canonLine mode) := by
            subst hm
            obtain ⟨l, ls, h1, h2⟩ := splitLF_cons_ne (c := SP) (by decide) q
            obtain ⟨l', ls', h1', h2'⟩ := splitLF_cons_ne hlf q
            rw [h1] at h1'
            obtain ⟨rfl, rfl⟩ : l = l' ∧ ls = ls' := by simpa using h1'
            cases hpe : st.pending with
            | false =>
              simp only [pendTxt, hpe]
              simp [h2, h2', canonLine, squeeze_wsp_eq (d := SP) hw isWSP_SP]
            | true =>
              simp only [pendTxt, hpe]
              obtain ⟨l3, ls3, h3, h4⟩ := splitLF_cons_ne (c := SP) (by decide) (c :: q)
              rw [h2'] at h3
              obtain ⟨rfl, rfl⟩ : c :: l = l3 ∧ ls = ls3 := by simpa using h3
              simp [h2, h4, canonLine, squeeze_wsp_wsp isWSP_SP hw,
                squeeze_wsp_eq (d := SP) hw isWSP_SP]
          rw [e5]
        · have hnw : mode = .relaxed → isWSP c = false := by
            intro h; simpa [h] using hw
          have e1 : bodyByte mode st c = ({ pending := false, lines := 0 },
              (List.replicate st.lines CRLF).flatten ++ pendTxt st ++ [c]) := by
            simp only [bodyByte, hcr, hlf, hw, if_false, pendTxt]
          rw [e1]
          simp only []
          rw [ih _ (by simp)]
          have hf : List.filter (· ≠ CR) (c :: r) = c :: List.filter (· ≠ CR) r := by simp [hcr]
          simp only [specFrom, hf]
          generalize List.filter (· ≠ CR) r = q
          obtain ⟨l, ls, h1, h2⟩ := splitLF_cons_ne hlf q
          have e4 : pendTxt { pending := false, lines := 0 : BodySt } = [] := rfl
          rw [e4, List.nil_append, h1]
          have e6 : splitLF (pendTxt st ++ c :: q) = (pendTxt st ++ c :: l) :: ls := by
            cases hpe : st.pending with
            | false => simp [pendTxt, hpe, h2]
            | true =>
              obtain ⟨l3, ls3, h3, h4⟩ := splitLF_cons_ne (c := SP) (by decide) (c :: q)
              rw [h2] at h3
              obtain ⟨rfl, rfl⟩ : c :: l = l3 ∧ ls = ls3 := by simpa using h3
              simp [pendTxt, hpe, h4]
          have e7 : canonLine mode (pendTxt st ++ c :: l) = pendTxt st ++ c :: canonLine mode l := by
            cases hpe : st.pending with
            | false => simp [pendTxt, hpe, canonLine_cons_not mode hnw]
            | true =>
              have hm := hp hpe
              subst hm
              simp [pendTxt, hpe, canonLine_sp_not (hnw rfl)]
          rw [e6, List.map_cons, List.map_cons, e7, rstrip_cons, rstrip_cons]
          generalize rstrip List.isEmpty (List.map (canonLine mode) ls) = M
          generalize canonLine mode l = cl
          by_cases hM : M = []
          · cases cl with
            | nil => simp [hM, emitLines, joinCRLF]
            | cons x xs => simp [hM, emitLines, joinCRLF]
          · simp [hM, emitLines, joinCRLF_cons_ne]

theorem bodyBlock_append (mode : CanonMode) (st : BodySt) (a b : Bytes) :
    bodyBlock mode st (a ++ b) =
      ((bodyBlock mode (bodyBlock mode st a).1 b).1,
        (bodyBlock mode st a).2 ++ (bodyBlock mode (bodyBlock mode st a).1 b).2) := by
  induction a generalizing st with
  | nil => simp [bodyBlock]
  | cons c a ih => simp [bodyBlock, ih]

/-- The canonical body in terms of the state machine. -/
def machineBody (mode : CanonMode) (body : Bytes) : Bytes :=
  let out := (bodyBlock mode {} body).2
  if out.isEmpty ∧ mode = .relaxed then [] else out ++ CRLF

theorem rstrip_idem {α} (p : α → Bool) (X : List α) : rstrip p (rstrip p X) = rstrip p X := by
  simp only [rstrip, List.reverse_reverse]
  congr 1
  induction X.reverse with
  | nil => rfl
  | cons x xs ih => by_cases h : p x <;> simp [h, ih]

theorem joinCRLF_ne_nil {l : Bytes} {ls X : List Bytes} (h : rstrip List.isEmpty X = l :: ls) :
    joinCRLF (l :: ls) ≠ [] := by
  cases ls with
  | nil =>
    intro hl
    simp only [joinCRLF] at hl
    subst hl
    have := rstrip_idem List.isEmpty X
    rw [h] at this
    simp [rstrip] at this
  | cons m ls => simp [joinCRLF]

theorem machineBody_eq (mode : CanonMode) (body : Bytes) :
    machineBody mode body = Spec.canonBody mode body := by
  have h := bodyBlock_spec mode {} body (by simp)
  simp only [machineBody, h, specFrom]
  simp only [Spec.canonBody, canonLines]
  have e : pendTxt {} ++ body.filter (· ≠ CR) = body.filter (· ≠ CR) := rfl
  rw [e]
  match hM : rstrip List.isEmpty (List.map (canonLine mode) (splitLF (body.filter (· ≠ CR)))) with
  | [] => cases mode <;> simp [emitLines]
  | l :: ls =>
    have hne := joinCRLF_ne_nil hM
    have h2 : emitLines ({} : BodySt).lines (l :: ls) = joinCRLF (l :: ls) := by simp [emitLines]
    rw [h2]
    have h3 : (joinCRLF (l :: ls)).isEmpty = false := by
      cases h : joinCRLF (l :: ls) with
      | nil => exact absurd h hne
      | cons => rfl
    rw [joinCRLF_append_crlf (by simp)]
    cases mode <;> simp [h3]

end Dkim

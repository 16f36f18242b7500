import Verif.Proofs.ValueList
import Verif.Proofs.Header
import Verif.Proofs.Message
import Verif.Model.QuotedPrintable
import Verif.Model.EncodedWord
import Verif.Model.Signatory
/-!
# Every parser ends, and fails only with permanent errors
-/

namespace Dkim
open Spec

/-- A `PermanentError` with the default result class. -/
def Spec.IsPerm (e : Err) : Prop := ∃ r, e = .p r

/-- The computation fails only with permanent errors (in particular it ends). -/
def Spec.OnlyPerm {α : Type} (x : Except Err α) : Prop := ∀ e, x = .error e → IsPerm e

theorem Spec.OnlyPerm.ok {α : Type} (a : α) : OnlyPerm (.ok a : Except Err α) := by intro e h; cases h
theorem Spec.OnlyPerm.err {α : Type} (r : Reason) : OnlyPerm (.error (.p r) : Except Err α) := by
  intro e h; cases h; exact ⟨r, rfl⟩

theorem readFWS_perm (s : Bytes) : OnlyPerm (readFWS s) := fun _ h => ⟨_, (readFWS_error h).1⟩

theorem skipFWS_perm (n : Nat) (s : Bytes) (hn : s.length < n) : OnlyPerm (skipFWS n s) :=
  fun _ h => ⟨_, (skipFWS_error hn h).1⟩

theorem valueLoop_perm (n : Nat) (buf val s : Bytes) (h : s.length < n) : OnlyPerm (valueLoop n buf val s) := by
  induction n generalizing buf val s with
  | zero => omega
  | succ n ih =>
    unfold valueLoop
    split
    · rename_i e he
      rw [(readFWS_error he).1]; exact .err _
    · rename_i ws r hw
      have hl := readFWS_length hw
      split
      · split
        · exact .ok _
        · split
          · exact .ok _
          · apply ih; simp at hl; omega
      · rename_i hne
        have : 0 < ws.length := by cases ws <;> simp_all
        apply ih; omega

theorem valueListLoop_perm (n : Nat) (s : Bytes) (h : s.length < n) : OnlyPerm (valueListLoop n s) := by
  induction n generalizing s with
  | zero => omega
  | succ n ih =>
    unfold valueListLoop
    have h1 := skipFWS_perm (s.length + 1) s (by omega)
    split
    · rename_i e he; intro e' h'; cases h'; exact h1 _ he
    · exact .ok _
    · rename_i b c r hs
      obtain ⟨f, hf, _, _⟩ := skipFWS_ok hs
      have h2 := valueLoop_perm ((c :: r).length + 1) [] [] (c :: r) (by omega)
      split
      · rename_i e he; intro e' h'; cases h'; exact h2 _ he
      · rename_i val rest hv
        split
        · exact .err _
        · split
          · exact .ok _
          · rename_i d rest'
            obtain ⟨post, h3, _, _, _⟩ := valueLoop_ok .nil hv
            have hl : rest'.length < n := by
              have := congrArg List.length h3
              have := congrArg List.length hf
              simp at *
              omega
            have h4 := ih rest' hl
            split
            · rename_i e he; intro e' h'; cases h'; exact h4 _ he
            · exact .ok _

theorem valueList_perm (s : Bytes) : OnlyPerm (valueList s) := valueListLoop_perm _ _ (by omega)

theorem qpLoop_perm (ts : Bool) (n : Nat) (s : Bytes) (h : s.length < n) : OnlyPerm (qpLoop ts n s) := by
  induction n generalizing s with
  | zero => omega
  | succ n ih =>
    have sub : ∀ (r : Bytes) (f : Bytes → Bytes), r.length < n → OnlyPerm (match qpLoop ts n r with
        | .error e => .error e
        | .ok o => .ok (f o) : Except Err Bytes) := by
      intro r f hr
      have := ih r hr
      cases hq : qpLoop ts n r with
      | error e => intro e' h'; cases h'; exact this _ hq
      | ok o => exact .ok _
    unfold qpLoop
    cases s with
    | nil => exact .ok _
    | cons c r =>
      simp only [List.length_cons] at h
      simp only
      split
      · exact sub r _ (by omega)
      · split
        · cases r with
          | nil => exact .err _
          | cons a r1 =>
            simp only
            split
            · cases r1 with
              | nil => exact .err _
              | cons b r2 =>
                simp only
                split
                · exact sub r2 _ (by simp at h; omega)
                · exact .err _
            · exact .err _
        · split
          · exact sub r _ (by omega)
          · split
            · rename_i e he
              rw [(readFWS_error he).1]; exact .err _
            · rename_i ws r' hw
              have hl := readFWS_length hw
              split
              · exact .err _
              · rename_i hne
                have : 0 < ws.length := by cases ws <;> simp_all
                apply ih; simp at hl; omega

theorem qpDecode_perm (s : Bytes) (ts : Bool) : OnlyPerm (qpDecode s ts) := qpLoop_perm _ _ _ (by omega)

theorem collapse_perm (n : Nat) (s : Bytes) (h : s.length < n) : OnlyPerm (collapse n s) := by
  induction n generalizing s with
  | zero => omega
  | succ n ih =>
    unfold collapse
    have h1 := skipFWS_perm (s.length + 1) s (by omega)
    split
    · rename_i e he; intro e' h'; cases h'; exact h1 _ he
    · exact .ok _
    · rename_i b c r hs
      obtain ⟨f, hf, _, _⟩ := skipFWS_ok hs
      have hl : r.length < n := by
        have := congrArg List.length hf
        simp at this; omega
      have h4 := ih r hl
      split
      · rename_i e he; intro e' h'; cases h'; exact h4 _ he
      · exact .ok _

theorem colonTrim_perm (input x : Bytes) : OnlyPerm (colonTrim input x) := by
  unfold colonTrim
  split
  · exact .err _
  · simp only
    split
    · split <;> exact .ok _
    · exact .ok _

theorem filterHeader_perm (mode : CanonMode) (s : Bytes) : OnlyPerm (filterHeader mode s) := by
  unfold filterHeader
  cases mode with
  | simple => exact .ok _
  | relaxed =>
    simp only
    split
    · exact .err _
    · rename_i k _
      have := collapse_perm ((lower (s.take k) ++ s.drop k).length + 1) (lower (s.take k) ++ s.drop k) (by omega)
      split
      · rename_i e he; intro e' h'; cases h'; exact this _ he
      · exact colonTrim_perm _ _

theorem readCRLF_perm (s : Bytes) : OnlyPerm (readCRLF s) := by
  unfold readCRLF
  split
  · exact .ok _
  · split
    · split
      · exact .err _
      · split
        · exact .ok _
        · exact .err _
    · exact .ok _

theorem readCRLF_length {s t r : Bytes} (h : readCRLF s = .ok (t, r)) : t.length + r.length = s.length := by
  unfold readCRLF at h
  split at h
  · cases h; rfl
  · split at h
    · split at h
      · cases h
      · split at h
        · cases h; simp; omega
        · cases h
    · cases h; simp

theorem readWSP_length (s : Bytes) : (readWSP s).1.length + (readWSP s).2.length = s.length := by
  unfold readWSP
  split
  · rfl
  · split <;> simp; omega

theorem ewSpace_ends (n : Nat) (ws s : Bytes) (h : s.length < n) : OnlyPerm (ewSpace n ws s) ∧
    ∀ w r, ewSpace n ws s = .ok (w, r) → r.length ≤ s.length := by
  induction n generalizing ws s with
  | zero => omega
  | succ n ih =>
    unfold ewSpace
    have h1 := readWSP_length s
    cases hr : readWSP s with
    | mk w r =>
      rw [hr] at h1
      simp only at h1 ⊢
      split
      · rename_i hne
        have : 0 < w.length := by cases w <;> simp_all
        obtain ⟨i1, i2⟩ := ih (ws ++ w) r (by omega)
        exact ⟨i1, fun w' r' h' => by have := i2 _ _ h'; omega⟩
      · have h2 := readCRLF_perm s
        cases hc : readCRLF s with
        | error e =>
          refine ⟨?_, ?_⟩
          · intro e' h'; cases h'; exact h2 _ hc
          · intro _ _ h'; cases h'
        | ok tr =>
          obtain ⟨t, r2⟩ := tr
          have hl := readCRLF_length hc
          simp only
          split
          · rename_i hne
            have : 0 < t.length := by cases t <;> simp_all
            obtain ⟨i1, i2⟩ := ih ws r2 (by omega)
            exact ⟨i1, fun w' r' h' => by have := i2 _ _ h'; omega⟩
          · exact ⟨.ok _, fun w' r' h' => by cases h'; exact Nat.le_refl _⟩

theorem untilQ_length (s : Bytes) : (untilQ s).1.length + (untilQ s).2.length = s.length := by
  induction s with
  | nil => rfl
  | cons c r ih =>
    unfold untilQ
    split
    · simp
    · simp; omega

theorem ewScan_length (s : Bytes) : (ewScan s).rest.length ≤ s.length := by
  unfold ewScan
  cases s with
  | nil => exact Nat.le_refl _
  | cons c0 s0 =>
    simp only
    split
    · exact Nat.le_refl _
    · have l1 := untilQ_length s0
      cases h1 : (untilQ s0).2 with
      | nil => simp
      | cons d1 s1 =>
        rw [h1] at l1
        have l2 := untilQ_length s1
        simp only
        cases h2 : (untilQ s1).2 with
        | nil => simp
        | cons d2 s2 =>
          rw [h2] at l2
          have l3 := untilQ_length s2
          simp only
          cases h3 : (untilQ s2).2 with
          | nil => simp
          | cons d3 s3 =>
            rw [h3] at l3
            simp only [List.length_cons] at *
            cases s3 with
            | nil => simp
            | cons c4 s4 =>
              simp only
              split
              · simp at *; omega
              · cases s4 with
                | nil => simp
                | cons c5 s5 =>
                  simp only
                  split <;> (simp at *; omega)

theorem ewLoop_perm (E : Env) (n : Nat) (ws s : Bytes) (h : s.length < n) : OnlyPerm (ewLoop E n ws s) := by
  induction n generalizing ws s with
  | zero => omega
  | succ n ih =>
    have sub : ∀ (r : Bytes) (f : Bytes → Bytes), r.length < n → OnlyPerm (match ewLoop E n [] r with
        | .error e => .error e
        | .ok o => .ok (f o) : Except Err Bytes) := by
      intro r f hr
      have := ih [] r hr
      cases hq : ewLoop E n [] r with
      | error e => intro e' h'; cases h'; exact this _ hq
      | ok o => exact .ok _
    unfold ewLoop
    obtain ⟨h1, h2⟩ := ewSpace_ends (s.length + 1) ws s (by omega)
    cases hs : ewSpace (s.length + 1) ws s with
    | error e => intro e' h'; cases h'; exact h1 _ hs
    | ok p =>
      obtain ⟨w, r⟩ := p
      have hl := h2 _ _ hs
      simp only
      cases r with
      | nil => exact .ok _
      | cons c r =>
        simp only [List.length_cons] at hl ⊢
        split
        · have := ewScan_length r
          exact sub _ _ (by omega)
        · exact sub _ _ (by omega)

theorem ewDecode_perm (E : Env) (s : Bytes) : OnlyPerm (ewDecode E s) := by
  unfold ewDecode
  have h1 := skipFWS_perm (s.length + 1) s (by omega)
  split
  · rename_i e he; intro e' h'; cases h'; exact h1 _ he
  · exact ewLoop_perm E _ _ _ (by omega)

end Dkim

import Verif.Proofs.Signing
import Verif.Props.TagList
import Verif.Props.Tokens
import Verif.Props.Base64
import Verif.Props.QuotedPrintable
/-!
# Proofs about `CreateSignature`: the text of one signature field
-/

namespace Dkim
open Spec

variable {E : Env}

/-- The white space of a fold in a generated field. -/
def Spec.foldWS : Bytes := b!"\r\n\t "

/-- Shape of the h= list without its first name. -/
theorem foldH_rest (line : Bytes) (names : List Bytes) :
    ∃ items : List Item, items.map Item.val = names ∧ (∀ i ∈ items, (i.pre = [] ∨ i.pre = foldWS) ∧ i.post = []) ∧
      (foldH false line names).1 ++ (foldH false line names).2 = line ++ items.flatMap (fun i => COLON :: i.text) := by
  induction names generalizing line with
  | nil => exact ⟨[], rfl, by simp, by simp [foldH]⟩
  | cons n ns ih =>
    unfold foldH
    simp only [Bool.false_eq_true, if_false]
    split
    · obtain ⟨items, h1, h2, h3⟩ := ih (b!"\t " ++ n)
      refine ⟨⟨foldWS, n, []⟩ :: items, by simp [h1], ?_, ?_⟩
      · intro i hi
        rcases List.mem_cons.1 hi with rfl | hi
        · exact ⟨.inr rfl, rfl⟩
        · exact h2 i hi
      · simp only [List.append_assoc] at h3 ⊢
        rw [h3]
        simp [Item.text, foldWS, CRLF]
    · obtain ⟨items, h1, h2, h3⟩ := ih (line ++ [COLON] ++ n)
      refine ⟨⟨[], n, []⟩ :: items, by simp [h1], ?_, ?_⟩
      · intro i hi
        rcases List.mem_cons.1 hi with rfl | hi
        · exact ⟨.inl rfl, rfl⟩
        · exact h2 i hi
      · rw [h3]
        simp [Item.text]

theorem joinColon_flatMap (x : Bytes) (xs : List Bytes) : joinColon (x :: xs) = x ++ xs.flatMap (COLON :: ·) := by
  induction xs generalizing x with
  | nil => simp [joinColon]
  | cons y ys ih => rw [joinColon, ih]; simp

/-- Shape of the h= list. -/
theorem foldH_first (line n : Bytes) (ns : List Bytes) :
    ∃ (pre : Bytes) (items : List Item), items.map Item.val = ns ∧
      (∀ i ∈ items, (i.pre = [] ∨ i.pre = foldWS) ∧ i.post = []) ∧ (pre = [] ∨ pre = foldWS) ∧
      (foldH true line (n :: ns)).1 ++ (foldH true line (n :: ns)).2 = line ++ pre ++ joinColon (n :: items.map Item.text) := by
  unfold foldH
  simp only [if_true, List.append_nil]
  split
  · obtain ⟨items, h1, h2, h3⟩ := foldH_rest (b!"\t " ++ n) ns
    refine ⟨foldWS, items, h1, h2, .inr rfl, ?_⟩
    rw [joinColon_flatMap]
    simp only [List.append_assoc] at h3 ⊢
    rw [h3]
    simp [foldWS, CRLF, List.flatMap_map]
  · obtain ⟨items, h1, h2, h3⟩ := foldH_rest (line ++ n) ns
    refine ⟨[], items, h1, h2, .inl rfl, ?_⟩
    rw [joinColon_flatMap, h3]
    simp [List.flatMap_map]

/-- The h= lines: no line feed inside, continuation lines start with a TAB, bounded length. -/
theorem foldH_lines (first : Bool) (line : Bytes) (names : List Bytes) (L : Nat) (hl : LF ∉ line)
    (hn : ∀ n ∈ names, LF ∉ n ∧ n.length ≤ L) (tail : Bytes) (ht : LF ∉ tail) (ht1 : tail.length = 1) :
    ∃ l ls, (foldH first line names).1 ++ (foldH first line names).2 ++ tail = joinLines (l :: ls) ∧
      (∃ x, l = line ++ x) ∧ (∀ y ∈ l :: ls, LF ∉ y ∧ y.length ≤ max 81 (max (line.length + 1) (L + 3))) ∧
      (∀ y ∈ ls, ∃ x, y = b!"\t " ++ x) := by
  induction names generalizing first line with
  | nil =>
    refine ⟨line ++ tail, [], by simp [foldH, joinLines], ⟨tail, rfl⟩, ?_, by simp⟩
    intro y hy
    simp only [List.mem_singleton] at hy
    subst hy
    refine ⟨by simp [hl, ht], ?_⟩
    simp only [List.length_append, ht1]; omega
  | cons n ns ih =>
    obtain ⟨hn1, hnL⟩ := hn n (by simp)
    have hn2 : ∀ m ∈ ns, LF ∉ m ∧ m.length ≤ L := fun m hm => hn m (by simp [hm])
    have hcol : ∀ b : Bool, LF ∉ (if b then [] else [COLON] : Bytes) ∧ (if b then [] else [COLON] : Bytes).length ≤ 1 := by
      intro b; cases b <;> decide
    obtain ⟨hc1, hc2⟩ := hcol first
    unfold foldH
    generalize (if first then [] else [COLON] : Bytes) = colon at *
    simp only
    split
    · obtain ⟨l, ls, h1, ⟨x, h2⟩, h3, h4⟩ := ih false (b!"\t " ++ n) (by simp [hn1]; decide) hn2
      refine ⟨line ++ colon, l :: ls, ?_, ⟨_, rfl⟩, ?_, ?_⟩
      · rw [joinLines, ← h1]; simp
      · intro y hy
        rcases List.mem_cons.1 hy with rfl | hy
        · refine ⟨by rw [List.mem_append, not_or]; exact ⟨hl, hc1⟩, ?_⟩
          rw [List.length_append]; omega
        · refine ⟨(h3 y hy).1, Nat.le_trans (h3 y hy).2 ?_⟩
          have : (b!"\t " ++ n).length = n.length + 2 := by simp
          rw [this]; omega
      · intro y hy
        rcases List.mem_cons.1 hy with rfl | hy
        · exact ⟨n ++ x, by rw [h2]; simp⟩
        · exact h4 y hy
    · rename_i hle
      obtain ⟨l, ls, h1, ⟨x, h2⟩, h3, h4⟩ := ih false (line ++ colon ++ n)
        (by simp only [List.mem_append, not_or]; exact ⟨⟨hl, hc1⟩, hn1⟩) hn2
      refine ⟨l, ls, h1, ⟨colon ++ n ++ x, by rw [h2]; simp⟩, ?_, h4⟩
      intro y hy
      refine ⟨(h3 y hy).1, Nat.le_trans (h3 y hy).2 ?_⟩
      simp only [List.length_append]
      omega

/-- The b= value: cut into lines. -/
theorem foldB_spec (n off : Nat) (split : Bytes) (hn : split.length < n) (hoff : off < 80) :
    ∃ c cs, foldB n off split = .ok (joinLines (c :: cs.map (b!"\t " ++ ·))) ∧ (c :: cs).flatten = split ∧
      c.length ≤ 80 - off ∧ (∀ x ∈ cs, x ≠ [] ∧ x.length ≤ 78) ∧ (split ≠ [] → c ≠ []) := by
  induction n generalizing off split with
  | zero => omega
  | succ n ih =>
    unfold foldB
    cases hs : split with
    | nil => exact ⟨[], [], by simp [joinLines], by simp, by simp, by simp, by simp⟩
    | cons a r =>
      simp only [List.isEmpty_cons, Bool.false_eq_true, if_false]
      rw [← hs]
      have hpos : 0 < split.length := by rw [hs]; simp
      obtain ⟨c, cs, h1, h2, h3, h4, h5⟩ := ih 2 (split.drop (80 - off)) (by rw [List.length_drop]; omega) (by omega)
      rw [h1]
      simp only
      have htk : split.take (80 - off) ≠ [] := by
        intro h
        have := congrArg List.length h
        simp only [List.length_take, List.length_nil] at this
        omega
      by_cases hr : split.drop (80 - off) = []
      · rw [hr] at h2
        have hcn : c = [] ∧ cs = [] := by
          simp only [List.flatten_cons, List.append_eq_nil_iff] at h2
          refine ⟨h2.1, ?_⟩
          cases cs with
          | nil => rfl
          | cons x xs =>
            have := (h4 x (by simp)).1
            simp at h2; exact absurd h2.2.1 this
        obtain ⟨rfl, rfl⟩ := hcn
        refine ⟨split.take (80 - off), [], by simp [hr, joinLines], ?_, by rw [List.length_take]; omega, by simp, fun _ => htk⟩
        have := List.take_append_drop (80 - off) split
        rw [hr] at this; simpa using this
      · refine ⟨split.take (80 - off), c :: cs, ?_, ?_, by rw [List.length_take]; omega, ?_, fun _ => htk⟩
        · rw [if_neg (by rw [List.isEmpty_iff]; exact hr)]
          simp only [List.map_cons, joinLines]
          cases hcs : cs.map (b!"\t " ++ ·) with
          | nil => simp [joinLines, CRLF]
          | cons y ys => simp [joinLines, CRLF]
        · simp only [List.flatten_cons] at h2 ⊢
          rw [h2, List.take_append_drop]
        · intro x hx
          rcases List.mem_cons.1 hx with rfl | hx
          · exact ⟨h5 hr, by omega⟩
          · exact h4 x hx

/-- The parts of one generated field. -/
theorem oneSignature_ok {o : Options E} {s : SigOpts E} {now : Int} {hashed bh t : Bytes} {names : List Bytes}
    (h : oneSignature E o s now hashed names bh = .ok t) :
    ∃ times text t2 sgn c cs, sigTimes o now = .ok times ∧
      text = sigPrefix o ++ times ++ CRLF ++ sigDomainLine o s ++ sigHLines names ++
        b!"\tbh=" ++ b64Encode bh ++ b!";\r\n" ++ b!"\tb=" ∧
      filterHeader o.canonHead text = .ok t2 ∧
      signDigest E s o.digest (E.hash o.digest (hashed ++ t2)) = .ok sgn ∧
      (c :: cs).flatten = b64Encode sgn ∧ c.length ≤ 77 ∧ (∀ x ∈ cs, x ≠ [] ∧ x.length ≤ 78) ∧
      (b64Encode sgn ≠ [] → c ≠ []) ∧
      t = text ++ joinLines (c :: cs.map (b!"\t " ++ ·)) := by
  unfold oneSignature at h
  cases h1 : sigHeaderText o s now names bh with
  | error e => rw [h1] at h; cases h
  | ok text =>
    rw [h1] at h
    simp only at h
    unfold sigHeaderText at h1
    cases h0 : sigTimes o now with
    | error e => rw [h0] at h1; cases h1
    | ok times =>
      rw [h0] at h1
      simp only [Except.ok.injEq] at h1
      cases h2 : filterHeader o.canonHead text with
      | error e => rw [h2] at h; cases h
      | ok t2 =>
        rw [h2] at h
        simp only at h
        cases h3 : signDigest E s o.digest (E.hash o.digest (hashed ++ t2)) with
        | error e => rw [h3] at h; cases h
        | ok sgn =>
          rw [h3] at h
          simp only at h
          obtain ⟨c, cs, k1, k2, k3, k4, k5⟩ := foldB_spec ((b64Encode sgn).length + 1) 3 (b64Encode sgn) (by omega) (by omega)
          rw [k1] at h
          simp only [Except.ok.injEq] at h
          exact ⟨times, text, t2, sgn, c, cs, rfl, h1.symm, h2, h3, k2, k3, k4, k5, h.symm⟩

end Dkim

import Verif.Proofs.Body
/-! The read loop of `CanonicalizationBody`. -/

namespace Dkim
open Spec

theorem emit_flatten (a : BodyAcc) (limit : Bool) (buf : Bytes) :
    (a.emit limit buf).calls.flatten = a.calls.flatten ++ cap limit a.size buf := by
  cases limit
  · simp [BodyAcc.emit, cap]
  · simp only [BodyAcc.emit, cap, if_true]
    rw [List.flatten_append]
    simp only [List.flatten_cons, List.flatten_nil, List.append_nil]
    congr 1
    rcases Nat.le_total buf.length a.size with h | h
    · rw [Nat.min_eq_left h, List.take_length, List.take_of_length_le h]
    · rw [Nat.min_eq_right h]

theorem emit_size (a : BodyAcc) (limit : Bool) (buf : Bytes) :
    (a.emit limit buf).size = if limit then a.size - buf.length else a.size := by
  cases limit <;> simp [BodyAcc.emit]
  omega

theorem emit_empty (a : BodyAcc) (limit : Bool) (buf : Bytes) :
    (a.emit limit buf).empty = a.empty := by
  cases limit <;> simp [BodyAcc.emit]

theorem emit_st (a : BodyAcc) (limit : Bool) (buf : Bytes) : (a.emit limit buf).st = a.st := by
  cases limit <;> simp [BodyAcc.emit]

theorem cap_append (limit : Bool) (n : Nat) (a b : Bytes) :
    cap limit n (a ++ b) = cap limit n a ++ cap limit (if limit then n - a.length else n) b := by
  cases limit <;> simp [cap, List.take_append]

theorem bodyLoop_spec (blk : Nat) (hblk : 0 < blk) (mode : CanonMode) (limit : Bool) (fuel : Nat)
    (s : IStream) (a : BodyAcc) (hg : s.good = true) (hpos : s.pos ≤ s.data.length)
    (hf : (s.data.drop s.pos).length + 2 ≤ fuel) :
    ∃ s' a', bodyLoop blk mode limit fuel s a = .ok (s', a') ∧
      s'.data = s.data ∧
      a'.calls.flatten = a.calls.flatten ++
        cap limit a.size (bodyBlock mode a.st (s.data.drop s.pos)).2 ∧
      a'.size = (if limit then a.size - (bodyBlock mode a.st (s.data.drop s.pos)).2.length else a.size) ∧
      (a'.empty = false → a.empty = false ∨ (bodyBlock mode a.st (s.data.drop s.pos)).2 ≠ []) ∧
      (a'.empty = true → a.empty = true ∧ ((bodyBlock mode a.st (s.data.drop s.pos)).2 = [] ∨
        (limit = true ∧ a.size = 0))) := by
  induction fuel generalizing s a with
  | zero => omega
  | succ n ih =>
    rw [bodyLoop]
    simp only [hg, Bool.not_true, Bool.false_eq_true, if_false]
    by_cases hz : limit = true ∧ a.size = 0
    · rw [if_pos hz]
      refine ⟨s, a, rfl, rfl, ?_, ?_, ?_, ?_⟩
      · simp [cap, hz]
      · simp [hz]
      · intro h; exact Or.inl h
      · intro h; exact ⟨h, Or.inr hz⟩
    · rw [if_neg hz]
      simp only [IStream.read, hg, Bool.not_true, Bool.false_eq_true, if_false]
      generalize hrest : s.data.drop s.pos = rest at hf ⊢
      by_cases hle : blk ≤ rest.length
      · simp only [hle, if_true]
        obtain ⟨s', a', h1, h2, h3, h4, h5, h6⟩ := ih
          { s with pos := s.pos + blk }
          { ((({ a with st := (bodyBlock mode a.st (rest.take blk)).1 } : BodyAcc).emit limit
              (bodyBlock mode a.st (rest.take blk)).2)) with
            empty := (({ a with st := (bodyBlock mode a.st (rest.take blk)).1 } : BodyAcc).emit limit
              (bodyBlock mode a.st (rest.take blk)).2).empty && (bodyBlock mode a.st (rest.take blk)).2.isEmpty }
          (by simpa [IStream.good] using hg)
          (by
            have : rest.length = s.data.length - s.pos := by rw [← hrest]; simp
            simp only; omega)
          (by
            have : rest.length = s.data.length - s.pos := by rw [← hrest]; simp
            simp only [List.length_drop]; omega)
        have hd : s.data.drop (s.pos + blk) = rest.drop blk := by
          rw [← hrest, List.drop_drop]
        have hsplit : bodyBlock mode a.st rest =
            ((bodyBlock mode (bodyBlock mode a.st (rest.take blk)).1 (rest.drop blk)).1,
              (bodyBlock mode a.st (rest.take blk)).2 ++
              (bodyBlock mode (bodyBlock mode a.st (rest.take blk)).1 (rest.drop blk)).2) := by
          conv => lhs; rw [← List.take_append_drop blk rest]
          rw [bodyBlock_append]
        refine ⟨s', a', h1, h2, ?_, ?_, ?_, ?_⟩
        · rw [h3]
          simp only [emit_flatten, emit_size, emit_st, hd, hsplit, cap_append, List.append_assoc]
        · rw [h4]
          simp only [emit_size, emit_st, hd, hsplit]
          cases limit <;> simp
          omega
        · intro h
          rcases h5 h with h | h
          · simp only [emit_empty, Bool.and_eq_false_iff] at h
            rcases h with h | h
            · exact Or.inl h
            · right
              rw [hsplit]
              intro h'
              simp only [List.append_eq_nil_iff] at h'
              simp [h'.1] at h
          · right
            rw [hsplit]
            intro h'
            simp only [List.append_eq_nil_iff] at h'
            simp only [emit_st, hd] at h
            exact h h'.2
        · intro h
          obtain ⟨h7, h8⟩ := h6 h
          simp only [emit_empty, Bool.and_eq_true, List.isEmpty_iff] at h7
          refine ⟨h7.1, ?_⟩
          simp only [emit_size, emit_st, hd] at h8
          rw [hsplit]
          rcases h8 with h8 | h8
          · left; simp [h7.2, h8]
          · right
            refine ⟨h8.1, ?_⟩
            simpa [h8.1, h7.2] using h8.2
      · simp only [hle, if_false]
        cases n with
        | zero => omega
        | succ m =>
          rw [bodyLoop]
          have hng : ({ s with pos := s.pos + rest.length, eof := true, fail := true } : IStream).good = false := by
            simp [IStream.good]
          simp only [hng, Bool.not_false, if_true]
          refine ⟨_, _, rfl, rfl, ?_, ?_, ?_, ?_⟩
          · simp only [emit_flatten]
          · simp only [emit_size]
          · simp only [emit_empty, Bool.and_eq_false_iff]
            rintro (h | h)
            · exact Or.inl h
            · right; intro h'; simp [h'] at h
          · simp only [emit_empty, Bool.and_eq_true, List.isEmpty_iff]
            rintro ⟨h, h'⟩
            exact ⟨h, Or.inl h'⟩

theorem body_finish (mode : CanonMode) (limit : Bool) (n : Nat) (body : Bytes) (a' : BodyAcc)
    (h4 : a'.calls.flatten = cap limit n (bodyBlock mode {} body).2)
    (h5 : a'.size = (if limit then n - (bodyBlock mode {} body).2.length else n))
    (h6 : a'.empty = false → (bodyBlock mode {} body).2 ≠ [])
    (h7 : a'.empty = true → ((bodyBlock mode {} body).2 = [] ∨ (limit = true ∧ n = 0))) :
    (if a'.empty = false ∨ mode ≠ .relaxed then a'.emit limit CRLF else a').calls.flatten =
      cap limit n (machineBody mode body) ∧
    (!(limit && decide
      ((if a'.empty = false ∨ mode ≠ .relaxed then a'.emit limit CRLF else a').size > 0))) =
      (!limit || decide (n ≤ (machineBody mode body).length)) := by
  unfold machineBody
  generalize (bodyBlock mode {} body).2 = full at *
  by_cases hc : a'.empty = false ∨ mode ≠ .relaxed
  · have hm : ¬ (full.isEmpty = true ∧ mode = .relaxed) := by
      rintro ⟨h, h'⟩
      rcases hc with hc | hc
      · exact h6 hc (by simpa using h)
      · exact hc h'
    simp only [hc, if_true, hm, if_false, emit_flatten, emit_size, h4, h5]
    constructor
    · rw [cap_append]
    · cases limit <;> simp
      rw [← decide_not, decide_eq_decide]
      omega
  · have he : a'.empty = true := by
      cases h : a'.empty with
      | false => exact absurd (Or.inl h) hc
      | true => rfl
    have hr : mode = .relaxed := by
      cases mode with
      | simple => exact absurd (Or.inr (by simp)) hc
      | relaxed => rfl
    simp only [hc, if_false, h4, h5]
    rcases h7 he with h | ⟨h, h'⟩
    · subst h
      simp only [List.isEmpty_nil, hr, true_and, if_true]
      cases limit <;> simp
      cases n <;> simp
    · subst h h'
      simp [cap]

theorem canonBodyBlk_spec (blk : Nat) (hblk : 0 < blk) (s : IStream) (mode : CanonMode) (off : Int)
    (limit : Bool) (n : Nat) (hoff : off = -1 ∨ (0 ≤ off ∧ off ≤ s.data.length)) :
    ∃ calls s', canonBodyBlk blk s mode off limit n =
        .ok ((calls, !limit || decide (n ≤ (Spec.canonBody mode (bodyPart s.data off)).length)), s') ∧
      s'.data = s.data ∧
      calls.flatten = cap limit n (Spec.canonBody mode (bodyPart s.data off)) := by
  rw [← machineBody_eq]
  rcases hoff with hoff | ⟨h0, h1⟩
  · subst hoff
    have := body_finish mode limit n [] { size := n }
      (by cases limit <;> simp [bodyBlock, cap]) (by cases limit <;> simp [bodyBlock])
      (by simp) (by simp [bodyBlock])
    have hb : bodyPart s.data (-1) = [] := rfl
    rw [hb]
    exact ⟨_, _, by rw [← this.2]; rfl, rfl, this.1⟩
  · have hne : off ≠ -1 := by omega
    have hs : s.clear.seekg off = { data := s.data, pos := off.toNat, eof := false, fail := false } := by
      simp [IStream.seekg, IStream.clear, h0, h1]
    obtain ⟨s', a', h2, h3, h4, h5, h6, h7⟩ := bodyLoop_spec blk hblk mode limit (s.data.length + 2)
      { data := s.data, pos := off.toNat, eof := false, fail := false }
      { size := n } (by rfl) (by simp; omega) (by simp)
    have := body_finish mode limit n (s.data.drop off.toNat) a' (by simpa using h4) (by simpa using h5)
      (by simpa using h6) (by simpa using h7)
    simp only [canonBodyBlk, bodyPart, hne, ne_eq, not_false_eq_true, if_true, hs, h2, if_false]
    exact ⟨_, _, by rw [← this.2], h3, this.1⟩

end Dkim

import Verif.Proofs.SigTags
/-!
# Proofs about `CreateSignature`: the lines of one signature field
-/

namespace Dkim
open Spec

variable {E : Env}

/-- A line of a folded field after the first: starts with a TAB and contains no line feed. -/
def Spec.TabLine (l : Bytes) : Prop := LF ∉ l ∧ ∃ x, l = TAB :: x

theorem val_not_LF {x : Bytes} (h : ∀ c ∈ x, IsValByte c) : LF ∉ x := by
  intro hc
  have := h _ hc
  revert this; decide

theorem fmtLu_no_LF (v : Int) : LF ∉ fmtLu v := val_not_LF (fun c hc => digit_val ((fmtLu_digits v).2 c hc))

theorem joinLines_append {a b : List Bytes} (ha : a ≠ []) (hb : b ≠ []) :
    joinLines (a ++ b) = joinLines a ++ CRLF ++ joinLines b := by
  induction a with
  | nil => exact absurd rfl ha
  | cons x a ih =>
    cases a with
    | nil =>
      rw [List.cons_append, List.nil_append, joinLines_cons_ne x hb]; rfl
    | cons y a =>
      rw [List.cons_append, joinLines_cons_ne x (by simp), ih (by simp), joinLines_cons_ne x (by simp)]
      simp

theorem sigTimes_no_LF {o : Options E} {now : Int} {times : Bytes} (h : sigTimes o now = .ok times) : LF ∉ times := by
  rw [(sigTimes_eq h).1]
  have h1 := fmtLu_no_LF (sigTimestamp o now)
  have h2 := fmtLu_no_LF (expOf o now)
  simp only [List.mem_append, not_or]
  constructor
  · split
    · simp only [List.mem_append, not_or]; exact ⟨⟨by decide, h1⟩, by decide⟩
    · simp
  · split
    · simp only [List.mem_append, not_or]; exact ⟨⟨by decide, h2⟩, by decide⟩
    · simp

theorem sigPrefix_no_LF (o : Options E) : LF ∉ sigPrefix o := by
  have h1 := fmtLu_no_LF o.arcInstance
  have h2 := val_not_LF (algText_val o.first.alg o.digest)
  have h3 : ∀ m : CanonMode, LF ∉ m.text := by intro m; cases m <;> decide
  unfold sigPrefix
  simp only [List.mem_append, not_or]
  refine ⟨⟨⟨⟨⟨⟨?_, h2⟩, by decide⟩, h3 _⟩, by decide⟩, h3 _⟩, by decide⟩
  split
  · simp only [List.mem_append, not_or]; exact ⟨⟨by decide, h1⟩, by decide⟩
  · decide

theorem sigPrefix_head (o : Options E) : ∃ x, sigPrefix o = sigFieldName o ++ COLON :: x := by
  unfold sigPrefix sigFieldName
  split
  · exact ⟨b!" i=" ++ fmtLu o.arcInstance ++ b!"; a=" ++ algText o.first.alg o.digest ++ b!"; c=" ++ o.canonHead.text ++
      b!"/" ++ o.canonBody.text ++ b!";", by simp [COLON]⟩
  · exact ⟨b!" v=1; a=" ++ algText o.first.alg o.digest ++ b!"; c=" ++ o.canonHead.text ++
      b!"/" ++ o.canonBody.text ++ b!";", by simp [COLON]⟩

/-- The lines of one generated field. -/
theorem oneSignature_lines {o : Options E} {s : SigOpts E} {now : Int} {hashed bh t : Bytes} {names : List Bytes} (L : Nat)
    (h : oneSignature E o s now hashed names bh = .ok t) (hn : ∀ n ∈ names, LF ∉ n ∧ n.length ≤ L)
    (hd : LF ∉ s.domain) (hs : LF ∉ s.selector) :
    ∃ (x0 x1 x2 x3 x4 : Bytes) (hls bls : List Bytes),
      t = joinLines ([sigFieldName o ++ COLON :: x0, b!"\td=" ++ x1] ++ ((b!"\th=" ++ x2) :: hls) ++ [b!"\tbh=" ++ x3] ++
        ((b!"\tb=" ++ x4) :: bls)) ∧
      (∀ x ∈ [x0, x1, x3], LF ∉ x) ∧
      (∀ l ∈ (b!"\th=" ++ x2) :: hls, TabLine l ∧ l.length ≤ max 81 (L + 3)) ∧
      (∀ l ∈ (b!"\tb=" ++ x4) :: bls, TabLine l ∧ l.length ≤ 80) := by
  obtain ⟨times, text, t2, sgn, c, cs, h1, h2, h3, h4, h5, h6, h7, h8, h9⟩ := oneSignature_ok h
  obtain ⟨p, hp⟩ := sigPrefix_head o
  obtain ⟨l, ls, g1, ⟨x2, g2⟩, g3, g4⟩ := foldH_lines true b!"\th=" names L (by decide) hn b!";" (by decide) rfl
  have hb : ∀ y ∈ c :: cs, LF ∉ y := by
    intro y hy
    apply val_not_LF
    intro b hb
    exact b64_val (x := sgn) (by rw [← h5]; exact List.mem_flatten.2 ⟨y, hy, hb⟩)
  obtain ⟨dl, hdl, hdl2⟩ : ∃ dl, sigDomainLine o s = b!"\td=" ++ dl ++ CRLF ∧ LF ∉ dl := by
    refine ⟨s.domain ++ b!"; s=" ++ s.selector ++
      (if o.identity.isEmpty then [] else b!"; i=" ++ qpEncode o.identity) ++
      (if o.bodySignLength then b!"; l=" ++ fmtLu o.bodyLength else []) ++ b!";", ?_, ?_⟩
    · unfold sigDomainLine
      rw [qpEncode_cstr]
      simp [CRLF, CR, LF]
    · have k1 : LF ∉ qpEncode o.identity := val_not_LF (fun c hc => C17_safe_bytes _ c hc)
      have k2 := fmtLu_no_LF o.bodyLength
      simp only [List.mem_append, not_or]
      refine ⟨⟨⟨⟨⟨hd, by decide⟩, hs⟩, ?_⟩, ?_⟩, by decide⟩
      · split
        · simp
        · rw [List.mem_append, not_or]; exact ⟨by decide, k1⟩
      · split
        · rw [List.mem_append, not_or]; exact ⟨by decide, k2⟩
        · simp
  refine ⟨p ++ times, dl, x2, b64Encode bh ++ b!";", c, ls, cs.map (b!"\t " ++ ·), ?_, ?_, ?_, ?_⟩
  · have e1 : sigHLines names = joinLines (l :: ls) ++ CRLF := by
      unfold sigHLines
      rw [← g1]; simp [CRLF, CR, LF]
    rw [joinLines_append (by simp) (by simp), joinLines_append (by simp) (by simp), joinLines_append (by simp) (by simp),
      ← g2, h9, h2, e1, hp, hdl]
    have e2 : joinLines ((b!"\tb=" ++ c) :: cs.map (b!"\t " ++ ·)) = b!"\tb=" ++ joinLines (c :: cs.map (b!"\t " ++ ·)) := by
      cases cs with
      | nil => simp [joinLines]
      | cons y ys => simp [joinLines]
    rw [e2]
    simp [joinLines, CRLF, CR, LF]
  · intro x hx
    have hb2 : LF ∉ b64Encode bh := val_not_LF (fun c hc => b64_val hc)
    simp only [List.mem_cons, List.not_mem_nil, or_false] at hx
    rcases hx with rfl | rfl | rfl
    · have := sigPrefix_no_LF o
      rw [hp] at this
      simp only [List.mem_append, List.mem_cons, not_or] at this ⊢
      exact ⟨this.2.2, sigTimes_no_LF h1⟩
    · exact hdl2
    · rw [List.mem_append, not_or]; exact ⟨hb2, by decide⟩
  · intro y hy
    rw [← g2] at hy
    refine ⟨⟨(g3 y hy).1, ?_⟩, ?_⟩
    · rcases List.mem_cons.1 hy with rfl | hy
      · exact ⟨_, g2⟩
      · obtain ⟨x, hx⟩ := g4 y hy; exact ⟨_, hx⟩
    · have := (g3 y hy).2
      simp only [List.length_cons, List.length_nil] at this
      omega
  · intro y hy
    rcases List.mem_cons.1 hy with rfl | hy
    · refine ⟨⟨?_, ⟨_, rfl⟩⟩, ?_⟩
      · rw [List.mem_append, not_or]; exact ⟨by decide, hb c (by simp)⟩
      · simp only [List.length_append, List.length_cons, List.length_nil]; omega
    · obtain ⟨z, hz, rfl⟩ := List.mem_map.1 hy
      refine ⟨⟨?_, ⟨_, rfl⟩⟩, ?_⟩
      · rw [List.mem_append, not_or]; exact ⟨by decide, hb z (by simp [hz])⟩
      · have := (h7 z hz).2
        simp only [List.length_append, List.length_cons, List.length_nil]; omega

end Dkim

import Verif.Proofs.BodyEquiv
/-!
# Properties C01–C05: body canonicalization

`Dkim.canonBodyBlk`/`Dkim.canonBody` is the model of `CanonicalizationBody`; `Spec.canonBody` is the
specification in `Verif/Spec/Body.lean`.
-/

namespace Dkim
open Spec

/-- The offsets the message parser can hand over: -1 (no body) or a position in the message. -/
def ValidOffset (s : IStream) (off : Int) : Prop := off = -1 ∨ (0 ≤ off ∧ off ≤ s.data.length)

/-- C01: without a limit, for every stream (whatever its position and error flags), mode and
offset, the call succeeds and the callback receives, in pieces, exactly the canonical body. -/
theorem C01_body_canonical (s : IStream) (mode : CanonMode) (off : Int) (n : Nat)
    (hoff : ValidOffset s off) :
    ∃ calls s', Dkim.canonBody s mode off false n = .ok ((calls, true), s') ∧
      calls.flatten = Spec.canonBody mode (bodyPart s.data off) := by
  obtain ⟨calls, s', h1, _, h2⟩ := canonBodyBlk_spec 8096 (by decide) s mode off false n hoff
  exact ⟨calls, s', by simpa [Dkim.canonBody] using h1, by simpa [cap] using h2⟩

example : ValidOffset { data := b!"A: b\r\n\r\nbody  text \r\n\r\n", pos := 3, eof := true } 8 := by
  unfold ValidOffset; decide
example : Spec.canonBody .relaxed (bodyPart b!"A: b\r\n\r\nbody  text \r\n\r\n" 8) = b!"body text\r\n" := by
  decide
example : Spec.canonBody .simple (bodyPart b!"A: b\r\n\r\nbody  text \r\n\r\n" 8) = b!"body  text \r\n" := by
  decide

/-- The message stream itself is not altered (only its position and flags). -/
theorem C01_stream_unchanged (s : IStream) (mode : CanonMode) (off : Int) (limit : Bool) (n : Nat)
    (hoff : ValidOffset s off) :
    ∃ r s', Dkim.canonBody s mode off limit n = .ok (r, s') ∧ s'.data = s.data := by
  obtain ⟨calls, s', h1, h3, _⟩ := canonBodyBlk_spec 8096 (by decide) s mode off limit n hoff
  exact ⟨_, s', h1, h3⟩

/-- C02: block sizes are unobservable: bytes delivered and return value agree for any two positive
block sizes, with or without a limit. -/
theorem C02_block_independent (blk blk' : Nat) (h : 0 < blk) (h' : 0 < blk') (s : IStream)
    (mode : CanonMode) (off : Int) (limit : Bool) (n : Nat) (hoff : ValidOffset s off) :
    ∃ calls calls' ret s1 s1', canonBodyBlk blk s mode off limit n = .ok ((calls, ret), s1) ∧
      canonBodyBlk blk' s mode off limit n = .ok ((calls', ret), s1') ∧
      calls.flatten = calls'.flatten := by
  obtain ⟨c1, s1, h1, _, h2⟩ := canonBodyBlk_spec blk h s mode off limit n hoff
  obtain ⟨c2, s2, h3, _, h4⟩ := canonBodyBlk_spec blk' h' s mode off limit n hoff
  exact ⟨c1, c2, _, s1, s2, h1, h3, by rw [h2, h4]⟩

/-- The code's block size is one of these. -/
example : Dkim.canonBody = canonBodyBlk 8096 ∧ 0 < 8096 := ⟨rfl, by decide⟩

/-- C03: with limit `n` exactly the first `n` bytes of the canonical body are delivered, and the
call reports success iff the canonical body has at least `n` bytes. -/
theorem C03_limit_is_prefix (s : IStream) (mode : CanonMode) (off : Int) (n : Nat)
    (hoff : ValidOffset s off) :
    ∃ calls ret s', Dkim.canonBody s mode off true n = .ok ((calls, ret), s') ∧
      calls.flatten = (Spec.canonBody mode (bodyPart s.data off)).take n ∧
      (ret = true ↔ n ≤ (Spec.canonBody mode (bodyPart s.data off)).length) := by
  obtain ⟨calls, s', h1, _, h2⟩ := canonBodyBlk_spec 8096 (by decide) s mode off true n hoff
  exact ⟨calls, _, s', h1, by simpa [cap] using h2, by simp⟩

/-- Both outcomes of C03 occur. -/
example : (5 : Nat) ≤ (Spec.canonBody .simple b!"abc").length ∧
    ¬ (6 : Nat) ≤ (Spec.canonBody .simple b!"abc").length := by decide

/-- What a caller observes of `CanonicalizationBody` over a whole string. -/
def bodyBytes (mode : CanonMode) (body : Bytes) (limit : Bool) (n : Nat) : Except Err (Bytes × Bool) :=
  (Dkim.canonBody { data := body } mode 0 limit n).map (fun r => (r.1.1.flatten, r.1.2))

theorem bodyBytes_eq (mode : CanonMode) (body : Bytes) (limit : Bool) (n : Nat) :
    bodyBytes mode body limit n = .ok (cap limit n (Spec.canonBody mode body),
      !limit || decide (n ≤ (Spec.canonBody mode body).length)) := by
  obtain ⟨calls, s', h1, _, h2⟩ := canonBodyBlk_spec 8096 (by decide) { data := body } mode 0 limit n
    (Or.inr ⟨by decide, by simp⟩)
  have hb : bodyPart body 0 = body := by simp [bodyPart]
  simp only [hb] at h1 h2
  simp only [bodyBytes, Dkim.canonBody, h1, Except.map, h2]

/-- C04: two bodies are canonicalized to the same bytes exactly when they differ only by
immaterial edits (see `Spec.BodyEquiv`). -/
theorem C04_body_equiv_iff (mode : CanonMode) (a b : Bytes) :
    BodyEquiv mode a b ↔ bodyBytes mode a false 0 = bodyBytes mode b false 0 := by
  rw [equiv_iff, bodyBytes_eq, bodyBytes_eq]
  simp [cap]

/-- C04, as used with a limit: immaterial edits change neither the bytes nor the verdict. -/
theorem C04_body_insensitive (mode : CanonMode) (a b : Bytes) (h : BodyEquiv mode a b) (limit : Bool)
    (n : Nat) : bodyBytes mode a limit n = bodyBytes mode b limit n := by
  rw [bodyBytes_eq, bodyBytes_eq, (equiv_iff mode a b).1 h]

/-- C04, line-ending style: converting every LF to CRLF. -/
theorem C04_lf_to_crlf (mode : CanonMode) (a : Bytes) (limit : Bool) (n : Nat) :
    bodyBytes mode (a.flatMap (fun c => if c = LF then CRLF else [c])) limit n =
      bodyBytes mode a limit n := by
  apply C04_body_insensitive
  suffices h : ∀ p, BodyEquiv mode (p ++ a.flatMap (fun c => if c = LF then CRLF else [c])) (p ++ a) from
    h []
  induction a with
  | nil => intro p; exact .refl _
  | cons c r ih =>
    intro p
    have h1 := ih (p ++ if c = LF then CRLF else [c])
    simp only [List.append_assoc] at h1
    rw [List.flatMap_cons]
    refine h1.trans ?_
    by_cases hc : c = LF
    · subst hc
      simpa using BodyEquiv.cr (mode := mode) p (LF :: r)
    · simpa [hc] using BodyEquiv.refl (mode := mode) (p ++ c :: r)

example : BodyEquiv .relaxed b!"a \t b  \r\nc\r\n\r\n" b!"a b\nc" := by
  rw [equiv_iff]; decide
example : ¬ BodyEquiv .simple b!"a \t b  \r\nc\r\n\r\n" b!"a b\nc" := by
  rw [equiv_iff]; decide
example : ¬ BodyEquiv .relaxed b!"ab" b!"a b" := by
  rw [equiv_iff]; decide

/-- C05: canonicalizing the canonical body again changes nothing. -/
theorem C05_body_idempotent (mode : CanonMode) (body out : Bytes) (ret : Bool)
    (h : bodyBytes mode body false 0 = .ok (out, ret)) :
    bodyBytes mode out false 0 = .ok (out, ret) := by
  have e : out = Spec.canonBody mode body := by
    rw [bodyBytes_eq] at h
    injection h with h
    injection h with h _
    simpa [cap] using h.symm
  have := C04_body_insensitive mode body out (by
    rw [e, ← machineBody_eq]; exact equiv_machineBody mode body) false 0
  rw [← this, h]

/-- C05: relaxed after simple is relaxed. -/
theorem C05_relaxed_after_simple (body out : Bytes) (ret : Bool)
    (h : bodyBytes .simple body false 0 = .ok (out, ret)) :
    bodyBytes .relaxed out false 0 = bodyBytes .relaxed body false 0 := by
  have e : out = Spec.canonBody .simple body := by
    rw [bodyBytes_eq] at h
    injection h with h
    injection h with h _
    simpa [cap] using h.symm
  refine (C04_body_insensitive .relaxed body out ?_ false 0).symm
  rw [e, ← machineBody_eq]
  exact equiv_mono (equiv_machineBody .simple body)

example : bodyBytes .simple b!"a  b \n\n" false 0 = .ok (b!"a  b \r\n", true) := by decide
example : bodyBytes .relaxed b!"a  b \n\n" false 0 = .ok (b!"a b\r\n", true) := by decide

end Dkim

import Verif.Proofs.StringAddress
import Verif.Proofs.StringWords
import Verif.Proofs.StringTags
import Verif.Spec.Streams
import Verif.Props.Tokens
/-!
# C77, C78: parsing through `std::stringstream`

C77: look-ahead, put-back and the end-of-file bits never change what a parser returns.
C78: the byte and the position in a parser's error text are those of the offending place.
-/

namespace Dkim

open Spec SS

theorem usable_rep {s : SS} (h : StreamOk s) : Rep false s.data s (unread s) := by
  refine ⟨rfl, rfl, h.2.1, h.1, ?_, by simp⟩
  intro hne
  refine h.2.2 ?_
  refine Classical.byContradiction fun hn => hne ?_
  exact List.drop_eq_nil_of_le (by omega)

theorem rep_usable {pk : Bool} {input rest : Bytes} {s : SS} (h : Rep pk input s rest) :
    StreamOk s ∧ s.data = input ∧ unread s = rest := by
  have hd := h.data
  refine ⟨⟨h.bad, by rw [hd]; exact h.le, fun hlt => h.live ?_⟩, hd, by unfold unread; rw [hd, h.drop]⟩
  intro hr
  rw [hr] at h
  have := h.atEnd
  rw [hd] at hlt
  omega

/-- C77: `ReadWhiteSpace` on any usable stream: the bytes it returns are exactly the bytes the stream
advances over, in each mode those of `Reads`; nothing in the buffer changes, and the stream is still
usable, also after bytes were put back. The only exception is CR without LF, which names the byte
after the CR. -/
theorem C77_white_space (lr : Bool) (ty : WSType) (s : SS) (h : StreamOk s) :
    match readWhiteSpace lr ty s with
    | .ok w s' => StreamOk s' ∧ s'.data = s.data ∧ Reads ty (unread s) w (unread s')
    | .error e _ => ∃ b p, e = .perm .crWithoutLf b p ∧ Points s.data .crWithoutLf b p := by
  have hrep := usable_rep h
  have fin : ∀ {x : Except Err (Bytes × Bytes)} {m : SM Bytes} {pk : Bytes → Bool}, Gives s.data x s m pk →
      (∀ w r, x = .ok (w, r) → Reads ty (unread s) w r) → (∀ e, x = .error e → e = .p .crWithoutLf) →
      (match m s with
      | .ok w s' => StreamOk s' ∧ s'.data = s.data ∧ Reads ty (unread s) w (unread s')
      | .error e _ => ∃ b p, e = .perm .crWithoutLf b p ∧ Points s.data .crWithoutLf b p) := by
    intro x m pk hG h1 h2
    unfold Gives Run at hG
    cases hm : m s with
    | ok w s' =>
      simp only [hm] at hG ⊢
      obtain ⟨rest', e, hr⟩ := hG
      obtain ⟨a, b, c⟩ := rep_usable hr
      exact ⟨a, b, by rw [c]; exact h1 _ _ e⟩
    | error e s' =>
      simp only [hm] at hG ⊢
      obtain ⟨w, e1, e2, hP⟩ := hG
      have := h2 w e1
      subst this
      cases e with
      | hang => cases e2
      | perm r b p =>
        have : r = .crWithoutLf := by
          simp [SErr.toErr] at e2; exact e2.symm
        subst this
        exact ⟨b, p, rfl, hP _ _ _ rfl⟩
  cases ty with
  | crlf =>
    refine fin (readCRLF_gives lr hrep) ?_ ?_
    · intro w r hx
      rcases C08_crlf (unread s) with ⟨q, e, h'⟩ | ⟨q, e, _, h'⟩ | ⟨hq, h'⟩
      · rw [h'] at hx; cases hx; rw [e]; exact .crlf _
      · rw [h'] at hx; cases hx
      · rw [h'] at hx; cases hx
        refine .noCrlf _ fun c hc => ?_
        simpa using hq c hc
    · intro e hx
      rcases C08_crlf (unread s) with ⟨q, _, h'⟩ | ⟨q, _, _, h'⟩ | ⟨hq, h'⟩ <;> rw [h'] at hx <;> cases hx
      rfl
  | wsp =>
    refine fin (readWSP_gives hrep) ?_ ?_
    · intro w r hx
      rcases C08_wsp (unread s) with ⟨c, q, e, hc, h'⟩ | ⟨hq, h'⟩
      · rw [h'] at hx; cases hx; rw [e]; exact .wsp c _ hc
      · rw [h'] at hx; cases hx; exact .noWsp _ hq
    · intro e hx; cases hx
  | wspLoose =>
    refine fin (readLoose_gives hrep) ?_ ?_
    · intro w r hx
      rcases C08_loose (unread s) with ⟨c, q, e, hc, h'⟩ | ⟨hq, h'⟩
      · rw [h'] at hx; cases hx; rw [e]; exact .loose c _ hc
      · rw [h'] at hx; cases hx; exact .noLoose _ hq
    · intro e hx; cases hx
  | fws =>
    refine fin (readFWS_gives lr hrep) ?_ ?_
    · intro w r hx
      exact .fws _ _ _ ((C08_fws_exact _ _ _).1 hx)
    · intro e hx
      exact ((C08_fws_throws _ _).1 hx).1

theorem forget_error (e : SErr) : forget (.error e : Except SErr α) = .error e.toErr := by
  cases e <;> rfl

theorem forget_of_yields {x : Except Err β} {m : SM α} {f : β → α} {input : Bytes}
    (h : Yields input x { data := input } m f) (g : α → β) (hg : ∀ b, g (f b) = b) :
    x = (forget (run m input)).map g := by
  have := run_of_yields h
  generalize run m input = y at this ⊢
  cases y with
  | ok a =>
    obtain ⟨b, e, rfl⟩ := this
    rw [e]; simp [forget, Except.map, hg]
  | error e =>
    obtain ⟨w, e1, e2, _⟩ := this
    rw [forget_error, e1, e2]; rfl

theorem Except.map_id' {ε α : Type} (x : Except ε α) : x.map (fun a => a) = x := by cases x <;> rfl

/-- C77: `ValueList` over a stream is the function of the bytes that C10 and C67 describe. -/
theorem C77_value_list (lr : Bool) (input : Bytes) :
    forget (SS.valueList lr input) = Dkim.valueList input := by
  have := forget_of_yields (valueListLoop_yields lr (input.length + 1) input [] false _ (Rep.start input))
    (fun a => a) (by simp)
  rw [Except.map_id'] at this
  exact this.symm

/-- C77: `TagList::Parse` over a stream is the function of the bytes that C11 to C13 describe, for every
set of tags already present; also when it throws, the tags stored until then and their offsets are
the same. -/
theorem C77_tag_list (lr : Bool) (input : Bytes) (tags : TagList) :
    TagList.parse input tags =
      (match SS.tagParse lr input tags with
      | (.ok (), t) => .ok () t
      | (.error .hang, t) => .error .hang t
      | (.error (.perm r _ _), t) => .error (.p r) t) := by
  have := tagParse_agrees lr input tags
  generalize SS.tagParse lr input tags = x at this ⊢
  obtain ⟨y, t⟩ := x
  cases y with
  | ok u => exact this
  | error e =>
    obtain ⟨w, e1, e2, _⟩ := this
    cases e <;> rw [e1, e2] <;> rfl

/-- C77: `ParseAddressList` over a stream is the function of the bytes that C14, C63 and C72 describe. -/
theorem C77_address_list (lr sc : Bool) (input : Bytes) :
    forget (SS.parseAddressList lr sc input) = Dkim.parseAddressList sc input := by
  have := parseAddrDepth_agrees lr sc (input.length + 1) input
  unfold SS.parseAddressList Dkim.parseAddressList
  unfold AgreesA at this
  generalize SS.parseAddrDepth lr sc (input.length + 1) input = x at this ⊢
  cases x with
  | ok a => exact this.symm
  | error e =>
    obtain ⟨w, e1, e2, _⟩ := this
    rw [forget_error, e1, e2]

/-- C77: `QuotedPrintable::Decode` over a stream is the function of the bytes that C64 describes. -/
theorem C77_quoted_printable (lr : Bool) (input : Bytes) (toSpace : Bool) :
    forget (SS.qpDecode lr input toSpace) = Dkim.qpDecode input toSpace := by
  have := qpDecode_agrees lr toSpace input
  generalize SS.qpDecode lr input toSpace = x at this ⊢
  cases x with
  | ok a => exact this.symm
  | error e =>
    obtain ⟨w, e1, e2, _⟩ := this
    rw [forget_error, e1, e2]

/-- C77: `EncodedWord::Decode` over a stream is the function of the bytes that C65 describes. -/
theorem C77_encoded_word (lr : Bool) (E : Env) (input : Bytes) :
    forget (SS.ewDecode lr E input) = Dkim.ewDecode E input := by
  have := forget_of_yields (ewDecode_yields lr E (Rep.start input)) (fun a => a) (by simp)
  rw [Except.map_id'] at this
  exact this.symm

theorem colonTrim_error {input x : Bytes} {e : Err} (h : colonTrim input x = .error e) :
    e = .p (.missingColon input) := by
  unfold colonTrim at h
  split at h
  · cases h; rfl
  · simp only at h
    repeat' split at h
    all_goals cases h

/-- C77: header canonicalization over a stream is the function of the bytes that C06 and C07 describe. -/
theorem C77_header (lr : Bool) (mode : CanonMode) (input : Bytes) :
    forget (SS.filterHeader lr mode input) = Dkim.filterHeader mode input := by
  cases mode with
  | simple => rfl
  | relaxed =>
    unfold SS.filterHeader Dkim.filterHeader
    simp only
    cases hk : input.findIdx? (· == COLON) with
    | none => rfl
    | some k =>
      simp only
      have := run_of_yields (collapse_yields lr ((lower (input.take k) ++ input.drop k).length + 1)
        (lower (input.take k) ++ input.drop k) [] false _ (Rep.start _))
      generalize run (SS.collapse lr ((lower (input.take k) ++ input.drop k).length + 1) [])
        (lower (input.take k) ++ input.drop k) = x at this ⊢
      cases x with
      | error e =>
        obtain ⟨w, e1, e2, _⟩ := this
        simp only [e1, forget_error, e2]
      | ok a =>
        obtain ⟨b, e1, rfl⟩ := this
        simp only [e1, List.nil_append]
        cases ht : colonTrim input a with
        | ok y => simp only [forget]
        | error e => rw [colonTrim_error ht]; rfl

/-! ## C78 -/

/-- C78, value lists. -/
theorem C78_value_list (lr : Bool) (input : Bytes) (r : Reason) (b : Option Nat) (p : Option Int)
    (h : SS.valueList lr input = .error (.perm r b p)) : Points input r b p := by
  have := run_of_yields (valueListLoop_yields lr (input.length + 1) input [] false _ (Rep.start input))
  unfold SS.valueList at h
  rw [h] at this
  obtain ⟨w, _, _, hP⟩ := this
  exact hP _ _ _ rfl

/-- C78, tag lists. -/
theorem C78_tag_list (lr : Bool) (input : Bytes) (tags t : TagList) (r : Reason) (b : Option Nat)
    (p : Option Int) (h : SS.tagParse lr input tags = (.error (.perm r b p), t)) : Points input r b p := by
  have := tagParse_agrees lr input tags
  rw [h] at this
  obtain ⟨w, _, _, hP⟩ := this
  exact hP _ _ _ rfl

/-- C78, address lists. -/
theorem C78_address_list (lr sc : Bool) (input : Bytes) (r : Reason) (b : Option Nat) (p : Option Int)
    (h : SS.parseAddressList lr sc input = .error (.perm r b p)) : AddrPoints sc input r b p := by
  have := parseAddrDepth_agrees lr sc (input.length + 1) input
  unfold SS.parseAddressList at h
  unfold AgreesA at this
  rw [h] at this
  obtain ⟨w, _, _, hP⟩ := this
  exact hP _ _ _ rfl

/-- C78, quoted-printable. -/
theorem C78_quoted_printable (lr : Bool) (input : Bytes) (toSpace : Bool) (r : Reason) (b : Option Nat)
    (p : Option Int) (h : SS.qpDecode lr input toSpace = .error (.perm r b p)) : Points input r b p := by
  have := qpDecode_agrees lr toSpace input
  rw [h] at this
  obtain ⟨w, _, _, hP⟩ := this
  exact hP _ _ _ rfl

/-- C78, encoded words. -/
theorem C78_encoded_word (lr : Bool) (E : Env) (input : Bytes) (r : Reason) (b : Option Nat)
    (p : Option Int) (h : SS.ewDecode lr E input = .error (.perm r b p)) : Points input r b p := by
  have := run_of_yields (ewDecode_yields lr E (Rep.start input))
  unfold SS.ewDecode at h
  rw [h] at this
  obtain ⟨w, _, _, hP⟩ := this
  exact hP _ _ _ rfl

theorem loweredName_eq (input : Bytes) (k : Nat) (hk : input.findIdx? (· == COLON) = some k) :
    lower (input.take k) ++ input.drop k = loweredName input := by
  unfold loweredName
  have h : ∀ (l : Bytes) (k : Nat), l.findIdx? (· == COLON) = some k →
      l.take k = l.takeWhile (· != 58) ∧ l.drop k = l.dropWhile (· != 58) := by
    intro l
    induction l with
    | nil => intro k h; simp at h
    | cons c l ih =>
      intro k h
      rw [List.findIdx?_cons] at h
      by_cases hc : c = COLON
      · subst hc
        simp at h
        subst h
        simp [List.takeWhile, List.dropWhile]
      · have e1 : (c == COLON) = false := by simpa using hc
        have e2 : (c != 58) = true := by simpa using hc
        simp only [e1, Bool.false_eq_true, if_false] at h
        cases hl : l.findIdx? (· == COLON) with
        | none => rw [hl] at h; cases h
        | some j =>
          rw [hl] at h
          simp at h
          subst h
          obtain ⟨a, b⟩ := ih j hl
          simp [List.takeWhile, List.dropWhile, e2, a, b]
  rw [(h input k hk).1, (h input k hk).2]
  rfl

/-- C78, header canonicalization: the numbers are about the field with its name in lower case, which
has the same length. -/
theorem C78_header (lr : Bool) (mode : CanonMode) (input : Bytes) (r : Reason) (b : Option Nat)
    (p : Option Int) (h : SS.filterHeader lr mode input = .error (.perm r b p)) :
    (r = .missingColon input ∧ b = none ∧ p = none) ∨ Points (loweredName input) r b p := by
  cases mode with
  | simple => cases h
  | relaxed =>
    unfold SS.filterHeader at h
    simp only at h
    cases hk : input.findIdx? (· == COLON) with
    | none =>
      simp only [hk] at h
      cases h
      exact .inl ⟨rfl, rfl, rfl⟩
    | some k =>
      simp only [hk] at h
      have := run_of_yields (collapse_yields lr ((lower (input.take k) ++ input.drop k).length + 1)
        (lower (input.take k) ++ input.drop k) [] false _ (Rep.start _))
      generalize run (SS.collapse lr ((lower (input.take k) ++ input.drop k).length + 1) [])
        (lower (input.take k) ++ input.drop k) = x at this h
      cases x with
      | error e =>
        simp only at h
        cases h
        obtain ⟨w, _, _, hP⟩ := this
        rw [loweredName_eq input k hk] at hP
        exact .inr (hP _ _ _ rfl)
      | ok a =>
        simp only at h
        split at h
        · cases h
        · cases h
          exact .inl ⟨rfl, rfl, rfl⟩

/-! ## Concrete cases -/

-- a line break that is no fold is put back and becomes part of the value
example : SS.valueList true b!"a \r\nb:c" = .ok [b!"a \r\nb", b!"c"] := by decide +kernel
-- put back at the very end of the input, where the end-of-file and fail bits were set
example : (match readWhiteSpace true .fws { data := b!"x \r\n", pos := 1 } with
    | .ok w s => w == [] && decide (s = { data := b!"x \r\n", pos := 1 })
    | .error _ _ => false) = true := by decide +kernel
example : StreamOk { data := b!"x \r\n", pos := 1 } := ⟨rfl, by decide, fun _ => ⟨rfl, rfl⟩⟩
example : SS.valueList false b!"a: :b" = .error (.perm .emptyListValue none (some 3)) := by decide +kernel
example : SS.tagParse true b!"v=1; =x" [] =
    (.error (.perm .emptyTagName none (some 5)), [(b!"v", ⟨b!"1", 2⟩)]) := by decide +kernel
example : SS.tagParse false b!"v=1; a" [] =
    (.error (.perm .expectedEq (some 255) (some (-1))), [(b!"v", ⟨b!"1", 2⟩)]) := by decide +kernel
example : (SS.tagParse true b!"a=x\x01" []).1 = .error (.perm .badTagValue (some 1) (some 3)) := by decide +kernel
example : SS.qpDecode true b!"ab=4g" true = .error (.perm .qpHex (some 103) (some 4)) := by decide +kernel
example : SS.qpDecode false b!"ab=4" true = .error (.perm .qpHex (some 255) (some (-1))) := by decide +kernel
example : SS.parseAddressList true true b!"\"a@b\r,c\"" = .error (.perm .crWithoutLf (some 44) (some 4)) := by
  decide +kernel
example : SS.filterHeader true .relaxed b!"A: b\r" = .error (.perm .crWithoutLf none none) := by decide +kernel

end Dkim

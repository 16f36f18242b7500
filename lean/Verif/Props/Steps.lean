import Verif.Proofs.StepTop
import Verif.Props.Message
import Verif.Tests.Toy
/-!
# C85, C86: how long the parsers take

A step is one call of a member function of the parser's `std::stringstream` (`Model/Steps.lean`).
C85: bounds for every text. C86: the bounds are not linear for every text.
-/

namespace Dkim

open Spec Steps

/-! ## Texts -/

theorem folded_of_index {s : Bytes}
    (h : ∀ i, s[i]? = some CR → s[i + 1]? = some LF → s[i + 2]? = some SP ∨ s[i + 2]? = some TAB) : FoldsOnly s := by
  intro x y hxy
  have h0 : s[x.length]? = some CR := by
    rw [hxy, List.append_assoc, List.getElem?_append_right (Nat.le_refl _)]; simp [CRLF]
  have h1 : s[x.length + 1]? = some LF := by
    rw [hxy, List.append_assoc, List.getElem?_append_right (by omega), Nat.add_sub_cancel_left]; rfl
  have h2 : s[x.length + 2]? = y[0]? := by
    rw [hxy, List.append_assoc, List.getElem?_append_right (by omega), Nat.add_sub_cancel_left]; rfl
  have h3 := h _ h0 h1
  rw [h2] at h3
  cases y with
  | nil => simp at h3
  | cons c y =>
    refine ⟨c, y, rfl, ?_⟩
    simpa [Spec.isWSP] using h3

theorem Spec.FoldsOnly.suffix {s : Bytes} (h : FoldsOnly s) (k : Nat) : FoldsOnly (s.drop k) := by
  intro x y hxy
  refine h (s.take k ++ x) y ?_
  rw [List.append_assoc, List.append_assoc, ← List.append_assoc x, ← hxy, List.take_append_drop]

theorem toLower_keep (c d : Byte) (hd : d = CR ∨ d = LF ∨ d = SP ∨ d = TAB) : Dkim.toLower c = d ↔ c = d := by
  have := byte_forall (p := fun c => (Dkim.toLower c = CR ↔ c = CR) ∧ (Dkim.toLower c = LF ↔ c = LF) ∧ (Dkim.toLower c = SP ↔ c = SP) ∧
    (Dkim.toLower c = TAB ↔ c = TAB)) (by decide +kernel) c
  rcases hd with rfl | rfl | rfl | rfl
  · exact this.1
  · exact this.2.1
  · exact this.2.2.1
  · exact this.2.2.2

theorem lowered_at (s : Bytes) (k i : Nat) (d : Byte) (hd : d = CR ∨ d = LF ∨ d = SP ∨ d = TAB) :
    (Dkim.lower (s.take k) ++ s.drop k)[i]? = some d ↔ s[i]? = some d := by
  unfold Dkim.lower
  rcases Nat.lt_or_ge i (s.take k).length with h | h
  · rw [List.getElem?_append_left (by simpa using h), List.getElem?_map, List.getElem?_take]
    rw [if_pos (by rw [List.length_take] at h; omega)]
    cases s[i]? with
    | none => simp
    | some c => simp only [Option.map_some, Option.some.injEq]; exact toLower_keep c d hd
  · rw [List.getElem?_append_right (by simpa using h), List.length_map]
    rw [List.length_take] at *
    rw [List.getElem?_drop]
    rcases Nat.le_total k s.length with hk | hk
    · rw [Nat.min_eq_left hk] at *
      rw [show k + (i - k) = i from by omega]
    · rw [Nat.min_eq_right hk] at *
      rw [List.getElem?_eq_none (show s.length ≤ k + (i - s.length) by omega), List.getElem?_eq_none (show s.length ≤ i by omega)]

theorem Spec.FoldsOnly.lowered {s : Bytes} (h : FoldsOnly s) (k : Nat) : FoldsOnly (Dkim.lower (s.take k) ++ s.drop k) := by
  refine folded_of_index fun i h1 h2 => ?_
  have := folded_at h ((lowered_at s k i _ (by simp)).1 h1) ((lowered_at s k _ _ (by simp)).1 h2)
  rcases this.2 with h3 | h3
  · exact .inl ((lowered_at s k _ _ (by simp)).2 h3)
  · exact .inr ((lowered_at s k _ _ (by simp)).2 h3)

theorem filterHeader_cost {D : Bytes → Prop} {W : Nat} (lr : Bool) (mode : CanonMode) (input : Bytes)
    (hF : FW lr D input.length W) (hD : ∀ k, D (Dkim.lower (input.take k) ++ input.drop k)) :
    (Steps.filterHeader lr mode input).2 ≤ (3 + W) * (input.length + 1) := by
  have hlen : ∀ k, (Dkim.lower (input.take k) ++ input.drop k).length = input.length := by
    intro k; simp [Dkim.lower]; omega
  unfold Steps.filterHeader
  cases mode with
  | simple => exact Nat.zero_le _
  | relaxed =>
    cases input.findIdx? (· == COLON) with
    | none => exact Nat.zero_le _
    | some k =>
      dsimp only
      have hc := collapse_cost (lr := lr) (D := D) (W := W) (input := Dkim.lower (input.take k) ++ input.drop k) (by rw [hlen]; exact hF) (hD k)
      rw [hlen k] at hc ⊢
      revert hc
      generalize run (Steps.collapse lr (input.length + 1) []) (Dkim.lower (input.take k) ++ input.drop k) = x
      obtain ⟨x, n⟩ := x
      intro hc
      cases x with
      | error e => exact hc
      | ok y =>
        dsimp only
        split <;> exact hc

/-! ## C85 -/

/-- C85: counting changes nothing: the counting programs return what the functions of the other
properties return, for every order in which the compiler evaluates the arguments of an error text. -/
theorem C85_results (E : Env) (lr sc sp : Bool) (mode : CanonMode) (input : Bytes) (tags : TagList) :
    forget (Steps.valueList lr input).1 = Dkim.valueList input ∧
    forget (Steps.qpDecode lr input sp).1 = Dkim.qpDecode input sp ∧
    forget (Steps.ewDecode lr E input).1 = Dkim.ewDecode E input ∧
    forget (Steps.parseAddressList lr sc input).1 = Dkim.parseAddressList sc input ∧
    forget (Steps.filterHeader lr mode input).1 = Dkim.filterHeader mode input ∧
    ((Steps.tagParse lr input tags).1.1, (Steps.tagParse lr input tags).2) = SS.tagParse lr input tags ∧
    PublicKey.parse (E := E) input {} = (match Steps.keyParse E lr input with
      | (.ok (), k, _) => .ok () k
      | (.error e, k, _) => .error e k) :=
  ⟨by rw [valueList_eq]; exact C77_value_list lr input, by rw [qpDecode_eq]; exact C77_quoted_printable lr input sp,
   by rw [ewDecode_eq]; exact C77_encoded_word lr E input, by rw [parseAddressList_eq]; exact C77_address_list lr sc input,
   by rw [filterHeader_eq]; exact C77_header lr mode input, tagParse_eq lr input tags, keyParse_eq lr input⟩

/-- C85: `TagList::Parse`, `QuotedPrintable::Decode` and `EncodedWord::Decode` take time linear in the
length of the text, whatever the text. -/
theorem C85_linear (E : Env) (lr sp : Bool) (input : Bytes) (tags : TagList) :
    (Steps.tagParse lr input tags).1.2 ≤ 57 * input.length + 48 ∧
    (Steps.qpDecode lr input sp).2 ≤ 25 * input.length + 26 ∧
    (Steps.ewDecode lr E input).2 ≤ 83 * input.length + 24 :=
  ⟨tagParse_cost lr input tags, qpDecode_cost lr sp input, ewDecode_cost lr E input⟩

/-- C85: on text in which every CRLF is followed by a space or tab, so are `ValueList`,
`FilterHeader` and `PublicKey::Parse`. -/
theorem C85_folded (E : Env) (lr : Bool) (mode : CanonMode) (input : Bytes) (h : FoldsOnly input) :
    (Steps.valueList lr input).2 ≤ 34 * (input.length + 1) ∧
    (Steps.filterHeader lr mode input).2 ≤ 17 * (input.length + 1) ∧
    (Steps.keyParse E lr input).2.2 ≤ 159 * input.length + 150 := by
  refine ⟨?_, ?_, ?_⟩
  · have := valueList_cost (fw_folded lr h) rfl
    omega
  · have hlen : ∀ k, (Dkim.lower (input.take k) ++ input.drop k).length = input.length := by
      intro k; simp [Dkim.lower]; omega
    unfold Steps.filterHeader
    cases mode with
    | simple => exact Nat.zero_le _
    | relaxed =>
      cases input.findIdx? (· == COLON) with
      | none => exact Nat.zero_le _
      | some k =>
        dsimp only
        have hc := collapse_cost (lr := lr) (fw_folded lr (h.lowered k)) rfl
        rw [hlen k] at hc ⊢
        revert hc
        generalize run (Steps.collapse lr (input.length + 1) []) (Dkim.lower (input.take k) ++ input.drop k) = x
        obtain ⟨x, n⟩ := x
        intro hc
        cases x with
        | error e => exact hc
        | ok y =>
          dsimp only
          split <;> exact hc
  · have := keyParse_cost (E := E) (lr := lr) (V := 34 * (input.length + 1)) (txt := input) ?_
    · omega
    · intro m hm name t ht
      have h1 := valueList_cost (fw_folded lr (value_folded hm ht h)) rfl
      have h2 := value_length hm ht
      omega

/-- C85: header fields of a message are such text: canonicalizing any field of any message is linear, and
so is splitting any tag of a signature or other field that is a tag list. -/
theorem C85_fields (lr : Bool) (mode : CanonMode) (d : Bytes) (m : Message) (s : IStream)
    (h : Message.parseAll {} (freshStream d) = .ok (m, s)) (f : Header) (hf : f ∈ m.headers) :
    (Steps.filterHeader lr mode f.header).2 ≤ 17 * (f.header.length + 1) ∧
    ∀ tags name t, TagList.parse (f.header.drop f.valueOffset) [] = .ok () tags → tags.getTag name = some t →
      (Steps.valueList lr t.value).2 ≤ 34 * (f.header.length + 1) := by
  have hF : FoldsOnly f.header := by
    intro x y hxy
    exact ((C22_fields d m s h f hf).1 (x ++ [CR]) y (by rw [hxy]; simp [CRLF])).2
  refine ⟨(C85_folded toyEnv lr mode _ hF).2.1, fun tags name t ht hg => ?_⟩
  have h1 := valueList_cost (fw_folded lr (value_folded ht hg (hF.suffix _))) rfl
  have h2 := value_length ht hg
  rw [List.length_drop] at h2
  omega

/-- C85: on any text at all, the time is at most quadratic. (`ParseAddressList`: for compilers whose
`char` is signed; otherwise it may not end at all, C09.) -/
theorem C85_quadratic (E : Env) (lr : Bool) (mode : CanonMode) (input : Bytes) :
    (Steps.valueList lr input).2 ≤ 2 * (4 * input.length + 17) * (input.length + 1) ∧
    (Steps.filterHeader lr mode input).2 ≤ (4 * input.length + 17) * (input.length + 1) ∧
    (Steps.parseAddressList lr true input).2 ≤ 60 * ((input.length + 1) * (input.length + 1)) ∧
    (Steps.keyParse E lr input).2.2 ≤ 57 * input.length + 48 + 6 * (4 * input.length + 17) * (input.length + 1) := by
  have e : 3 + (4 * input.length + 14) = 4 * input.length + 17 := by omega
  refine ⟨?_, ?_, ?_, ?_⟩
  · have := valueList_cost (fw_any lr input.length) trivial
    rwa [e] at this
  · have := filterHeader_cost lr mode input (fw_any lr input.length) (fun _ => trivial)
    rwa [e] at this
  · exact parseAddrDepth_cost lr _ input
  · have := keyParse_cost (E := E) (lr := lr) (V := 2 * (4 * input.length + 17) * (input.length + 1)) (txt := input) ?_
    · rw [Nat.mul_assoc] at this ⊢
      omega
    · intro m hm name t ht
      have h1 := valueList_cost (fw_any lr t.value.length) trivial
      have h2 := value_length hm ht
      refine Nat.le_trans h1 (Nat.mul_le_mul (Nat.mul_le_mul_left _ (by omega)) (by omega))

/-! ## C86 -/

/-- White space of `n` spaces, then a line break that is no folding. -/
def gap (n : Nat) : Bytes := spaces n ++ CRLF

/-- C86, negation: `ValueList`, `FilterHeader`, `ParseAddressList` and `PublicKey::Parse` all take at
least `n * n` steps on a text of `n` + 4 to `n` + 6 bytes: `n` spaces and a line break before something that is
neither space nor tab. The record is one any owner of a domain can publish. -/
theorem C86_quadratic_witness (E : Env) (lr sc : Bool) (n : Nat) :
    n * n ≤ (Steps.valueList lr (b!"a" ++ gap n ++ b!"b")).2 ∧
    n * n ≤ (Steps.filterHeader lr .relaxed (b!"a:" ++ gap n ++ b!"b")).2 ∧
    n * n ≤ (Steps.parseAddressList lr sc (gap n ++ b!"b")).2 ∧
    n * n ≤ (Steps.keyParse E lr (b!"h=a" ++ gap n ++ b!"b")).2.2 := by
  have hval := valueList_lower lr n 97 98 (by decide) (by decide) (by decide) []
  have e1 : b!"a" ++ gap n ++ b!"b" = [97] ++ spaces n ++ CRLF ++ [98] := by
    unfold gap; simp
  refine ⟨by rw [e1]; exact hval, ?_, ?_, ?_⟩
  · have e2 : b!"a:" ++ gap n ++ b!"b" = [97, COLON] ++ spaces n ++ CRLF ++ [98] := by
      unfold gap; simp
    rw [e2]
    unfold Steps.filterHeader
    have hi : ([97, COLON] ++ spaces n ++ CRLF ++ [98] : Bytes).findIdx? (· == COLON) = some 1 := rfl
    dsimp only
    rw [hi]
    dsimp only
    have hl : Dkim.lower (([97, COLON] ++ spaces n ++ CRLF ++ [98] : Bytes).take 1) ++ ([97, COLON] ++ spaces n ++ CRLF ++ [98] : Bytes).drop 1 =
        [97, COLON] ++ spaces n ++ CRLF ++ [98] := rfl
    rw [hl]
    have hc := collapse_lower lr n 97 COLON 98 (by decide) (by decide) (by decide) (by decide) [] []
      (([97, COLON] ++ spaces n ++ CRLF ++ [98] : Bytes).length + 1) (by simp [spaces])
    revert hc
    generalize run (Steps.collapse lr (([97, COLON] ++ spaces n ++ CRLF ++ [98] : Bytes).length + 1) []) ([97, COLON] ++ spaces n ++ CRLF ++ [98]) = x
    obtain ⟨x, k⟩ := x
    intro hc
    cases x with
    | error e => exact hc
    | ok y =>
      dsimp only
      split <;> exact hc
  · exact address_lower lr sc n 98 (by decide) (by decide) []
  · have e3 : b!"h=a" ++ gap n ++ b!"b" = b!"h=" ++ ([97] ++ spaces n ++ CRLF ++ [98]) := by
      unfold gap; simp
    rw [e3]
    refine Nat.le_trans hval (keyParse_lower lr _ ⟨?_, ?_, ?_⟩ (by simp))
    · intro c hc
      simp only [List.mem_append, List.mem_singleton, spaces, List.mem_replicate, CRLF, List.mem_cons, List.not_mem_nil, or_false] at hc
      rcases hc with ((hc | hc) | hc) | hc
      · subst hc; left; unfold IsValByte; decide
      · rw [hc.2]; right; rfl
      · rcases hc with rfl | rfl <;> right <;> rfl
      · subst hc; left; unfold IsValByte; decide
    · intro c hc
      simp at hc; subst hc; unfold IsValByte; decide
    · intro c hc
      rw [List.getLast?_append] at hc
      simp at hc; subst hc; unfold IsValByte; decide

/-- C86: so no constant bounds the steps per byte. -/
theorem C86_no_linear_bound (E : Env) (lr sc : Bool) (c : Nat) :
    (∃ t, c * (t.length + 1) < (Steps.valueList lr t).2) ∧ (∃ t, c * (t.length + 1) < (Steps.filterHeader lr .relaxed t).2) ∧
    (∃ t, c * (t.length + 1) < (Steps.parseAddressList lr sc t).2) ∧ (∃ t, c * (t.length + 1) < (Steps.keyParse E lr t).2.2) := by
  have hq : ∀ len, len ≤ (c + 8) + 6 → c * (len + 1) < (c + 8) * (c + 8) := by
    intro len hl
    have h1 : c * (len + 1) ≤ c * (c + 15) := Nat.mul_le_mul_left _ (by omega)
    have h2 : (c + 8) * (c + 8) = c * (c + 15) + c + 64 := by
      rw [Nat.add_mul, Nat.mul_add, Nat.mul_add, Nat.mul_add]; omega
    omega
  obtain ⟨h1, h2, h3, h4⟩ := C86_quadratic_witness E lr sc (c + 8)
  refine ⟨⟨_, Nat.lt_of_lt_of_le (hq _ ?_) h1⟩, ⟨_, Nat.lt_of_lt_of_le (hq _ ?_) h2⟩, ⟨_, Nat.lt_of_lt_of_le (hq _ ?_) h3⟩,
    ⟨_, Nat.lt_of_lt_of_le (hq _ ?_) h4⟩⟩ <;> simp [gap, spaces, CRLF] <;> omega

/-- C86, the part that holds: for some constant every parser is linear on text in which every CRLF is
followed by a space or tab, and the first three are on every text. Missing: the other four on other text,
false by `C86_no_linear_bound`; `ParseAddressList` is in `C86_address_partial` (a quoted string may contain text that is
not folded or quoted again, `C86_nested_quotes_witness`). -/
theorem C86_linear_partial (E : Env) : ∃ c, ∀ (lr sp : Bool) (mode : CanonMode) (input : Bytes) (tags : TagList),
    (Steps.tagParse lr input tags).1.2 ≤ c * (input.length + 1) ∧ (Steps.qpDecode lr input sp).2 ≤ c * (input.length + 1) ∧
    (Steps.ewDecode lr E input).2 ≤ c * (input.length + 1) ∧
    (FoldsOnly input → (Steps.valueList lr input).2 ≤ c * (input.length + 1) ∧
      (Steps.filterHeader lr mode input).2 ≤ c * (input.length + 1) ∧ (Steps.keyParse E lr input).2.2 ≤ c * (input.length + 1)) := by
  refine ⟨159, fun lr sp mode input tags => ?_⟩
  obtain ⟨h1, h2, h3⟩ := C85_linear E lr sp input tags
  refine ⟨by omega, by omega, by omega, fun h => ?_⟩
  obtain ⟨h4, h5, h6⟩ := C85_folded E lr mode input h
  exact ⟨by omega, by omega, by omega⟩

/-! Non-vacuity: concrete runs, and texts of both kinds. -/
example : (Steps.valueList true b!"a : b\r\n c").2 = 57 := by decide +kernel
example : FoldsOnly b!"a : b\r\n c" := by
  refine folded_of_index fun i h1 _ => ?_
  have hlt : i < 9 := by
    rcases Nat.lt_or_ge i 9 with h | h
    · exact h
    · rw [List.getElem?_eq_none (by simpa using h)] at h1; simp at h1
  have : ∀ j : Fin 9, (b!"a : b\r\n c" : Bytes)[j.val]? = some CR → (b!"a : b\r\n c" : Bytes)[j.val + 2]? = some SP := by decide +kernel
  exact .inl (this ⟨i, hlt⟩ h1)
example : ¬ FoldsOnly (b!"a" ++ gap 3 ++ b!"b") := by
  intro h
  obtain ⟨c, r, h1, h2⟩ := h b!"a   " b!"b" rfl
  cases h1
  revert h2; decide
example : (Steps.valueList true (b!"a" ++ gap 3 ++ b!"b")).2 = 102 := by decide +kernel
example : (Steps.valueList true (b!"a" ++ gap 30 ++ b!"b")).2 = 1857 := by decide +kernel
example : (Steps.keyParse toyEnv true (b!"v=DKIM1; t=y:s; p=")).2.2 = 141 := by decide +kernel

end Dkim

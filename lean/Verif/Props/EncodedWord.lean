import Verif.Model.EncodedWord
import Verif.Spec.EncodedWord
import Verif.Props.QuotedPrintable
import Verif.Props.Base64
import Verif.Proofs.Header
/-!
# Property C19: encoded words
-/

namespace Dkim
open Spec

theorem qEncode_eq (x : Bytes) : qEncode x = x.flatMap (fun c => if c = SP then [95] else
    if qpPlain c ∧ c ≠ 63 ∧ c ≠ 95 then [c] else [EQ, hexDigit (c / 16), hexDigit (c % 16)]) := by
  unfold qEncode
  congr 1
  funext c
  simp only [qpSafe_iff, hexPair_eq, SP]

theorem qpLoop_qEncode (x : Bytes) (n : Nat) (hn : (qEncode x).length < n) :
    qpLoop true n (qEncode x) = .ok x := by
  induction x generalizing n with
  | nil =>
    cases n with
    | zero => omega
    | succ n => simp [qEncode, qpLoop]
  | cons c x ih =>
    cases n with
    | zero => omega
    | succ n =>
      simp only [qEncode_eq, List.flatMap_cons] at ih hn ⊢
      by_cases hs : c = SP
      · rw [if_pos hs] at hn ⊢
        subst hs
        simp only [List.length_append, List.length_singleton] at hn
        rw [List.singleton_append, qpLoop.eq_def]
        simp [ih n (by omega)]
      · rw [if_neg hs] at hn ⊢
        by_cases h : qpPlain c = true ∧ c ≠ 63 ∧ c ≠ 95
        · rw [if_pos h] at hn ⊢
          obtain ⟨h1, h2⟩ := qpPlain_literal h.1
          rw [List.singleton_append, qpLoop.eq_def]
          simp only [List.length_append, List.length_singleton] at hn
          simp [h1, h2, h.2.2, ih n (by omega)]
        · rw [if_neg h] at hn ⊢
          simp only [List.length_append, List.length_cons, List.length_nil] at hn
          have a1 := hexDigit_lt (div16_lt c)
          have a2 := hexDigit_lt (mod16_lt c)
          simp only [List.cons_append, List.nil_append]
          rw [qpLoop.eq_def]
          have heq : EQ ≠ 95 := by decide
          simp [heq, a1.1, a1.2.1, a2.1, a2.2.1, ih n (by omega), div_mod_16]

theorem hex_ne_q {y : Byte} (hy : IsUpperHex y) : y ≠ 63 := by
  rintro rfl; revert hy; unfold IsUpperHex; decide

theorem qEncode_no_q (x : Bytes) : (63 : Byte) ∉ qEncode x := by
  intro h
  rw [qEncode_eq] at h
  obtain ⟨c, _, hc⟩ := List.mem_flatMap.1 h
  split at hc
  · simp at hc
  · split at hc
    · rename_i h2; simp at hc; exact h2.2.1 hc.symm
    · simp only [List.mem_cons, List.not_mem_nil, or_false] at hc
      rcases hc with h | h | h
      · exact absurd h (by decide)
      · exact hex_ne_q (hexDigit_lt (div16_lt c)).2.2 h.symm
      · exact hex_ne_q (hexDigit_lt (mod16_lt c)).2.2 h.symm

theorem b64_no_q (x : Bytes) : (63 : Byte) ∉ b64Encode x := by
  intro h
  have := C18_alphabet x _ h
  revert this; unfold IsB64; decide

theorem untilQ_of {a : Bytes} (ha : (63 : Byte) ∉ a) (r : Bytes) : untilQ (a ++ 63 :: r) = (a, 63 :: r) := by
  induction a with
  | nil => simp [untilQ]
  | cons c a ih =>
    simp only [List.mem_cons, not_or] at ha
    rw [List.cons_append, untilQ, if_neg (fun h => ha.1 h.symm), ih ha.2]

theorem ewScan_of {cs enc dat rest : Bytes} (h1 : (63 : Byte) ∉ cs) (h2 : (63 : Byte) ∉ enc) (h3 : (63 : Byte) ∉ dat)
    (hr : ∀ c ∈ rest.head?, isLoose c = true) :
    ∃ buf, ewScan (63 :: (cs ++ 63 :: (enc ++ 63 :: (dat ++ 63 :: EQ :: rest)))) = ⟨some (enc, dat), buf, rest⟩ := by
  unfold ewScan
  simp only [ne_eq, not_true_eq_false, if_false, untilQ_of h1, untilQ_of h2, untilQ_of h3]
  cases rest with
  | nil => exact ⟨_, rfl⟩
  | cons c r =>
    have hc := hr c (by simp)
    simp only [isLoose, Bool.or_eq_true, beq_iff_eq] at hc
    have : ¬ (c ≠ SP ∧ c ≠ CR ∧ c ≠ LF ∧ c ≠ TAB) := by
      rintro ⟨x1, x2, x3, x4⟩
      rcases hc with ((h | h) | h) | h
      · exact x1 h
      · exact x4 h
      · exact x2 h
      · exact x3 h
    simp only [this, if_false]
    exact ⟨_, rfl⟩

theorem ewSpace_stop {s : Bytes} (hs : Stop s) (n : Nat) (ws : Bytes) : ewSpace (n + 1) ws s = .ok (ws, s) := by
  cases s with
  | nil => simp [ewSpace, readWSP, readCRLF]
  | cons c r =>
    have h := hs c (by simp)
    simp only [Spec.isWSP_eq, Bool.or_eq_false_iff, beq_eq_false_iff_ne] at h
    simp [ewSpace, readWSP, readCRLF, h.1, h.2]

theorem ewSpace_run {f : Bytes} (hf : LinearWS f) {t : Bytes} (ht : Stop t) (n : Nat) (hn : f.length < n) (ws : Bytes) :
    ∃ ws', ewSpace n ws (f ++ t) = .ok (ws', t) := by
  induction hf generalizing n ws with
  | nil =>
    cases n with
    | zero => omega
    | succ n => exact ⟨ws, ewSpace_stop ht n ws⟩
  | wsp w r hw _ ih =>
    rw [Spec.isWSP_eq] at hw
    cases n with
    | zero => omega
    | succ n =>
      obtain ⟨ws', h⟩ := ih n (by simp at hn; omega) (ws ++ [w])
      exact ⟨ws', by simp [ewSpace, readWSP, hw, h]⟩
  | crlf r _ ih =>
    cases n with
    | zero => omega
    | succ n =>
      obtain ⟨ws', h⟩ := ih n (by simp at hn; omega) ws
      have hcr : isWSP CR = false := by decide
      exact ⟨ws', by simp [ewSpace, readWSP, readCRLF, hcr, h]⟩

theorem Word.data_decodes (E : Env) (hE : E.B64Law) (w : Word) :
    ewData E w.letter (if w.base64 then b64Encode w.data else qEncode w.data) = some w.data := by
  unfold ewData Word.letter
  cases h1 : w.base64 <;> cases h2 : w.small <;> simp [hE w.data, qpDecode, qpLoop_qEncode w.data _ (Nat.lt_succ_self _)]

/-- Texts of the following words, each preceded by its separator. -/
def wordsTail (l : List (Bytes × Word)) : Bytes := l.flatMap (fun p => p.1 ++ p.2.text)

theorem LinearWS.head {f : Bytes} (h : LinearWS f) (hne : f ≠ []) : ∃ c r, f = c :: r ∧ isLoose c = true := by
  cases h with
  | nil => exact absurd rfl hne
  | wsp w r hw =>
    refine ⟨w, r, rfl, ?_⟩
    simp only [Spec.isWSP, Bool.or_eq_true, beq_iff_eq] at hw
    simp [isLoose, hw]
  | crlf r _ => exact ⟨CR, LF :: r, rfl, by decide⟩

theorem ewLoop_words (E : Env) (hE : E.B64Law) (f : Bytes) (hf : LinearWS f) (w : Word) (l : List (Bytes × Word))
    (hw : (63 : Byte) ∉ w.charset) (hl : ∀ p ∈ l, LinearWS p.1 ∧ p.1 ≠ [] ∧ (63 : Byte) ∉ p.2.charset) (tail : Bytes)
    (htail : LinearWS tail) (n : Nat) (hn : (f ++ w.text ++ wordsTail l ++ tail).length < n) :
    ewLoop E n [] (f ++ w.text ++ wordsTail l ++ tail) = .ok (w.data ++ (l.map (fun p => p.2.data)).flatten) := by
  induction l generalizing f w n with
  | nil =>
    cases n with
    | zero => omega
    | succ n =>
      have hstop : Stop (w.text ++ tail) := by simp [Word.text, Stop, NotHead]; decide
      obtain ⟨ws, h1⟩ := ewSpace_run hf hstop ((f ++ (w.text ++ tail)).length + 1) (by simp; omega) []
      rw [ewLoop]
      simp only [wordsTail, List.flatMap_nil, List.append_nil, List.append_assoc]
      rw [h1]
      have hq : (63 : Byte) ∉ (if w.base64 then b64Encode w.data else qEncode w.data) := by
        split
        · exact b64_no_q _
        · exact qEncode_no_q _
      have hlet : (63 : Byte) ∉ w.letter := by
        unfold Word.letter; cases w.base64 <;> cases w.small <;> decide
      have hth : ∀ c ∈ tail.head?, isLoose c = true := by
        intro c hc
        by_cases hne : tail = []
        · subst hne; simp at hc
        · obtain ⟨d, r, rfl, hd⟩ := LinearWS.head htail hne
          simp at hc; exact hc ▸ hd
      obtain ⟨buf, hsc⟩ := ewScan_of hw hlet hq hth
      have htxt : w.text ++ tail = EQ :: 63 :: (w.charset ++ 63 :: (w.letter ++ 63 ::
          ((if w.base64 then b64Encode w.data else qEncode w.data) ++ 63 :: EQ :: tail))) := by
        simp [Word.text]
      rw [htxt]
      simp only [if_true, hsc, Word.data_decodes E hE w]
      have hlen : 0 < w.text.length := by simp [Word.text]
      have hn' : tail.length < n := by simp [wordsTail] at hn; omega
      cases n with
      | zero => omega
      | succ n =>
        rw [ewLoop]
        obtain ⟨ws2, h2⟩ := ewSpace_run htail (t := []) (by simp [Stop, NotHead]) (tail.length + 1) (by omega) []
        rw [List.append_nil] at h2
        rw [h2]
        simp
  | cons p l ih =>
    obtain ⟨sep, w2⟩ := p
    obtain ⟨hs1, hs2, hs3⟩ := hl (sep, w2) (by simp)
    cases n with
    | zero => omega
    | succ n =>
      have hstop : ∀ t, Stop (w.text ++ t) := by intro t; simp [Word.text, Stop, NotHead]; decide
      obtain ⟨ws, h1⟩ := ewSpace_run hf (hstop (wordsTail ((sep, w2) :: l) ++ tail))
        ((f ++ (w.text ++ (wordsTail ((sep, w2) :: l) ++ tail))).length + 1) (by simp; omega) []
      rw [ewLoop]
      simp only [List.append_assoc]
      rw [h1]
      have hq : (63 : Byte) ∉ (if w.base64 then b64Encode w.data else qEncode w.data) := by
        split
        · exact b64_no_q _
        · exact qEncode_no_q _
      have hlet : (63 : Byte) ∉ w.letter := by
        unfold Word.letter; cases w.base64 <;> cases w.small <;> decide
      obtain ⟨c, r, rfl, hc⟩ := LinearWS.head hs1 hs2
      have hth : ∀ d ∈ (wordsTail ((c :: r, w2) :: l) ++ tail).head?, isLoose d = true := by
        intro d hd; simp [wordsTail] at hd; exact hd ▸ hc
      obtain ⟨buf, hsc⟩ := ewScan_of hw hlet hq hth
      have htxt : ∀ t, w.text ++ t = EQ :: 63 :: (w.charset ++ 63 :: (w.letter ++ 63 ::
          ((if w.base64 then b64Encode w.data else qEncode w.data) ++ 63 :: EQ :: t))) := by
        intro t; simp [Word.text]
      rw [htxt]
      simp only [if_true, hsc, Word.data_decodes E hE w]
      have hlen : 0 < w.text.length := by simp [Word.text]
      have e : wordsTail ((c :: r, w2) :: l) ++ tail = (c :: r) ++ w2.text ++ wordsTail l ++ tail := by
        simp [wordsTail]
      rw [e, ih (c :: r) hs1 w2 hs3 (fun p hp => hl p (by simp [hp])) n (by
        rw [← e]; simp only [List.length_append] at hn ⊢; omega)]
      simp

/-- C19: a sequence of encoded words (either encoding), separated by linear white space, decodes to
the concatenation of the data; white space after the last word is dropped. -/
theorem C19_words (E : Env) (hE : E.B64Law) (w : Word) (l : List (Bytes × Word)) (tail : Bytes)
    (hw : (63 : Byte) ∉ w.charset) (hl : ∀ p ∈ l, LinearWS p.1 ∧ p.1 ≠ [] ∧ (63 : Byte) ∉ p.2.charset)
    (htail : LinearWS tail) :
    ewDecode E (w.text ++ wordsTail l ++ tail) = .ok (w.data ++ (l.map (fun p => p.2.data)).flatten) := by
  unfold ewDecode
  have hstop : Stop (w.text ++ (wordsTail l ++ tail)) := by simp [Word.text, Stop, NotHead]; decide
  have := skipFWS_run .nil hstop ((w.text ++ (wordsTail l ++ tail)).length + 1) (by simp)
  rw [List.append_assoc]
  rw [List.nil_append] at this
  rw [this]
  have h := ewLoop_words E hE [] .nil w l hw hl tail htail ((w.text ++ (wordsTail l ++ tail)).length + 1) (by simp)
  simp only [List.nil_append, List.append_assoc] at h
  exact h

/-- C19: one base64 word. -/
theorem C19_base64_word (E : Env) (hE : E.B64Law) (cs x : Bytes) (hc : (63 : Byte) ∉ cs) :
    ewDecode E (b!"=?" ++ cs ++ b!"?B?" ++ Spec.base64 x ++ b!"?=") = .ok x := by
  have h := C19_words E hE ⟨cs, true, false, x⟩ [] [] hc (by simp) .nil
  simpa [Word.text, Word.letter, wordsTail] using h

/-- No `=?` in the text. -/
def NoEncodedWord (t : Bytes) : Prop := ∀ a b, t ≠ a ++ EQ :: 63 :: b

theorem ewLoop_plain (E : Env) (f t : Bytes) (hf : AllWSP f) (hcr : CR ∉ t) (hno : NoEncodedWord t)
    (hlast : ∀ c ∈ t.getLast?, isWSP c = false) (n : Nat) (hn : (f ++ t).length < n)  (ht : t = [] → f = []) :
    ∀ ws, ewLoop E n ws (f ++ t) = .ok (if t = [] then [] else ws ++ f ++ t) := by
  induction n generalizing f t with
  | zero => omega
  | succ n ih =>
    intro ws
    -- split off the leading white space of `t`
    have split : ∀ t : Bytes, ∃ g u, t = g ++ u ∧ AllWSP g ∧ NotHead isWSP u := by
      intro t
      refine ⟨t.takeWhile isWSP, t.dropWhile isWSP, (List.takeWhile_append_dropWhile).symm, ?_, ?_⟩
      · intro c hc
        induction t with
        | nil => simp at hc
        | cons y l ih =>
          rw [List.takeWhile_cons] at hc
          split at hc
          · rcases List.mem_cons.1 hc with rfl | hc
            · assumption
            · exact ih hc
          · simp at hc
      · intro c hc
        have := List.head?_dropWhile_not isWSP t
        rw [hc] at this; simpa using this
    obtain ⟨g, u, rfl, hg, hu⟩ := split t
    have hspace : ∀ (g u : Bytes) (k : Nat) (ws : Bytes), AllWSP g → Stop u → g.length < k →
        ewSpace k ws (g ++ u) = .ok (ws ++ g, u) := by
      intro g u k ws hg hu hk
      induction g generalizing k ws with
      | nil =>
        cases k with
        | zero => omega
        | succ k => rw [List.append_nil]; exact ewSpace_stop hu k ws
      | cons c g ihg =>
        cases k with
        | zero => omega
        | succ k =>
          have := ihg k (ws ++ [c]) (fun d hd => hg d (by simp [hd])) (by simp at hk; omega)
          have hgc : isWSP c = true := hg c (by simp)
          simp [ewSpace, readWSP, hgc, this]
    have hstop : Stop u := by
      intro c hc
      have h1 := hu c hc
      have h2 : c ≠ CR := by
        rintro rfl
        apply hcr
        rw [List.mem_append]; right; exact List.mem_of_mem_head? hc
      simp [h1, h2]
    have hfg : AllWSP (f ++ g) := by
      intro c hc; rcases List.mem_append.1 hc with h | h
      · exact hf c h
      · exact hg c h
    rw [ewLoop]
    have h1 := hspace (f ++ g) u ((f ++ (g ++ u)).length + 1) ws hfg hstop (by simp; omega)
    rw [List.append_assoc] at h1
    rw [h1]
    cases u with
    | nil =>
      simp only [List.append_nil] at hlast ht ⊢
      by_cases hg0 : g = []
      · subst hg0; simp
      · exfalso
        have h2 : ∃ x, g.getLast? = some x := by
          cases h : g.getLast? with
          | none => simp at h; exact absurd h hg0
          | some x => exact ⟨x, rfl⟩
        obtain ⟨x, hx⟩ := h2
        have := hlast x hx
        have hgx : isWSP x = true := hg x (List.mem_of_getLast? hx)
        rw [hgx] at this
        cases this
    | cons c r =>
      have hr : CR ∉ r := fun h => hcr (by simp [h])
      have hno' : NoEncodedWord r := fun a b e => hno (g ++ c :: a) b (by simp [e])
      have hlast' : ∀ d ∈ r.getLast?, isWSP d = false := by
        intro d hd
        apply hlast d
        rw [List.getLast?_append, List.getLast?_cons]
        rw [hd]; simp
      have ihr := ih [] r (by simp [AllWSP]) hr hno' hlast' (by simp at hn ⊢; omega) (by simp) []
      simp only [List.nil_append] at ihr
      have hr' : (if r = [] then [] else r) = r := by split <;> simp_all
      rw [hr'] at ihr
      by_cases hc : c = EQ
      · subst hc
        have hsc : ewScan r = ⟨none, [EQ], r⟩ := by
          unfold ewScan
          cases r with
          | nil => rfl
          | cons d r =>
            simp only
            rw [if_pos]
            rintro rfl
            exact hno g r rfl
        simp [hsc, ihr]
      · simp [hc, ihr]

/-- C19: plain text (no `=?`, no CR, no white space at either end) decodes to itself. -/
theorem C19_plain (E : Env) (t : Bytes) (hcr : CR ∉ t) (hno : NoEncodedWord t)
    (hfirst : ∀ c ∈ t.head?, Spec.isWSP c = false) (hlast : ∀ c ∈ t.getLast?, Spec.isWSP c = false) :
    ewDecode E t = .ok t := by
  rw [Spec.isWSP_eq] at hfirst hlast
  unfold ewDecode
  have hstop : Stop t := by
    intro c hc
    have h2 : c ≠ CR := by rintro rfl; exact hcr (List.mem_of_mem_head? hc)
    simp [hfirst c hc, h2]
  have := skipFWS_run .nil hstop (t.length + 1) (by simp)
  rw [List.nil_append] at this
  rw [this]
  have h := ewLoop_plain E [] t (by simp [AllWSP]) hcr hno hlast (t.length + 1) (by simp) (by simp) []
  simp only [List.nil_append] at h
  simp only [h]
  split <;> simp_all

/-! Non-vacuity. -/
example : (⟨b!"utf-8", false, true, b!"a b?"⟩ : Word).text = b!"=?utf-8?q?a_b=3F?=" := by decide
example : LinearWS b!"\r\n\t" := .crlf _ (.wsp _ _ (by decide) .nil)
example : NoEncodedWord b!"1 = 2?" ∧ CR ∉ b!"1 = 2?" := by
  refine ⟨?_, by decide⟩
  intro a b e
  rcases a with _ | ⟨x0, _ | ⟨x1, _ | ⟨x2, _ | ⟨x3, _ | ⟨x4, _ | ⟨x5, a⟩⟩⟩⟩⟩⟩ <;> simp [EQ] at e

end Dkim

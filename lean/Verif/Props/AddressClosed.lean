import Verif.Props.AddressText
import Verif.Props.AddressBytes
/-!
# Property C63: everything opened in an accepted address list is closed
-/

namespace Dkim
open Spec

/-! ### Specification -/

/-- Read from left to right, with `o` telling whether an angle bracket is open: every quotation mark starts a quoted string that ends with
another one, every `(` a comment that ends with its own `)` (comments nest, and escaped bytes do not count), and every `<` outside of them is
followed by `>` before the next comma, semicolon or the end. -/
inductive Spec.AllClosed (sc : Bool) : Bool → Bytes → Prop
  | fin : AllClosed sc false []
  | quoted (o content text r) : Quoted sc content text → AllClosed sc o r → AllClosed sc o (34 :: (text ++ 34 :: r))
  | comment (o text r) : CommentText 1 text → AllClosed sc o r → AllClosed sc o (40 :: (text ++ r))
  | opening (o r) : AllClosed sc true r → AllClosed sc o (60 :: r)
  | closing (o r) : AllClosed sc false r → AllClosed sc o (62 :: r)
  | separator (c r) : c = 44 ∨ c = 59 → AllClosed sc false r → AllClosed sc false (c :: r)
  | other (o c r) : c ∉ [34, 40, 60, 62, 44, 59] → AllClosed sc o r → AllClosed sc o (c :: r)

/-! ### Proof -/

theorem Spec.AllClosed.ws {sc o : Bool} {w r : Bytes} (hw : ∀ c ∈ w, c = SP ∨ c = TAB ∨ c = CR ∨ c = LF) (h : AllClosed sc o r) :
    AllClosed sc o (w ++ r) := by
  induction w with
  | nil => exact h
  | cons c w ih =>
    refine .other o c _ ?_ (ih fun x hx => hw x (by simp [hx]))
    rcases hw c (by simp) with rfl | rfl | rfl | rfl <;> decide

theorem readsFWS_split {s w r : Bytes} (h : ReadsFWS s w r) : s = w ++ r ∧ ∀ c ∈ w, c = SP ∨ c = TAB ∨ c = CR ∨ c = LF := by
  cases h with
  | plain w r ha hs => exact ⟨rfl, isFWS_nul (.inl ha)⟩
  | fold a b r ha hb hne hr => exact ⟨by simp, isFWS_nul (.inr ⟨a, b, ha, hb, hne, rfl⟩)⟩
  | unwind a r ha hr => exact ⟨rfl, by simp⟩

theorem Spec.AllClosed.fws {sc o : Bool} {s w r : Bytes} (h : ReadsFWS s w r) (hr : AllClosed sc o r) : AllClosed sc o s := by
  obtain ⟨rfl, hw⟩ := readsFWS_split h
  exact hr.ws hw

theorem not_special {c : Byte} (h : isSpecial c = false) : c ∉ [34, 40, 60, 62, 44, 59] := by
  simp only [isSpecial, Bool.or_eq_false_iff, beq_eq_false_iff_ne] at h
  obtain ⟨⟨⟨⟨⟨a, b⟩, c⟩, d⟩, e⟩, f⟩ := h
  simp only [List.mem_cons, List.not_mem_nil, or_false]
  rintro (h | h | h | h | h | h) <;> contradiction

theorem Spec.AllClosed.word {sc o : Bool} {s a r : Bytes} (h : WordText s a r) (hr : AllClosed sc o r) : AllClosed sc o s := by
  induction h with
  | fin => exact hr
  | ws s w r hf hw => exact hr.fws hf
  | special c r hc => exact hr
  | byte c r a r' hf hc hw ih => exact .other o c r (not_special hc) (ih hr)

/-- Whether brackets are closed, by tokens. -/
def TokClosed : Bool → List Tok → Prop
  | o, [] => o = false
  | _, .opening :: ts => TokClosed true ts
  | _, .closing :: ts => TokClosed false ts
  | o, .separator :: ts => o = false ∧ TokClosed false ts
  | o, _ :: ts => TokClosed o ts

theorem tokens_closed {sc : Bool} {s : Bytes} {ts : List Tok} (h : TokensText sc s ts) : ∀ o, TokClosed o ts → AllClosed sc o s := by
  induction h with
  | done s w hf => intro o ho; cases (show o = false from ho); exact AllClosed.fin.fws hf
  | cons s t r ts ht _ ih =>
    intro o ho
    cases ht with
    | word w c r a _ hf hc hw h0 => exact (AllClosed.other o c r (not_special hc) ((ih o ho).word hw)).fws hf
    | quoted w text content _ hf hq h0 => exact (AllClosed.quoted o content text r hq (ih o ho)).fws hf
    | comment w text _ hf hc h0 => exact (AllClosed.comment o text r hc (ih o ho)).fws hf
    | opening w _ hf => exact (AllClosed.opening o r (ih true ho)).fws hf
    | closing w _ hf => exact (AllClosed.closing o r (ih false ho)).fws hf
    | separator w c _ hf hc =>
      obtain ⟨rfl, h⟩ := (show o = false ∧ TokClosed false ts from ho)
      exact (AllClosed.separator c r hc (ih false h)).fws hf

theorem tokClosed_group {g ts : List Tok} (h : OneGroup g) (ho : Tok.opening ∉ g) (o : Bool) (ht : TokClosed o ts) : TokClosed o (g ++ ts) := by
  induction g with
  | nil => exact ht
  | cons t g ih =>
    have ih := ih ⟨fun x => h.1 (by simp [x]), fun x => h.2 (by simp [x])⟩ (fun x => ho (by simp [x]))
    cases t with
    | opening => exact absurd (by simp) ho
    | closing => exact absurd (by simp) h.1
    | separator => exact absurd (by simp) h.2
    | word a => exact ih
    | quoted a => exact ih
    | comment => exact ih

theorem tokClosed_closing {g ts : List Tok} (h : OneGroup g) (ht : TokClosed false ts) : ∀ o, TokClosed o (g ++ .closing :: ts) := by
  induction g with
  | nil => intro o; exact ht
  | cons t g ih =>
    have ih := ih ⟨fun x => h.1 (by simp [x]), fun x => h.2 (by simp [x])⟩
    intro o
    cases t with
    | opening => exact ih true
    | closing => exact absurd (by simp) h.1
    | separator => exact absurd (by simp) h.2
    | word a => exact ih o
    | quoted a => exact ih o
    | comment => exact ih o

theorem groups_closed {N : Bytes → List Bytes → Prop} {ts : List Tok} {as : List Bytes} (h : Groups N ts as) : TokClosed false ts := by
  induction h with
  | last g as h1 h2 h3 => simpa using tokClosed_group (ts := []) h1 h2 false rfl
  | separator g as ts bs h1 h2 h3 h4 ih => exact tokClosed_group h1 h2 false ⟨rfl, ih⟩
  | closing g as ts bs h1 h2 h3 ih => exact tokClosed_closing h1 ih false

/-- C63: in a text that `ParseAddressList` accepts, every quoted string, comment and angle bracket is closed. -/
theorem C63_closed (sc : Bool) (s : Bytes) (l : List Bytes) (h : parseAddressList sc s = .ok l) : AllClosed sc false s := by
  obtain ⟨n, h⟩ := (C72_list_iff sc s l).1 h
  cases n with
  | zero => exact h.elim
  | succ n =>
    obtain ⟨ts, h1, h2⟩ := h
    exact tokens_closed h1 false (groups_closed h2)

/-- Without quotation marks and parentheses, only brackets matter. -/
theorem Spec.AllClosed.bracketed {sc o : Bool} {s : Bytes} (h : AllClosed sc o s) (h1 : 34 ∉ s) (h2 : 40 ∉ s) : Bracketed o s := by
  induction h with
  | fin => rfl
  | quoted o content text r hq hr ih => exact absurd (by simp) h1
  | comment o text r hc hr ih => exact absurd (by simp) h2
  | opening o r hr ih => rw [Spec.Bracketed, if_pos rfl]; exact ih (fun x => h1 (by simp [x])) (fun x => h2 (by simp [x]))
  | closing o r hr ih =>
    rw [Spec.Bracketed, if_neg (by decide), if_pos rfl]; exact ih (fun x => h1 (by simp [x])) (fun x => h2 (by simp [x]))
  | separator c r hc hr ih =>
    have ih := ih (fun x => h1 (by simp [x])) (fun x => h2 (by simp [x]))
    rw [Spec.Bracketed]
    rcases hc with rfl | rfl
    · simpa using ih
    · simpa using ih
  | other o c r hc hr ih =>
    have ih := ih (fun x => h1 (by simp [x])) (fun x => h2 (by simp [x]))
    simp only [List.mem_cons, List.not_mem_nil, or_false, not_or] at hc
    rw [Spec.Bracketed, if_neg hc.2.2.1, if_neg hc.2.2.2.1, if_neg (by simp [hc])]
    exact ih

/-- C63 applies to lists with quoted strings, nested comments and addresses in brackets; texts that leave something open are not `AllClosed`. -/
theorem C63_closed_example :
    AllClosed true false b!"\"Doe, J.\" <j@a.b> (x (<) y), c@d" ∧ ¬ AllClosed true false b!"<a@b" ∧ ¬ AllClosed true false b!"<a@b, c@d>" ∧
    ∀ s o, 34 ∉ s → ¬ AllClosed true o (34 :: s) := by
  refine ⟨C63_closed true _ [b!"j@a.b", b!"c@d"] (by decide +kernel), ?_, ?_, ?_⟩
  · intro h
    have := h.bracketed (by decide) (by decide)
    simp [Spec.Bracketed] at this
  · intro h
    have := h.bracketed (by decide) (by decide)
    simp [Spec.Bracketed] at this
  · intro s o hs h
    generalize ht : (34 : Byte) :: s = t at h
    cases h with
    | fin => cases ht
    | quoted _ content text r hq hr => cases ht; exact hs (by simp)
    | comment _ text r hc hr => cases ht
    | opening _ r hr => cases ht
    | closing _ r hr => cases ht
    | separator c r hc hr => cases ht; simp at hc
    | other _ c r hc hr => cases ht; simp at hc

end Dkim

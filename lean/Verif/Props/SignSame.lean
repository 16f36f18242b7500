import Verif.Props.Relay
import Verif.Proofs.Signing
/-!
# Property C58: what a signature does not depend on
-/

namespace Dkim
open Spec

variable {E : Env}

theorem signLoop_filter (mode : CanonMode) (sel : List Bytes) (hs hs' : List Header)
    (h : (hs.filter (Wanted sel)).map (fun f => (lower f.name, filterHeader mode f.header)) =
      (hs'.filter (Wanted sel)).map (fun f => (lower f.name, filterHeader mode f.header))) :
    signLoop mode sel hs = signLoop mode sel hs' := by
  have key : ∀ (l : List Header), (∀ f ∈ l, Wanted sel f) → ∀ (l' : List Header), (∀ f ∈ l', Wanted sel f) →
      l.map (fun f => (lower f.name, filterHeader mode f.header)) = l'.map (fun f => (lower f.name, filterHeader mode f.header)) →
      signLoop mode sel l = signLoop mode sel l' := by
    intro l
    induction l with
    | nil =>
      intro _ l' _ e
      cases l' with
      | nil => rfl
      | cons _ _ => simp at e
    | cons f l ih =>
      intro h1 l' h2 e
      cases l' with
      | nil => simp at e
      | cons g l' =>
        simp only [List.map_cons, List.cons.injEq, Prod.mk.injEq] at e
        unfold signLoop
        rw [if_pos ((isSelected_iff _ _).2 (h1 f (by simp))), if_pos ((isSelected_iff _ _).2 (h2 g (by simp))), e.1.2,
          ih (fun x hx => h1 x (by simp [hx])) l' (fun x hx => h2 x (by simp [hx])) e.2, e.1.1]
  have drop : ∀ l : List Header, signLoop mode sel l = signLoop mode sel (l.filter (Wanted sel)) := by
    intro l
    induction l with
    | nil => rfl
    | cons f l ih =>
      by_cases hw : Wanted sel f
      · rw [List.filter_cons_of_pos (by simpa using hw)]
        unfold signLoop
        rw [ih]
      · rw [List.filter_cons_of_neg (by simpa using hw)]
        rw [signLoop, if_neg (by rw [isSelected_iff]; exact hw), ih]
  rw [drop hs, drop hs']
  refine key _ ?_ _ ?_ h
  · intro f hf; simpa using (List.mem_filter.1 hf).2
  · intro f hf; simpa using (List.mem_filter.1 hf).2

/-- What signing sees of a message. -/
structure SameSource (sel : List Bytes) (hmode bmode : CanonMode) (m n : Mail) : Prop where
  good : m.Good ↔ n.Good
  fields : ((m.fields.map mkField).filter (Wanted sel)).map (fun f => (lower f.name, filterHeader hmode f.header)) =
    ((n.fields.map mkField).filter (Wanted sel)).map (fun f => (lower f.name, filterHeader hmode f.header))
  body : Spec.canonBody bmode m.body = Spec.canonBody bmode n.body

theorem lower_nil_iff (s : Bytes) : lower s = [] ↔ s = [] := by
  unfold lower; simp

theorem wanted_congr {sel : List Bytes} {h h' : Header} (e : Spec.lower h.name = Spec.lower h'.name) : Wanted sel h ↔ Wanted sel h' := by
  have e' : lower h.name = lower h'.name := by simpa using e
  have : h.name ≠ [] ↔ h'.name ≠ [] := by
    show ¬ _ = [] ↔ ¬ _ = []
    rw [← lower_nil_iff h.name, e', lower_nil_iff]
  unfold Wanted
  rw [this, e]

theorem Spec.SignSame.source {sel : List Bytes} {hmode bmode : CanonMode} {m n : Mail} (h : SignSame sel hmode bmode m n) :
    SameSource sel hmode bmode m n := by
  induction h with
  | refl m => exact ⟨Iff.rfl, rfl, rfl⟩
  | symm _ ih => exact ⟨ih.good.symm, ih.fields.symm, ih.body.symm⟩
  | trans _ _ ih1 ih2 => exact ⟨ih1.good.trans ih2.good, ih1.fields.trans ih2.fields, ih1.body.trans ih2.body⟩
  | insert a b f t hf hw =>
    refine ⟨?_, ?_, rfl⟩
    · unfold Mail.Good
      simp only [List.mem_append, List.mem_cons]
      constructor
      · rintro h g (hg | rfl | hg)
        · exact h g (Or.inl hg)
        · exact hf
        · exact h g (Or.inr hg)
      · rintro h g (hg | hg)
        · exact h g (Or.inl hg)
        · exact h g (Or.inr (Or.inr hg))
    · simp only [List.map_append, List.map_cons]
      rw [List.filter_append, List.filter_append, List.filter_cons_of_neg (a := mkField f) (by simpa using hw)]
  | refold a f g b t hr hf hg hs =>
    refine ⟨?_, ?_, rfl⟩
    · unfold Mail.Good
      simp only [List.mem_append, List.mem_cons]
      constructor
      · rintro h x (hx | rfl | hx)
        · exact h x (Or.inl hx)
        · exact hg
        · exact h x (Or.inr (Or.inr hx))
      · rintro h x (hx | rfl | hx)
        · exact h x (Or.inl hx)
        · exact hf
        · exact h x (Or.inr (Or.inr hx))
    · have hcf : filterHeader hmode (mkField f).header = filterHeader hmode (mkField g).header := by
        rw [hr, mkField_header, mkField_header, C06_relaxed _ (wellFolded_mkField hf) hs.noBareCR.1 hs.legal.1 hs.named.1,
          C06_relaxed _ (wellFolded_mkField hg) hs.noBareCR.2 hs.legal.2 hs.named.2, hs.canon]
      have hn : Dkim.lower (mkField f).name = Dkim.lower (mkField g).name := by have := hs.name; simpa [nameOf] using this
      simp only [List.map_append, List.map_cons]
      rw [List.filter_append, List.filter_append, List.map_append, List.map_append]
      congr 1
      by_cases hw : Wanted sel (mkField f)
      · have hw' : Wanted sel (mkField g) := (wanted_congr hs.name).1 hw
        rw [List.filter_cons_of_pos (by simpa using hw), List.filter_cons_of_pos (by simpa using hw')]
        simp only [List.map_cons, hn, hcf]
      · have hw' : ¬ Wanted sel (mkField g) := fun h => hw ((wanted_congr hs.name).2 h)
        rw [List.filter_cons_of_neg (by simpa using hw), List.filter_cons_of_neg (by simpa using hw')]
  | body fs t u hq =>
    refine ⟨Iff.rfl, rfl, ?_⟩
    have key : ∀ x : Bytes, bodyBytes bmode x false 0 = .ok (Spec.canonBody bmode x, true) := by
      intro x
      rw [bodyBytes_eq]
      rfl
    have := (C04_body_equiv_iff _ _ _).1 hq
    rw [key, key] at this
    simpa using this

/-- C58: messages that differ only in fields not selected, in the folding of signed fields (relaxed) and in immaterial
body changes get the very same signature (or the same error). -/
theorem C58_sign_same (o : Options E) (clock : Nat → Int) (m m' : Mail) (hg : m.Good)
    (h : SignSame o.headers o.canonHead o.canonBody m m') :
    (Signatory.createSignature E o clock { file := freshStream m.text }).1 =
      (Signatory.createSignature E o clock { file := freshStream m'.text }).1 := by
  have S := h.source
  have main : ∀ n : Mail, n.Good → (Signatory.createSignature E o clock { file := freshStream n.text }).1 =
      signParsed E o clock (n.fields.map mkField) n.body := by
    intro n hn
    obtain ⟨p, s, h1, h2, h3⟩ := parse_text n hn
    obtain ⟨hv, hd⟩ := parse_valid _ _ _ h1
    obtain ⟨r, s2, _, _, e⟩ := createSignature_eq o clock { file := freshStream n.text } p s h1 hv
    rw [e, hd, h3, h2]
  rw [main m hg, main m' (S.good.1 hg)]
  unfold signParsed
  rw [S.body]
  have hl : signLoop o.canonHead o.headers (m.fields.map mkField).reverse =
      signLoop o.canonHead o.headers (m'.fields.map mkField).reverse := by
    apply signLoop_filter
    rw [List.filter_reverse, List.filter_reverse, List.map_reverse, List.map_reverse, S.fields]
  rw [hl]

namespace Samples

/-- The sample message before signing. -/
def unsigned : Mail := ⟨[[b!"To: x"], [b!"From: a@b.c"], [b!"To: y,", b!" z"]], b!"Hi\r\n"⟩

/-- The hypotheses of `C58_sign_same` are met: an unselected field is put in, the body gets blank lines. -/
example : unsigned.text = message ∧ unsigned.Good ∧ SignSame rsaOpts.headers rsaOpts.canonHead rsaOpts.canonBody unsigned
    ⟨[[b!"To: x"], [b!"Subject: s"], [b!"From: a@b.c"], [b!"To: y,", b!" z"]], b!"Hi\r\n\n"⟩ := by
  refine ⟨by decide +kernel, ?_, ?_⟩
  · intro g hg
    apply oneField_of
    simp only [unsigned, List.mem_cons, List.not_mem_nil, or_false] at hg
    rcases hg with rfl | rfl | rfl <;> decide +kernel
  · refine .trans (n := ⟨[[b!"To: x"], [b!"Subject: s"], [b!"From: a@b.c"], [b!"To: y,", b!" z"]], b!"Hi\r\n"⟩) ?_ ?_
    · exact .insert [[b!"To: x"]] _ [b!"Subject: s"] _ (oneField_of (by decide)) (by decide +kernel)
    · exact .symm (.body _ _ _ (BodyEquiv.blankLine b!"Hi\r\n"))

end Samples

end Dkim

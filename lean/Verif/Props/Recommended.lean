import Verif.Spec.Recommended
import Verif.Props.Signing
/-!
# Property C96: the fields signed unless the caller says otherwise

Spec: `Verif/Spec/Recommended.lean`.
-/

namespace Dkim
open Spec

variable {E : Env}

/-- Edits that neither replace the list nor remove `n` keep `n`. -/
theorem edits_keep (n : Bytes) (es : List HeaderEdit) (h : ∀ e ∈ es, match e with | .replace _ => False | .append _ => True | .remove l => n ∉ l)
    (hs : List Bytes) (hn : n ∈ hs) : n ∈ es.foldl HeaderEdit.apply hs := by
  induction es generalizing hs with
  | nil => exact hn
  | cons e es ih =>
    refine ih (fun e' he => h e' (by simp [he])) _ ?_
    have := h e (by simp)
    cases e with
    | replace l => exact absurd this (by simp)
    | append l => exact List.mem_append_left _ hn
    | remove l => exact List.mem_filter.2 ⟨hn, decide_eq_true this⟩

theorem mem_headerEdit {ops : List (OptOp E)} {e : HeaderEdit} (h : e ∈ ops.filterMap headerEdit) :
    match e with | .replace l => OptOp.setHeaders l ∈ ops | .append l => OptOp.addHeaders l ∈ ops | .remove l => OptOp.delHeaders l ∈ ops := by
  obtain ⟨op, ho, he⟩ := List.mem_filterMap.1 h
  cases op <;> simp only [headerEdit, Option.some.injEq, reduceCtorEq] at he <;> subst he <;> exact ho

/-- C96: with options that were never told otherwise (any history of setter calls without `SetHeaders`), every signature of every message covers
every occurrence of every field the RFCs recommend to sign - as long as no `DelHeaders` call names it; and without any call that edits the list
no field that the RFCs advise against. Covered: it is in what is hashed, and named in h=. -/
theorem C96_default_fields (ops : List (OptOp E)) (hset : ∀ l, OptOp.setHeaders l ∉ ops) (clock : Nat → Int) (d H : Bytes) (ls : List Bytes)
    (off : Int) (hd : HeadText 0 d ls off)
    (hsign : (Signatory.createSignature E (Options.history {} ops) clock { file := freshStream d }).1 = .ok H) :
    ∃ ts fs cs, H = joinLines ts ∧ ts.length = (Options.history {} ops).signatures.length ∧
      fs.Sublist ((groupLines ls).map mkField).reverse ∧
      (∀ n ∈ Rfc.recommended, (∀ l, OptOp.delHeaders l ∈ ops → n ∉ l) →
        fieldsNamed fs n = (fieldsNamed ((groupLines ls).map mkField) n).reverse) ∧
      ((∀ l, OptOp.addHeaders l ∉ ops ∧ OptOp.delHeaders l ∉ ops) → ∀ f ∈ fs, Spec.lower f.name ∉ Rfc.discouraged) ∧
      CanonAll (Options.history {} ops).canonHead fs cs ∧
      ∀ (i : Nat) s, (Options.history {} ops).signatures.reverse[i]? = some s → ∃ a h c b t2 sgn,
        ts[i]? = some (a ++ b!";\r\n\th=" ++ h ++ b!";\r\n\tbh=" ++ c ++ b) ∧
        filterHeader (Options.history {} ops).canonHead (a ++ b!";\r\n\th=" ++ h ++ b!";\r\n\tbh=" ++ c) = .ok t2 ∧
        FoldedList (fs.map (fun f => Spec.lower f.name) ++ (Options.history {} ops).oversign.map Spec.lower) h ∧
        SignedBy E (Options.history {} ops) s (E.hash (Options.history {} ops).digest (lines cs ++ t2)) sgn := by
  obtain ⟨ts, cs, h1, h2, h3, h4⟩ := C48_signed_headers _ clock d H ls off hd hsign
  refine ⟨ts, _, cs, h1, h2, List.filter_sublist, ?_, ?_, h3, h4⟩
  · intro n hn hdel
    have hin : n ∈ (Options.history ({} : Options E) ops).headers := by
      rw [C51_headers]
      refine edits_keep n _ ?_ _ ?_
      · intro e he
        have := mem_headerEdit he
        cases e with
        | replace l => exact absurd this (hset l)
        | append l => trivial
        | remove l => exact hdel l this
      · have : ∀ n ∈ Rfc.recommended, n ∈ defaultHeaders := by decide +kernel
        exact this n hn
    have hne : n ≠ [] := by
      have : ∀ n ∈ Rfc.recommended, n ≠ [] := by decide +kernel
      exact this n hn
    unfold fieldsNamed
    rw [List.filter_filter, ← List.filter_reverse]
    apply List.filter_congr
    intro f _
    by_cases he : Spec.lower f.name = Spec.lower n
    · have hw : Wanted (Options.history ({} : Options E) ops).headers f := by
        refine ⟨?_, .inr ⟨n, hin, he.symm⟩⟩
        intro h0
        rw [h0] at he
        cases n with
        | nil => exact hne rfl
        | cons c n => cases he
      show (decide (Spec.lower f.name = Spec.lower n) && decide (Wanted _ f)) = decide (Spec.lower f.name = Spec.lower n)
      rw [decide_eq_true he, decide_eq_true hw]
      rfl
    · show (decide (Spec.lower f.name = Spec.lower n) && decide (Wanted _ f)) = decide (Spec.lower f.name = Spec.lower n)
      rw [decide_eq_false he]
      rfl
  · intro hadd f hf
    obtain ⟨_, hw⟩ := List.mem_filter.1 hf
    obtain ⟨_, hw⟩ := of_decide_eq_true hw
    have hdef : (Options.history ({} : Options E) ops).headers = defaultHeaders := by
      rw [C51_headers]
      have : ops.filterMap headerEdit = [] := by
        apply List.eq_nil_iff_forall_not_mem.2
        intro e he
        have := mem_headerEdit he
        cases e with
        | replace l => exact absurd this (hset l)
        | append l => exact absurd this (hadd l).1
        | remove l => exact absurd this (hadd l).2
      rw [this]
      rfl
    rw [hdef] at hw
    have hnot : ∀ n ∈ defaultHeaders, Spec.lower n ∉ Rfc.discouraged := by decide +kernel
    rcases hw with hw | ⟨n, hn, he⟩
    · exact absurd hw (by decide)
    · rw [← he]
      exact hnot n hn

/-- A surprise: `DelHeaders` with all the names leaves an empty list, which means "every field" - so removing the last name from the list signs
all fields, whatever their name. -/
theorem C96_emptied_list_signs_all (o : Options E) (l : List Bytes) (hl : ∀ n ∈ o.headers, n ∈ l) (hs : List Header) :
    signedFields ((OptOp.delHeaders l).run o).2.headers hs = hs.reverse.filter (fun f => decide (f.name ≠ [])) := by
  have : ((OptOp.delHeaders l).run o).2.headers = [] := by
    apply List.eq_nil_iff_forall_not_mem.2
    intro n hn
    obtain ⟨h1, h2⟩ := (C51_delHeaders o l n).1.1 hn
    exact h2 (hl n h1)
  rw [this]
  unfold signedFields
  apply List.filter_congr
  intro f _
  simp [Wanted]

example : (signedFields ((OptOp.delHeaders defaultHeaders).run ({} : Options toyEnv)).2.headers [⟨b!"Received", b!"Received: x", 9⟩]).length = 1 := by
  decide +kernel

/-- The options of the sample: key, domain and selector set, nothing about the fields. -/
def plainOps : List (OptOp toyEnv) :=
  [.sig none (.rsaPrivateKey (some (7 : Nat))), .addHeaders [b!"X-Spam"], .delHeaders [b!"cc"], .sig none (.domain b!"d.e"), .sig none (.selector b!"s")]

/-- The hypotheses are met: a message with two To fields, a Cc (removed from the list) and a Received field. -/
def plainMessage : Bytes := b!"Received: x\r\nTO: a\r\nFrom: b\r\nCc: c\r\nTo: d\r\n\r\n"

example : (∀ l, OptOp.setHeaders l ∉ plainOps) ∧
    (∃ H, (Signatory.createSignature toyEnv (Options.history {} plainOps) (fun _ => 0) { file := freshStream plainMessage }).1 = .ok H) ∧
    (∀ l, OptOp.delHeaders l ∈ plainOps → b!"to" ∉ l) := by
  refine ⟨by intro l; simp [plainOps], ?_, ?_⟩
  · obtain ⟨H, h, _⟩ := ok_of (Signatory.createSignature toyEnv (Options.history {} plainOps) (fun _ => 0) { file := freshStream plainMessage }).1
      (fun _ => true) (by decide +kernel)
    exact ⟨H, h⟩
  · intro l hl
    have : l = [b!"cc"] := by simpa [plainOps] using hl
    rw [this]
    decide

end Dkim

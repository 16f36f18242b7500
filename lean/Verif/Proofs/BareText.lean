import Verif.Proofs.BareCR
import Verif.Proofs.SigLines
import Verif.Proofs.Rfc
import Verif.Props.Options
/-! Which generated signature fields contain a CR that is not followed by LF. -/

namespace Dkim
open Spec

variable {E : Env}

theorem val_not_CR {x : Bytes} (h : ∀ c ∈ x, IsValByte c) : CR ∉ x := by
  intro hc
  have := h _ hc
  revert this; decide

theorem fmtLu_no_CR (v : Int) : CR ∉ fmtLu v := val_not_CR (fun c hc => digit_val ((fmtLu_digits v).2 c hc))

theorem sigTimes_no_CR {o : Options E} {now : Int} {times : Bytes} (h : sigTimes o now = .ok times) : CR ∉ times := by
  rw [(sigTimes_eq h).1]
  have h1 := fmtLu_no_CR (sigTimestamp o now)
  have h2 := fmtLu_no_CR (expOf o now)
  simp only [List.mem_append, not_or]
  constructor
  · split
    · simp only [List.mem_append, not_or]; exact ⟨⟨by decide, h1⟩, by decide⟩
    · simp
  · split
    · simp only [List.mem_append, not_or]; exact ⟨⟨by decide, h2⟩, by decide⟩
    · simp

theorem sigPrefix_no_CR (o : Options E) : CR ∉ sigPrefix o := by
  have h1 := fmtLu_no_CR o.arcInstance
  have h2 := val_not_CR (algText_val o.first.alg o.digest)
  have h3 : ∀ m : CanonMode, CR ∉ m.text := by intro m; cases m <;> decide
  unfold sigPrefix
  simp only [List.mem_append, not_or]
  refine ⟨⟨⟨⟨⟨⟨?_, h2⟩, by decide⟩, h3 _⟩, by decide⟩, h3 _⟩, by decide⟩
  split
  · simp only [List.mem_append, not_or]; exact ⟨⟨by decide, h1⟩, by decide⟩
  · decide

theorem bareCR_items (items : List Item) (h : ∀ i ∈ items, (i.pre = [] ∨ i.pre = foldWS) ∧ i.post = []) :
    HasBareCR (items.flatMap (fun i => COLON :: i.text)) ↔ ∃ n ∈ items.map Item.val, HasBareCR n := by
  induction items with
  | nil => simp [bareCR_nil]
  | cons i items ih =>
    have hi := h i (by simp)
    have ih := ih (fun j hj => h j (by simp [hj]))
    have htail : (items.flatMap (fun i => COLON :: i.text)).head? ≠ some LF := by
      cases items with
      | nil => simp
      | cons j items => simp; decide
    rw [List.flatMap_cons, bareCR_append _ htail, ih]
    have : HasBareCR (COLON :: i.text) ↔ HasBareCR i.val := by
      rw [bareCR_ne (by decide)]
      unfold Item.text
      rw [hi.2, List.append_nil]
      rcases hi.1 with hp | hp <;> rw [hp]
      · rfl
      · show HasBareCR (CR :: LF :: (b!"\t " ++ i.val)) ↔ _
        rw [bareCR_CRLF, bareCR_front (by decide)]
    rw [this]
    simp

theorem bareCR_foldH (names : List Bytes) :
    HasBareCR ((foldH true b!"\th=" names).1 ++ (foldH true b!"\th=" names).2) ↔ ∃ n ∈ names, HasBareCR n := by
  cases names with
  | nil =>
    simp only [foldH, List.nil_append]
    constructor
    · intro h; exact absurd h (bareCR_noCR (by decide))
    · rintro ⟨n, hn, _⟩; cases hn
  | cons n ns =>
    obtain ⟨pre, items, h1, h2, h3, h4⟩ := foldH_first b!"\th=" n ns
    rw [h4, joinColon_flatMap, List.append_assoc, bareCR_front (by decide)]
    have htail : ((items.map Item.text).flatMap (COLON :: ·)).head? ≠ some LF := by
      cases items with
      | nil => simp
      | cons j items => simp; decide
    have hp : HasBareCR (pre ++ (n ++ (items.map Item.text).flatMap (COLON :: ·))) ↔
        HasBareCR (n ++ (items.map Item.text).flatMap (COLON :: ·)) := by
      rcases h3 with hp | hp <;> rw [hp]
      · rfl
      · show HasBareCR (CR :: LF :: (b!"\t " ++ (n ++ (items.map Item.text).flatMap (COLON :: ·)))) ↔ _
        rw [bareCR_CRLF, bareCR_front (by decide)]
    rw [hp, bareCR_append _ htail]
    have := bareCR_items items h2
    rw [List.flatMap_map, this, h1]
    simp

/-- The generated field has a bare CR exactly if one of the names has one. -/
theorem sigHeaderText_bareCR {o : Options E} {s : SigOpts E} {now : Int} {names : List Bytes} {bh text : Bytes}
    (h : sigHeaderText o s now names bh = .ok text) (hd : CR ∉ s.domain) (hs : CR ∉ s.selector) :
    (HasBareCR text ↔ ∃ n ∈ names, HasBareCR n) ∧ COLON ∈ text := by
  unfold sigHeaderText at h
  split at h
  · cases h
  · rename_i times ht
    cases h
    refine ⟨?_, ?_⟩
    · obtain ⟨dl, hdl, hdl2⟩ : ∃ dl, sigDomainLine o s = dl ++ CRLF ∧ CR ∉ dl := by
        refine ⟨b!"\td=" ++ s.domain ++ b!"; s=" ++ s.selector ++
          (if o.identity.isEmpty then [] else b!"; i=" ++ qpEncode o.identity) ++
          (if o.bodySignLength then b!"; l=" ++ fmtLu o.bodyLength else []) ++ b!";", ?_, ?_⟩
        · unfold sigDomainLine
          rw [qpEncode_cstr]
          simp [CRLF, CR, LF]
        · have k1 : CR ∉ qpEncode o.identity := val_not_CR (fun c hc => C17_safe_bytes _ c hc)
          have k2 := fmtLu_no_CR o.bodyLength
          simp only [List.mem_append, not_or]
          refine ⟨⟨⟨⟨⟨⟨by decide, hd⟩, by decide⟩, hs⟩, ?_⟩, ?_⟩, by decide⟩
          · split
            · simp
            · rw [List.mem_append, not_or]; exact ⟨by decide, k1⟩
          · split
            · rw [List.mem_append, not_or]; exact ⟨by decide, k2⟩
            · simp
      have hb : CR ∉ b64Encode bh := val_not_CR (fun c hc => b64_val hc)
      have e : sigPrefix o ++ times ++ CRLF ++ sigDomainLine o s ++ sigHLines names ++
          b!"\tbh=" ++ b64Encode bh ++ b!";\r\n" ++ b!"\tb=" =
          (sigPrefix o ++ times) ++ (CR :: LF :: (dl ++ (CR :: LF ::
            (((foldH true b!"\th=" names).1 ++ (foldH true b!"\th=" names).2) ++
              (b!";" ++ (CR :: LF :: ((b!"\tbh=" ++ b64Encode bh ++ b!";") ++ (CR :: LF :: b!"\tb=")))))))) := by
        rw [hdl]; unfold sigHLines
        simp [CRLF, CR, LF]
      have h1 : CR ∉ sigPrefix o ++ times := by
        rw [List.mem_append, not_or]; exact ⟨sigPrefix_no_CR o, sigTimes_no_CR ht⟩
      have h2 : ¬ HasBareCR (b!";" ++ (CR :: LF :: ((b!"\tbh=" ++ b64Encode bh ++ b!";") ++ (CR :: LF :: b!"\tb=")))) := by
        rw [bareCR_front (by decide), bareCR_CRLF, bareCR_front (by
          simp only [List.mem_append, not_or]; exact ⟨⟨by decide, hb⟩, by decide⟩), bareCR_CRLF]
        exact bareCR_noCR (by decide)
      rw [e, bareCR_front h1, bareCR_CRLF, bareCR_front hdl2, bareCR_CRLF, bareCR_append _ (by show some (59 : Byte) ≠ some LF; decide), bareCR_foldH]
      constructor
      · rintro (h | h)
        · exact h
        · exact absurd h h2
      · exact Or.inl
    · have : COLON ∈ sigPrefix o := by
        unfold sigPrefix
        split <;> simp [COLON]
      simp [this]

theorem bareCR_lower (n : Bytes) : HasBareCR (lower n) ↔ HasBareCR n := by
  have := map_cls_lower n []
  rw [List.append_nil, List.append_nil] at this
  exact ⟨HasBareCR_cls this.symm, HasBareCR_cls this⟩

theorem safe_no_CR {x : Bytes} (h : UnsetOrDomain x) : CR ∉ x := by
  rcases h with rfl | h
  · simp
  · exact val_not_CR (fun c hc => letDig_val (domain_bytes h c hc))

/-! ### the names taken from the message -/

/-- The name of a field is the text before the colon without surrounding white space. -/
def NameInText (h : Header) : Prop :=
  (h.valueOffset = 0 ∧ h.name = []) ∨ ∃ a b, h.header = a ++ COLON :: b ∧ h.name = stripWSP a

theorem NameInText.parseLine {h : Header} (hn : NameInText h) (line : Bytes) : NameInText (h.parseLine line) := by
  unfold Header.parseLine
  dsimp only
  generalize ht : (if h.header.isEmpty then line else h.header ++ CRLF ++ line) = text
  by_cases h0 : h.valueOffset = 0
  · rw [if_pos h0]
    rcases findIdx_split (· == COLON) text with ⟨h1, _⟩ | ⟨a, x, b, rfl, hx, _, h1⟩
    · rw [h1]
      rcases hn with ⟨h2, h3⟩ | ⟨a, b, h2, h3⟩
      · exact Or.inl ⟨h2, h3⟩
      · right
        have hne : h.header.isEmpty = false := by rw [h2]; simp
        rw [hne] at ht
        simp only [Bool.false_eq_true, if_false] at ht
        refine ⟨a, b ++ CRLF ++ line, ?_, h3⟩
        show text = _
        rw [← ht, h2]; simp
    · rw [h1]
      have hx : x = COLON := by simpa using hx
      subst hx
      refine Or.inr ⟨a, b, rfl, ?_⟩
      show stripWSP ((a ++ COLON :: b).take a.length) = _
      rw [List.take_left' rfl]
  · rw [if_neg h0]
    rcases hn with ⟨h2, h3⟩ | ⟨a, b, h2, h3⟩
    · exact absurd h2 h0
    · right
      have hne : h.header.isEmpty = false := by rw [h2]; simp
      rw [hne] at ht
      simp only [Bool.false_eq_true, if_false] at ht
      refine ⟨a, b ++ CRLF ++ line, ?_, h3⟩
      show text = _
      rw [← ht, h2]; simp

/-- All fields of the message. -/
def NamesInText (m : Message) : Prop := (∀ h ∈ m.tmp, NameInText h) ∧ ∀ h ∈ m.headers, NameInText h

theorem NamesInText.push {m : Message} (hm : NamesInText m) : ∀ h ∈ m.pushTmp, NameInText h := by
  unfold Message.pushTmp
  intro h hh
  cases ht : m.tmp with
  | none => rw [ht] at hh; exact hm.2 h hh
  | some t =>
    rw [ht] at hh
    simp only [List.mem_append, List.mem_singleton] at hh
    rcases hh with hh | rfl
    · exact hm.2 h hh
    · exact hm.1 _ (by rw [ht]; rfl)

theorem NamesInText.parseLine {m : Message} (hm : NamesInText m) (s : IStream) : NamesInText (m.parseLine s).2.1 := by
  unfold Message.parseLine
  rcases s.getline with ⟨_ | line0, s1⟩
  · exact ⟨hm.1, hm.push⟩
  · dsimp only
    cases chopCR line0 with
    | nil => exact ⟨by simp, hm.push⟩
    | cons c cs =>
      dsimp only
      split
      · exact ⟨by
          intro h hh
          simp only [Option.mem_def, Option.some.injEq] at hh
          subst hh
          exact NameInText.parseLine (h := {}) (Or.inl ⟨rfl, rfl⟩) _, hm.push⟩
      · refine ⟨?_, hm.2⟩
        intro h hh
        simp only [Option.mem_def, Option.some.injEq] at hh
        subst hh
        apply NameInText.parseLine
        cases ht : m.tmp with
        | none => exact Or.inl ⟨rfl, rfl⟩
        | some t => exact hm.1 t (by rw [ht]; rfl)

theorem NamesInText.parseLoop (n : Nat) : ∀ {m m' : Message} {s s' : IStream}, NamesInText m →
    m.parseLoop n s = .ok (m', s') → NamesInText m' := by
  induction n with
  | zero => intro m m' s s' _ h; cases h
  | succ n ih =>
    intro m m' s s' hm h
    unfold Message.parseLoop at h
    have hp := hm.parseLine s
    generalize m.parseLine s = r at h hp
    obtain ⟨ok, m1, s1⟩ := r
    dsimp only at h hp
    split at h
    · exact ih hp h
    · cases h; exact hp

theorem stripWSP_split (a : Bytes) : ∃ u w, a = u ++ stripWSP a ++ w ∧ ∀ c ∈ w, isWSP c = true := by
  refine ⟨a.takeWhile isWSP, ((a.dropWhile isWSP).reverse.takeWhile isWSP).reverse, ?_, ?_⟩
  · unfold stripWSP
    rw [List.append_assoc, ← List.reverse_append, List.takeWhile_append_dropWhile, List.reverse_reverse,
      List.takeWhile_append_dropWhile]
  · intro c hc
    rw [List.mem_reverse] at hc
    exact List.all_eq_true.1 List.all_takeWhile c hc

/-- A bare CR in the name is a bare CR in the field. -/
theorem NameInText.bareCR {h : Header} (hn : NameInText h) (hb : HasBareCR h.name) :
    HasBareCR h.header ∧ COLON ∈ h.header := by
  rcases hn with ⟨_, h2⟩ | ⟨a, b, h1, h2⟩
  · rw [h2] at hb; exact absurd hb bareCR_nil
  · refine ⟨?_, by rw [h1]; simp⟩
    obtain ⟨u, w, e, hw⟩ := stripWSP_split a
    rw [← h2] at e
    rw [h1, e, List.append_assoc, List.append_assoc]
    obtain ⟨p, q, e2, hq⟩ := hb
    refine ⟨u ++ p, q ++ (w ++ COLON :: b), by rw [e2]; simp, ?_⟩
    cases q with
    | cons c q => exact hq
    | nil =>
      cases w with
      | nil => simp; decide
      | cons c w =>
        have := hw c (by simp)
        simp only [List.nil_append, List.cons_append, List.head?_cons, ne_eq, Option.some.injEq]
        rintro rfl
        exact absurd this (by decide)

/-- The names of the fields that were hashed in relaxed mode have no bare CR. -/
theorem signLoop_names_bareCR (sel : List Bytes) (hs : List Header) : ∀ {a : Bytes} {names : List Bytes},
    (∀ h ∈ hs, NameInText h) → signLoop .relaxed sel hs = .ok (a, names) → ∀ n ∈ names, ¬ HasBareCR n := by
  induction hs with
  | nil =>
    intro a names _ h n hn
    simp only [signLoop, Except.ok.injEq, Prod.mk.injEq] at h
    rw [← h.2] at hn; cases hn
  | cons x hs ih =>
    intro a names hin h
    unfold signLoop at h
    split at h
    · cases hf : filterHeader .relaxed x.header with
      | error e => rw [hf] at h; cases h
      | ok t =>
        rw [hf] at h
        dsimp only at h
        cases hl : signLoop .relaxed sel hs with
        | error e => rw [hl] at h; cases h
        | ok p =>
          obtain ⟨bs, ns⟩ := p
          rw [hl] at h
          simp only [Except.ok.injEq, Prod.mk.injEq] at h
          rw [← h.2]
          intro n hn
          rcases List.mem_cons.1 hn with rfl | hn
          · rw [bareCR_lower]
            intro hb
            obtain ⟨h1, h2⟩ := (hin x (by simp)).bareCR hb
            rcases filterHeader_bareCR h2 with ⟨h3, _⟩ | ⟨_, h3⟩
            · exact h3 h1
            · rw [hf] at h3; cases h3
          · exact ih (fun y hy => hin y (by simp [hy])) hl n hn
    · exact ih (fun y hy => hin y (by simp [hy])) h

end Dkim

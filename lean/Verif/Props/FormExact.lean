import Verif.Props.SigningForm
/-!
# C45: exactly when the generated text is well-formed
-/

namespace Dkim
open Spec

variable {E : Env}

/-- Every line feed in `t` ends a line with CR and is followed by a line starting with TAB. -/
def Spec.TabFolded (t : Bytes) : Prop := ∀ a b, t = a ++ LF :: b → (∃ x, a = x ++ [CR]) ∧ ∃ y, b = TAB :: y

theorem Spec.TabFolded.plain {t : Bytes} (h : LF ∉ t) : TabFolded t := by
  intro a b e
  exact absurd (by rw [e]; simp) h

theorem tabFolded_sep (x y : Bytes) (c : Byte) (h1 : c ≠ LF) (h2 : c ≠ CR) (h3 : c ≠ TAB) :
    TabFolded (x ++ c :: y) ↔ TabFolded x ∧ TabFolded y := by
  constructor
  · intro h
    constructor
    · intro a b e
      obtain ⟨g1, z, g2⟩ := h a (b ++ c :: y) (by rw [e]; simp)
      refine ⟨g1, ?_⟩
      cases b with
      | nil => simp only [List.nil_append, List.cons.injEq] at g2; exact absurd g2.1 h3
      | cons b0 b => simp only [List.cons_append, List.cons.injEq] at g2; exact ⟨b, by rw [g2.1]⟩
    · intro a b e
      obtain ⟨⟨z, g1⟩, g2⟩ := h (x ++ c :: a) b (by rw [e]; simp)
      refine ⟨?_, g2⟩
      rcases List.eq_nil_or_concat a with rfl | ⟨a', l, rfl⟩
      · have := congrArg List.getLast? g1
        simp at this; exact absurd this h2
      · have g3 : (x ++ c :: a') ++ [l] = z ++ [CR] := by rw [← g1]; simp
        have g4 := List.append_inj_right' g3 rfl
        simp only [List.cons.injEq, and_true] at g4
        exact ⟨a', by rw [g4]; simp⟩
  · rintro ⟨hx, hy⟩ a b e
    rcases List.append_eq_append_iff.1 e with ⟨w, e1, e2⟩ | ⟨w, e1, e2⟩
    · cases w with
      | nil => simp only [List.nil_append, List.cons.injEq] at e2; exact absurd e2.1 h1
      | cons w0 w =>
        simp only [List.cons_append, List.cons.injEq] at e2
        obtain ⟨⟨z, g1⟩, g2⟩ := hy w b e2.2
        exact ⟨⟨x ++ c :: z, by rw [e1, ← e2.1, g1]; simp⟩, g2⟩
    · cases w with
      | nil => simp only [List.nil_append, List.cons.injEq] at e2; exact absurd e2.1.symm h1
      | cons w0 w =>
        simp only [List.cons_append, List.cons.injEq] at e2
        obtain ⟨g1, z, g2⟩ := hx a w (by rw [e1, e2.1])
        exact ⟨g1, z ++ c :: y, by rw [e2.2, g2]; simp⟩

theorem tabFolded_break (x y : Bytes) : TabFolded (x ++ CR :: LF :: TAB :: y) ↔ TabFolded x ∧ TabFolded y := by
  constructor
  · intro h
    constructor
    · intro a b e
      obtain ⟨g1, z, g2⟩ := h a (b ++ CR :: LF :: TAB :: y) (by rw [e]; simp)
      refine ⟨g1, ?_⟩
      cases b with
      | nil => simp only [List.nil_append, List.cons.injEq] at g2; exact absurd g2.1 (by decide)
      | cons b0 b => simp only [List.cons_append, List.cons.injEq] at g2; exact ⟨b, by rw [g2.1]⟩
    · intro a b e
      obtain ⟨⟨z, g1⟩, g2⟩ := h (x ++ CR :: LF :: TAB :: a) b (by rw [e]; simp)
      refine ⟨?_, g2⟩
      rcases List.eq_nil_or_concat a with rfl | ⟨a', l, rfl⟩
      · have := congrArg List.getLast? g1
        simp at this; exact absurd this (by decide)
      · have g3 : (x ++ CR :: LF :: TAB :: a') ++ [l] = z ++ [CR] := by rw [← g1]; simp
        have g4 := List.append_inj_right' g3 rfl
        simp only [List.cons.injEq, and_true] at g4
        exact ⟨a', by rw [g4]; simp⟩
  · rintro ⟨hx, hy⟩ a b e
    rcases List.append_eq_append_iff.1 e with ⟨w, e1, e2⟩ | ⟨w, e1, e2⟩
    · cases w with
      | nil => simp only [List.nil_append, List.cons.injEq] at e2; exact absurd e2.1 (by decide)
      | cons w0 w =>
        simp only [List.cons_append, List.cons.injEq] at e2
        obtain ⟨e3, e4⟩ := e2
        cases w with
        | nil =>
          simp only [List.nil_append, List.cons.injEq, true_and] at e4
          exact ⟨⟨x, by rw [e1, ← e3]⟩, y, e4.symm⟩
        | cons w1 w =>
          simp only [List.cons_append, List.cons.injEq] at e4
          obtain ⟨e5, e6⟩ := e4
          cases w with
          | nil => simp only [List.nil_append, List.cons.injEq] at e6; exact absurd e6.1 (by decide)
          | cons w2 w =>
            simp only [List.cons_append, List.cons.injEq] at e6
            obtain ⟨⟨z, g1⟩, g2⟩ := hy w b e6.2
            exact ⟨⟨x ++ CR :: LF :: TAB :: z, by rw [e1, ← e3, ← e5, ← e6.1, g1]; simp⟩, g2⟩
    · cases w with
      | nil => simp only [List.nil_append, List.cons.injEq] at e2; exact absurd e2.1 (by decide)
      | cons w0 w =>
        simp only [List.cons_append, List.cons.injEq] at e2
        obtain ⟨g1, z, g2⟩ := hx a w (by rw [e1, e2.1])
        exact ⟨g1, z ++ CR :: LF :: TAB :: y, by rw [e2.2, g2]; simp⟩

theorem tabFolded_fold {g : Bytes} (hg : IsFold g) (n : Bytes) : TabFolded (g ++ n) ↔ TabFolded n := by
  rcases hg with rfl | rfl
  · rfl
  · have h := tabFolded_break [] (SP :: n)
    have h2 := tabFolded_sep [] n SP (by decide) (by decide) (by decide)
    simp only [List.nil_append] at h h2
    show TabFolded (CR :: LF :: TAB :: SP :: n) ↔ _
    rw [h, h2]
    exact ⟨fun h => h.2.2, fun h => ⟨.plain (by simp), .plain (by simp), h⟩⟩

theorem tabFolded_list {ns : List Bytes} {t : Bytes} (h : FoldedList ns t) : TabFolded t ↔ ∀ n ∈ ns, TabFolded n := by
  induction h with
  | nil => simp; exact .plain (by simp)
  | one g n hg => rw [tabFolded_fold hg]; simp
  | cons g n m ns t hg _ ih =>
    rw [tabFolded_sep _ _ COLON (by decide) (by decide) (by decide), tabFolded_fold hg, ih]
    constructor
    · rintro ⟨h1, h2⟩ x hx
      rcases List.mem_cons.1 hx with rfl | hx
      · exact h1
      · exact h2 x hx
    · intro h
      exact ⟨h n (by simp), fun x hx => h x (List.mem_cons_of_mem _ hx)⟩

theorem tabFolded_lines (c : Bytes) (cs : List Bytes) (h : ∀ x ∈ c :: cs, LF ∉ x) :
    TabFolded (joinLines (c :: cs.map (b!"\t " ++ ·))) := by
  induction cs generalizing c with
  | nil => exact .plain (h c (by simp))
  | cons d cs ih =>
    have e : joinLines (c :: (d :: cs).map (b!"\t " ++ ·)) =
        c ++ CR :: LF :: TAB :: (SP :: joinLines (d :: cs.map (b!"\t " ++ ·))) := by
      cases cs <;> simp [joinLines, CRLF, CR, LF, TAB, SP]
    rw [e, tabFolded_break]
    refine ⟨.plain (h c (by simp)), ?_⟩
    have := tabFolded_sep [] (joinLines (d :: cs.map (b!"\t " ++ ·))) SP (by decide) (by decide) (by decide)
    rw [List.nil_append] at this
    rw [this]
    exact ⟨.plain (by simp), ih d (fun x hx => h x (List.mem_cons_of_mem _ hx))⟩

/-- The text of one generated field has only well-formed line breaks exactly if the names listed have. -/
theorem oneSignature_folded {o : Options E} {s : SigOpts E} {now : Int} {hashed bh t : Bytes} {names : List Bytes}
    (h : oneSignature E o s now hashed names bh = .ok t) (hd : LF ∉ s.domain) (hs : LF ∉ s.selector) :
    TabFolded t ↔ ∀ n ∈ names, TabFolded n := by
  obtain ⟨times, text, t2, sgn, c, cs, h1, h2, h3, h4, h5, h6, h7, h8, h9⟩ := oneSignature_ok h
  obtain ⟨hv, hh, eh⟩ := foldH_folded names
  have hb : ∀ y ∈ c :: cs, LF ∉ y := by
    intro y hy
    apply val_not_LF
    intro b hb
    exact b64_val (x := sgn) (by rw [← h5]; exact List.mem_flatten.2 ⟨y, hy, hb⟩)
  have hb2 : LF ∉ b64Encode bh := val_not_LF (fun c hc => b64_val hc)
  obtain ⟨dl, hdl, hdl2⟩ : ∃ dl, sigDomainLine o s = b!"\td=" ++ dl ++ CRLF ∧ LF ∉ dl := by
    refine ⟨s.domain ++ b!"; s=" ++ s.selector ++
      (if o.identity.isEmpty then [] else b!"; i=" ++ qpEncode o.identity) ++
      (if o.bodySignLength then b!"; l=" ++ fmtLu o.bodyLength else []) ++ b!";", ?_, ?_⟩
    · unfold sigDomainLine
      rw [qpEncode_cstr]
      simp [CRLF, CR, LF]
    · have k1 : LF ∉ qpEncode o.identity := val_not_LF (fun c hc => C17_safe_bytes _ c hc)
      have k2 := fmtLu_no_LF o.bodyLength
      simp only [List.mem_append, not_or]
      refine ⟨⟨⟨⟨⟨hd, by decide⟩, hs⟩, ?_⟩, ?_⟩, by decide⟩
      · split
        · simp
        · rw [List.mem_append, not_or]; exact ⟨by decide, k1⟩
      · split
        · rw [List.mem_append, not_or]; exact ⟨by decide, k2⟩
        · simp
  have e : t = (sigPrefix o ++ times) ++ CR :: LF :: TAB :: ((b!"d=" ++ dl) ++ CR :: LF :: TAB :: (b!"h" ++ EQ :: (hv ++
      SEMI :: ([] ++ CR :: LF :: TAB :: ((b!"bh=" ++ b64Encode bh ++ b!";") ++ CR :: LF :: TAB :: (b!"b" ++ EQ ::
        joinLines (c :: cs.map (b!"\t " ++ ·)))))))) := by
    rw [h9, h2, hdl]
    unfold sigHLines
    rw [eh]
    simp [CRLF, CR, LF, TAB, EQ, SEMI]
  rw [e, tabFolded_break, tabFolded_break, tabFolded_sep _ _ EQ (by decide) (by decide) (by decide),
    tabFolded_sep _ _ SEMI (by decide) (by decide) (by decide), tabFolded_break, tabFolded_break,
    tabFolded_sep _ _ EQ (by decide) (by decide) (by decide), tabFolded_list hh]
  have q1 : LF ∉ sigPrefix o ++ times := by
    rw [List.mem_append, not_or]; exact ⟨sigPrefix_no_LF o, sigTimes_no_LF h1⟩
  have q2 : LF ∉ b!"d=" ++ dl := by rw [List.mem_append, not_or]; exact ⟨by decide, hdl2⟩
  have q3 : LF ∉ b!"bh=" ++ b64Encode bh ++ b!";" := by
    simp only [List.mem_append, not_or]; exact ⟨⟨by decide, hb2⟩, by decide⟩
  exact ⟨fun h => h.2.2.2.1, fun h => ⟨.plain q1, .plain q2, .plain (by decide), h, .plain (by simp), .plain q3,
    .plain (by decide), tabFolded_lines c cs hb⟩⟩

/-- C45, exactly when: `CreateSignature` returns one text per signature, joined by CRLF, and such a text
has nothing but CRLF TAB line breaks if and only if that is true of every name signed (in particular if
no name signed contains a line feed, `C45_names`). -/
theorem C45_exact (o : Options E) (hsafe : SafeOptions o) (clock : Nat → Int) (d H : Bytes) (ls : List Bytes) (off : Int)
    (hd : HeadText 0 d ls off)
    (hsign : (Signatory.createSignature E o clock { file := freshStream d }).1 = .ok H) :
    ∃ ts, H = joinLines ts ∧ ts.length = o.signatures.length ∧ ∀ t ∈ ts,
      (∃ x, t = (if o.arcInstance = 0 then b!"DKIM-Signature" else b!"ARC-Message-Signature") ++ COLON :: x) ∧
      (TabFolded t ↔ ∀ n ∈ signedNames o.headers o.oversign ((groupLines ls).map mkField), TabFolded n) := by
  obtain ⟨m, s1, cs, hp, hcap, hcs, hall⟩ := createSignature_ok o clock d H hsign
  obtain ⟨m2, s2, p1, p2, p3, _, _⟩ := parseAll_head hd (freshStream d) (at_fresh d)
  rw [hp] at p1; cases p1
  rw [p2] at hall
  obtain ⟨ts, l1, l2, l3⟩ := allSignatures_ok o clock _ _ _ 0 [] _ H hall
  simp only [List.isEmpty_nil, if_true] at l2
  refine ⟨ts, l2, by simpa using l1, ?_⟩
  intro t ht
  obtain ⟨i, hi, e⟩ := List.mem_iff_getElem.1 ht
  have hi2 : i < o.signatures.reverse.length := by rw [← l1]; exact hi
  obtain ⟨t', e1, e2⟩ := l3 i _ (List.getElem?_eq_getElem hi2)
  rw [List.getElem?_eq_getElem hi, e] at e1
  cases e1
  have hs : o.signatures.reverse[i] ∈ o.signatures := List.mem_reverse.1 (List.getElem_mem hi2)
  obtain ⟨q1, q2⟩ := hsafe _ hs
  refine ⟨?_, oneSignature_folded e2 (val_not_LF (fun c hc => letDig_val (C24_no_injection _ q1 c hc)))
    (val_not_LF (fun c hc => letDig_val (C24_no_injection _ q2 c hc)))⟩
  have hname : (if o.arcInstance = 0 then b!"DKIM-Signature" else b!"ARC-Message-Signature") = sigFieldName o := by
    unfold sigFieldName
    by_cases h : o.arcInstance = 0 <;> simp [h]
  obtain ⟨times, text, t2, sgn, c, cs, h1, h2, h3, h4, h5, h6, h7, h8, h9⟩ := oneSignature_ok e2
  obtain ⟨p, hp2⟩ := sigPrefix_head o
  have ht2 : ∃ r, t = sigPrefix o ++ r := by
    rw [h9, h2]
    simp only [List.append_assoc]
    exact ⟨_, rfl⟩
  obtain ⟨r, hr⟩ := ht2
  exact ⟨p ++ r, by rw [hname, hr, hp2]; simp⟩

/-- Both cases occur: a name with a well-formed line break, and one without. -/
example : TabFolded b!"foo\r\n\tbar" ∧ ¬ TabFolded b!"foo\r\n" ∧ ¬ TabFolded b!"foo\r\n bar" := by
  refine ⟨?_, fun h => ?_, fun h => ?_⟩
  · have := tabFolded_break b!"foo" b!"bar"
    exact this.2 ⟨.plain (by decide), .plain (by decide)⟩
  · obtain ⟨_, y, h⟩ := h b!"foo\r" [] (by decide)
    cases h
  · obtain ⟨_, y, h⟩ := h b!"foo\r" b!" bar" (by decide)
    cases h

/-- And messages with such names are signed. -/
example : ∃ H, Samples.sign { Samples.rsaOpts with headers := [] } b!"From: a\r\nFoo\r\n : x\r\n\r\n" = .ok H ∧
    ∃ t, H = t ∧ ¬ TabFolded t := by
  obtain ⟨H, h1, h2⟩ := C45_folded_name_witness
  refine ⟨H, h1, H, rfl, fun hf => ?_⟩
  obtain ⟨a, b, e⟩ := h2
  obtain ⟨_, y, h⟩ := hf (a ++ b!"\th=foo\r") (b!":from;" ++ b) (by rw [← e]; simp [LF])
  simp at h
  exact absurd h.1 (by decide)

end Dkim

import Verif.Props.Repeat
/-!
# C46: what later calls sign, for the messages not covered by `C46_later_calls_partial`
-/

namespace Dkim
open Spec

variable {E : Env}

/-- The text ends with an unterminated line that consists of CR only. -/
def Spec.EndsBlank (d : Bytes) : Prop := d = [CR] ∨ ∃ x, d = x ++ [LF, CR]

theorem Spec.EndsBlank.last {d : Bytes} (h : EndsBlank d) : ∃ x, d = x ++ [CR] := by
  rcases h with rfl | ⟨x, rfl⟩
  · exact ⟨[], rfl⟩
  · exact ⟨x ++ [LF], by simp⟩

/-- The last line of such a text. -/
theorem Spec.EndsBlank.rest {a r : Bytes} (h : EndsBlank (a ++ r)) (hr : r ≠ []) (hl : LF ∉ r) : r = [CR] := by
  rcases h with h | ⟨x, h⟩
  · cases a with
    | nil => exact h
    | cons c a =>
      simp only [List.cons_append, List.cons.injEq, List.append_eq_nil_iff] at h
      exact absurd h.2.2 hr
  · rcases List.append_eq_append_iff.1 h with ⟨w, e1, e2⟩ | ⟨w, e1, e2⟩
    · exact absurd (by rw [e2]; simp) hl
    · cases w with
      | nil => rw [List.nil_append] at e2; exact absurd (by rw [← e2]; simp) hl
      | cons w0 w =>
        simp only [List.cons_append, List.cons.injEq] at e2
        cases w with
        | nil => rw [List.nil_append] at e2; exact e2.2.symm
        | cons w1 w =>
          simp only [List.cons_append, List.cons.injEq] at e2
          have := e2.2.2
          simp only [List.nil_eq, List.append_eq_nil_iff] at this
          exact absurd this.2 hr

theorem chopCR_nil {l : Bytes} (h : chopCR l = []) (hl : l ≠ []) : l = [CR] := by
  unfold chopCR at h
  split at h
  · rename_i hc
    rcases List.eq_nil_or_concat l with rfl | ⟨x, c, rfl⟩
    · exact absurd rfl hl
    · simp at hc h
      rw [h, hc]; rfl
  · exact absurd h hl

theorem parse_tail (n : Nat) (m m' : Message) (s s' : IStream) (hd : m.done = false) (hm : m.tmp = none → m.headers = [])
    (h1 : s.good = true → s.pos ≤ s.data.length ∧ (s.pos = 0 ∨ ∃ x, s.data.take s.pos = x ++ [LF]))
    (h2 : EndsBlank s.data → s.good = true ∧ s.pos < s.data.length)
    (h : m.parseLoop n s = .ok (m', s')) (ho : m'.bodyOffset = -1) :
    s'.good = false ∧ (EndsBlank s.data → m'.tmp = none) ∧ (¬ EndsBlank s.data → m'.tmp = m'.headers.getLast?) := by
  induction n generalizing m s with
  | zero => cases h
  | succ n ih =>
    unfold Message.parseLoop at h
    cases hl : m.parseLine s with
    | mk ok r =>
      obtain ⟨m1, s1⟩ := r
      rw [hl] at h
      simp only at h
      unfold Message.parseLine at hl
      cases hg : s.getline with
      | mk o s2 =>
        rw [hg] at hl
        cases o with
        | none =>
          simp only [Prod.mk.injEq] at hl
          obtain ⟨rfl, rfl, rfl⟩ := hl
          simp only [Bool.false_and, Bool.false_eq_true, if_false, Except.ok.injEq, Prod.mk.injEq] at h
          obtain ⟨rfl, rfl⟩ := h
          unfold IStream.getline at hg
          have hlast : m.tmp = m.pushTmp.getLast? := by
            unfold Message.pushTmp
            cases ht : m.tmp with
            | none => simp [hm ht]
            | some t => simp
          split at hg
          · rename_i hgood
            simp only [Prod.mk.injEq, true_and] at hg; subst hg
            refine ⟨by simp [IStream.good], fun hb => ?_, fun _ => hlast⟩
            rw [(h2 hb).1] at hgood; cases hgood
          · simp only at hg
            split at hg
            · cases hg
            · split at hg
              · rename_i hemp
                simp only [Prod.mk.injEq, true_and] at hg; subst hg
                refine ⟨by simp [IStream.good], fun hb => ?_, fun _ => hlast⟩
                have := (h2 hb).2
                have h3 : s.data.length ≤ s.pos := by simpa using hemp
                omega
              · cases hg
        | some line =>
          simp only at hl
          have hs2 : s.good = true ∧ s2.data = s.data ∧
              ((s.data.drop s.pos = line ++ LF :: s.data.drop s2.pos ∧ s2.pos = s.pos + line.length + 1 ∧ s2.good = true) ∨
               (s.data.drop s.pos = line ∧ LF ∉ line ∧ line ≠ [] ∧ s2.good = false)) := by
            unfold IStream.getline at hg
            split at hg
            · cases hg
            · rename_i hgood
              have hgood' : s.good = true := by simpa using hgood
              simp only at hg
              split at hg
              · rename_i l r hc
                simp only [Prod.mk.injEq, Option.some.injEq] at hg
                obtain ⟨rfl, rfl⟩ := hg
                refine ⟨hgood', rfl, .inl ⟨?_, rfl, hgood'⟩⟩
                have e := cutLF_eq hc
                rw [e]
                congr 2
                have e2 := congrArg (List.drop (l.length + 1)) e
                rw [List.drop_drop] at e2
                simp only [Nat.add_assoc] at e2 ⊢
                rw [e2, List.drop_append]
                simp
              · rename_i hc
                split at hg
                · cases hg
                · rename_i hemp
                  simp only [Prod.mk.injEq, Option.some.injEq] at hg
                  obtain ⟨rfl, rfl⟩ := hg
                  refine ⟨hgood', rfl, .inr ⟨rfl, ?_, by simpa using hemp, by simp [IStream.good]⟩⟩
                  intro hm
                  rcases cutLF_cases (s.data.drop s.pos) with k | ⟨a, b, k, ka⟩
                  · exact k hm
                  · rw [k, cutLF_some ka] at hc; cases hc
          obtain ⟨g1, g2, g3⟩ := hs2
          cases hc : chopCR line with
          | nil =>
            rw [hc] at hl
            simp only [Prod.mk.injEq] at hl
            obtain ⟨rfl, rfl, rfl⟩ := hl
            simp only [Bool.not_true, Bool.and_false, Bool.false_eq_true, if_false, Except.ok.injEq, Prod.mk.injEq] at h
            obtain ⟨rfl, rfl⟩ := h
            simp only at ho ⊢
            rcases g3 with ⟨_, _, g4⟩ | ⟨g4, g5, g6, g7⟩
            · exfalso
              unfold IStream.tellg at ho
              rw [if_pos g4] at ho
              simp only at ho
              omega
            · refine ⟨?_, fun _ => trivial, fun hb => ?_⟩
              · unfold IStream.tellg; split
                · simpa [IStream.good] using g7
                · simpa [IStream.good] using g7
              · exfalso
                apply hb
                have e := chopCR_nil hc g6
                have e2 := List.take_append_drop s.pos s.data
                rw [g4, e] at e2
                rcases (h1 g1).2 with h0 | ⟨x, hx⟩
                · rw [h0] at e2; exact .inl e2.symm
                · rw [hx] at e2; exact .inr ⟨x, by rw [← e2]; simp⟩
          | cons c cs =>
            rw [hc] at hl
            simp only [Prod.mk.injEq] at hl
            obtain ⟨rfl, rfl, rfl⟩ := hl
            have hdone : (if c ≠ TAB ∧ c ≠ SP then { m with headers := m.pushTmp, tmp := some {} } else m : Message).done = false := by
              split <;> exact hd
            simp only [hdone, Bool.not_false, Bool.and_true, if_true] at h
            have := ih _ s2 rfl (fun hh => by cases hh) ?_ ?_ h
            · rw [g2] at this; exact this
            · intro hgood
              rcases g3 with ⟨g4, g5, _⟩ | ⟨_, _, _, g7⟩
              · have e := congrArg List.length g4
                simp only [List.length_drop, List.length_append, List.length_cons] at e
                have h3 := (h1 g1).1
                have hle : s2.pos ≤ s.data.length := by omega
                refine ⟨by rw [g2]; exact hle, .inr ⟨s.data.take s.pos ++ line, ?_⟩⟩
                rw [g2, g5]
                have e2 := List.take_append_drop s.pos s.data
                rw [g4] at e2
                have e3 : s.data = (s.data.take s.pos ++ line ++ [LF]) ++ s.data.drop s2.pos := by
                  simpa using e2.symm
                have e4 : (s.data.take s.pos ++ line ++ [LF]).length = s.pos + line.length + 1 := by
                  simp only [List.length_append, List.length_take, List.length_cons, List.length_nil]
                  omega
                rw [← e4]
                have e5 := congrArg (List.take (s.data.take s.pos ++ line ++ [LF]).length) e3
                rw [List.take_left] at e5
                exact e5
              · rw [g7] at hgood; cases hgood
            · intro hb
              rw [g2] at hb
              rcases g3 with ⟨g4, g5, g6⟩ | ⟨g4, g5, g6, _⟩
              · refine ⟨g6, ?_⟩
                rw [g2]
                by_cases hlt : s2.pos < s.data.length
                · exact hlt
                · exfalso
                  rw [List.drop_eq_nil_of_le (by omega : s.data.length ≤ s2.pos)] at g4
                  obtain ⟨x, hx⟩ := hb.last
                  have e2 := List.take_append_drop s.pos s.data
                  rw [g4, hx] at e2
                  have e3 : (List.take s.pos (x ++ [CR]) ++ line) ++ [LF] = x ++ [CR] := by simpa using e2
                  have e4 := List.append_inj_right' e3 rfl
                  exact absurd e4 (by decide)
              · exfalso
                have e2 := List.take_append_drop s.pos s.data
                rw [g4] at e2
                rw [← e2] at hb
                have := hb.rest g6 g5
                rw [this] at hc
                cases hc

/-- The stream after `CreateSignature` on a message without body is where parsing left it. -/
theorem canonBody_none (s s' : IStream) (mode : CanonMode) (limit : Bool) (size : Nat) (r : List Bytes × Bool)
    (h : Dkim.canonBody s mode (-1) limit size = .ok (r, s')) : s' = s := by
  unfold Dkim.canonBody canonBodyBlk at h
  simp only [ne_eq, not_true, if_false, Except.ok.injEq, Prod.mk.injEq] at h
  exact h.2.symm

/-- Later calls in general, with a pending last field. -/
theorem again_pending (calls : List (Options E × (Nat → Int))) (o : Options E) (clock : Nat → Int)
    (sg : Signatory) (hg : sg.file.good = false) :
    ((sg.after E calls).createSignature E o clock).1 =
      signParsed E o clock (sg.msg.headers ++ (List.replicate (calls.length + 1) sg.msg.tmp.toList).flatten) [] := by
  have hp : ∀ m : Message, m.pushTmp = m.headers ++ m.tmp.toList := by
    intro m; unfold Message.pushTmp; cases m.tmp <;> simp
  induction calls generalizing sg with
  | nil =>
    obtain ⟨sg', h1, _⟩ := createSignature_again o clock sg hg
    unfold Signatory.after
    rw [List.foldl_nil, h1, hp]
    simp
  | cons c calls ih =>
    obtain ⟨sg', h1, h2, h3, h4⟩ := createSignature_again c.1 c.2 sg hg
    have : sg.after E (c :: calls) = sg'.after E calls := by
      unfold Signatory.after
      rw [List.foldl_cons, h1]
    rw [this, ih sg' h2, h3, h4, hp, List.length_cons, List.replicate_succ (n := calls.length + 1), List.flatten_cons,
      List.append_assoc]

/-- The fields a later call sees in addition on a message without an empty line: the last field once per
earlier call; none if the message ends with an unterminated CR-only line. -/
def Spec.Extra (d : Bytes) (fields : List Header) (earlier : Nat) (extra : List Header) : Prop :=
  (EndsBlank d ∧ extra = []) ∨ (¬ EndsBlank d ∧ extra = (List.replicate earlier fields.getLast?.toList).flatten)

/-- C46, exactly what later calls return on a message without an empty line after the header: after any
first call and any further ones (any options, `calls.length + 1` in all, thrown or not), a call returns
what a fresh object returns on a message without body that has the last field once more for each earlier
call. -/
theorem C46_no_empty_line_partial (d : Bytes) (ls : List Bytes) (hd : HeadText 0 d ls (-1))
    (o1 : Options E) (clock1 : Nat → Int) (calls : List (Options E × (Nat → Int))) (o : Options E) (clock : Nat → Int)
    (extra : List Header) (hx : Extra d ((groupLines ls).map mkField) (calls.length + 1) extra)
    (d' : Bytes) (ls' : List Bytes) (off' : Int) (hd' : HeadText 0 d' ls' off')
    (hf : (groupLines ls').map mkField = (groupLines ls).map mkField ++ extra) (hb : bodyPart d' off' = []) :
    ((((Signatory.createSignature E o1 clock1 { file := freshStream d }).2).after E calls).createSignature E o clock).1 =
      (Signatory.createSignature E o clock { file := freshStream d' }).1 := by
  obtain ⟨m, s1, p1, p2, p3, p4, p5⟩ := parseAll_head hd (freshStream d) (at_fresh d)
  obtain ⟨hv, hdata⟩ := parse_valid d m s1 p1
  obtain ⟨r, s2, k1, k2, k3⟩ := createSignature_eq o1 clock1 { file := freshStream d } m s1 p1 hv
  have ht := parse_tail _ _ _ _ _ rfl (fun _ => rfl) (fun _ => ⟨Nat.zero_le _, .inl rfl⟩)
    (fun hb => ⟨rfl, by
      obtain ⟨x, hx⟩ := hb.last
      show 0 < d.length
      rw [show d = x ++ [CR] from hx]; simp⟩) p1 p3
  have e2 : s2 = s1 := by rw [p3] at k1; exact canonBody_none _ _ _ _ _ _ k1
  rw [k3]
  rw [again_pending calls o clock { file := s2, msg := m } (by rw [e2]; exact ht.1)]
  rw [createSignature_fresh o clock d' ls' off' hd', hf, hb]
  simp only
  rw [p2]
  congr 2
  rcases hx with ⟨h1, rfl⟩ | ⟨h1, rfl⟩
  · rw [ht.2.1 h1]
    generalize calls.length + 1 = n
    induction n with
    | zero => rfl
    | succ n ih => rw [List.replicate_succ, List.flatten_cons, ih]; rfl
  · rw [ht.2.2 h1, p2]

/-- C46 holds, then, for messages without an empty line exactly where nothing is added: no field at all,
or an unterminated CR-only line at the end. -/
theorem C46_nothing_added_partial (d : Bytes) (ls : List Bytes) (hd : HeadText 0 d ls (-1)) (hb : ls = [] ∨ EndsBlank d)
    (o1 : Options E) (clock1 : Nat → Int) (calls : List (Options E × (Nat → Int))) (o : Options E) (clock : Nat → Int) :
    ((((Signatory.createSignature E o1 clock1 { file := freshStream d }).2).after E calls).createSignature E o clock).1 =
      (Signatory.createSignature E o clock { file := freshStream d }).1 := by
  have hn : ∀ n : Nat, (List.replicate n ([] : List Header)).flatten = [] := by
    intro n
    induction n with
    | zero => rfl
    | succ n ih => rw [List.replicate_succ, List.flatten_cons, ih]; rfl
  refine C46_no_empty_line_partial d ls hd o1 clock1 calls o clock [] ?_ d ls (-1) hd (by simp) rfl
  by_cases he : EndsBlank d
  · exact .inl ⟨he, rfl⟩
  · rcases hb with rfl | hb
    · exact .inr ⟨he, (hn _).symm⟩
    · exact absurd hb he

/-- The fields of the witness message, and the message its third call signs. -/
example : ∃ ls ls', HeadText 0 b!"To: x\r\nFrom: a\r\n" ls (-1) ∧
    HeadText 0 b!"To: x\r\nFrom: a\r\nFrom: a\r\nFrom: a\r\n" ls' (-1) ∧
    Extra b!"To: x\r\nFrom: a\r\n" ((groupLines ls).map mkField) 2 [mkField [b!"From: a"], mkField [b!"From: a"]] ∧
    (groupLines ls').map mkField = (groupLines ls).map mkField ++ [mkField [b!"From: a"], mkField [b!"From: a"]] := by
  refine ⟨[b!"To: x", b!"From: a"], [b!"To: x", b!"From: a", b!"From: a", b!"From: a"], ?_, ?_, .inr ⟨?_, by decide⟩, by decide⟩
  · exact .lineCRLF 0 b!"To: x" _ _ _ (by decide) (by decide) (.lineCRLF _ b!"From: a" _ _ _ (by decide) (by decide) (.none _))
  · exact .lineCRLF 0 b!"To: x" _ _ _ (by decide) (by decide) (.lineCRLF _ b!"From: a" _ _ _ (by decide) (by decide)
      (.lineCRLF _ b!"From: a" _ _ _ (by decide) (by decide) (.lineCRLF _ b!"From: a" _ _ _ (by decide) (by decide) (.none _))))
  · intro h
    obtain ⟨x, hx⟩ := h.last
    have h2 := congrArg List.getLast? hx
    rw [List.getLast?_concat] at h2
    exact absurd h2 (by decide)

end Dkim

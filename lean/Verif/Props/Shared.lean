import Verif.Spec.Shared
import Verif.Props.Repeat
import Verif.Props.VerifyBody
import Verif.Props.Verdict
import Verif.Proofs.Device
/-!
# Property C90: objects that share an input stream

Model: `Verif/Model/Shared.lean`. Spec: `Verif/Spec/Shared.lean`.
-/

namespace Dkim
open Spec

variable {E : Env}

theorem headText_rebase {pos : Nat} {r : Bytes} {ls : List Bytes} {off : Int} (h : HeadText pos r ls off) (q : Nat) :
    HeadText q r ls (if off = -1 then -1 else off - pos + q) := by
  induction h generalizing q with
  | none pos => exact .none q
  | blankLF pos r =>
    rw [if_neg (by omega), show (((pos + 1 : Nat) : Int) - pos + q) = ((q + 1 : Nat) : Int) by omega]
    exact .blankLF q r
  | blankCRLF pos r =>
    rw [if_neg (by omega), show (((pos + 2 : Nat) : Int) - pos + q) = ((q + 2 : Nat) : Int) by omega]
    exact .blankCRLF q r
  | blankEnd pos => exact .blankEnd q
  | lastLine pos l h1 h2 h3 => exact .lastLine q l h1 h2 h3
  | lastLineCR pos l h1 h2 => exact .lastLineCR q l h1 h2
  | lineLF pos l r ls off h1 h2 h3 _ ih =>
    refine .lineLF q l r ls _ h1 h2 h3 ?_
    have := ih (q + l.length + 1)
    split
    · rename_i h; rw [if_pos h] at this; exact this
    · rename_i h
      rw [if_neg h] at this
      rw [show off - (pos : Int) + q = off - ((pos + l.length + 1 : Nat) : Int) + ((q + l.length + 1 : Nat) : Int) by omega]
      exact this
  | lineCRLF pos l r ls off h1 h2 _ ih =>
    refine .lineCRLF q l r ls _ h1 h2 ?_
    have := ih (q + l.length + 2)
    split
    · rename_i h; rw [if_pos h] at this; exact this
    · rename_i h
      rw [if_neg h] at this
      rw [show off - (pos : Int) + q = off - ((pos + l.length + 2 : Nat) : Int) + ((q + l.length + 2 : Nat) : Int) by omega]
      exact this

/-- Parsing from a stream in any state is parsing what it still holds. -/
theorem parse_pending (s : IStream) (hi : Inside s) :
    ∃ m s' m0 s0, Message.parseAll {} s = .ok (m, s') ∧ Message.parseAll {} (freshStream (pending s)) = .ok (m0, s0) ∧
      m.headers = m0.headers ∧ bodyPart s.data m.bodyOffset = bodyPart (pending s) m0.bodyOffset ∧
      s'.data = s.data ∧ s0.data = pending s ∧ Inside s' ∧ ValidOffset s' m.bodyOffset ∧ ValidOffset s0 m0.bodyOffset := by
  obtain ⟨m1, s1, hp, h1, h2, h3⟩ := parseLoop_total (s.data.length + 2) {} s hi (Or.inr ⟨Int.le_refl 0, Int.natCast_nonneg _⟩) (by omega)
  obtain ⟨m2, s2, hp2, _, h5, h6⟩ := parseLoop_total ((pending s).length + 2) {} (freshStream (pending s))
    (Nat.zero_le _) (Or.inr ⟨Int.le_refl 0, Int.natCast_nonneg _⟩) (by simp only [freshStream]; omega)
  refine ⟨m1, s1, m2, s2, hp, hp2, ?_, ?_, h2, h5, h1, h3, h6⟩
  all_goals
    by_cases hg : s.good = true
    · have hu : pending s = s.data.drop s.pos := by
        unfold pending
        rw [if_neg]
        simpa [IStream.good] using hg
      obtain ⟨ls, off, ht⟩ := HeadText.total (s.data.drop s.pos) s.pos
      obtain ⟨m, s', e1, e2, e3, _, _⟩ := parseAll_head ht s ⟨hg, rfl, rfl⟩
      rw [show Message.parseAll {} s = .ok (m1, s1) from hp] at e1
      cases e1
      have ht0 := headText_rebase ht 0
      rw [← hu] at ht0
      obtain ⟨m, s', f1, f2, f3, _, _⟩ := parseAll_head ht0 (freshStream (pending s)) (at_fresh _)
      rw [show Message.parseAll {} (freshStream (pending s)) = .ok (m2, s2) from hp2] at f1
      cases f1
      first
        | rw [e2, f2]
        | (rw [e3, f3, hu]
           unfold bodyPart
           by_cases ho : off = -1
           · simp only [ho, if_true]
           · have hge := headText_ge ht
             rw [if_neg ho, if_neg ho, if_neg (by omega), List.drop_drop]
             congr 1
             omega)
    · have hu : pending s = [] := by
        unfold pending
        rw [if_pos]
        simp only [IStream.good] at hg
        revert hg
        cases s.eof <;> cases s.fail <;> simp
      have hb : ∀ t : IStream, t.getline.1 = none → ∀ m' t', Message.parseAll {} t = .ok (m', t') →
          m'.headers = [] ∧ m'.bodyOffset = -1 := by
        intro t ht m' t' h
        unfold Message.parseAll Message.parseLoop Message.parseLine at h
        cases hl : t.getline with
        | mk a b =>
          rw [hl] at ht h
          simp only at ht
          subst ht
          simp only [Bool.false_and, Bool.false_eq_true, if_false, Except.ok.injEq, Prod.mk.injEq] at h
          rw [← h.1]
          exact ⟨rfl, rfl⟩
      have a1 := hb s (by unfold IStream.getline; rw [if_pos (by simpa using hg)]) _ _ hp
      have a2 := hb (freshStream (pending s)) (by rw [hu]; rfl) _ _ hp2
      first
        | rw [a1.1, a2.1]
        | (rw [a1.2, a2.2]; rfl)

/-! ## the objects of a program -/

/-- What holds of the objects at any time. -/
structure Spec.Shared.Ok (d : Bytes) (w : Shared) : Prop where
  data : w.stream.data = d
  inside : Inside w.stream
  vals : ∀ p ∈ w.vals, p.1.bodyOffset = -1 ∨ (0 ≤ p.1.bodyOffset ∧ p.1.bodyOffset ≤ d.length)
  sigs : ∀ m ∈ w.sigs, m.bodyOffset = -1 ∨ (0 ≤ m.bodyOffset ∧ m.bodyOffset ≤ d.length)

theorem checkBodyHash_stream {v : Validatory} (hi : Inside v.file) (hoff : ValidOffset v.file v.msg.bodyOffset) (sig : Signature) :
    Inside (v.checkBodyHash E sig).2.file ∧ (v.checkBodyHash E sig).2.file.data = v.file.data := by
  obtain ⟨calls, s', h1, h2, h3⟩ := canonBodyBlk_spec 8096 (by decide) v.file sig.canonBody v.msg.bodyOffset
    sig.bodySizeLimit sig.bodySize hoff
  have := canonBody_inside hi h1
  unfold Validatory.checkBodyHash Dkim.canonBody
  rw [h1]
  simp only
  split <;> exact this

theorem Spec.Shared.Ok.step {d : Bytes} {w : Shared} (h : Shared.Ok d w) (u : Use E) : Shared.Ok d (w.step u).2 := by
  have hv : ∀ p ∈ w.vals, ValidOffset (w.val p).file (w.val p).msg.bodyOffset := by
    intro p hp
    unfold ValidOffset
    simp only [Shared.val, h.data]
    exact h.vals p hp
  have moved : ∀ s : IStream, Inside s ∧ s.data = w.stream.data → Shared.Ok d { w with stream := s } :=
    fun s hs => ⟨hs.2.trans h.data, hs.1, h.vals, h.sigs⟩
  cases u with
  | clear => exact moved _ ⟨h.inside, rfl⟩
  | seek off =>
    refine moved _ ?_
    have hi := h.inside
    unfold Inside at *
    unfold IStream.seekg
    simp only
    split
    · exact ⟨hi, rfl⟩
    · split
      · simp only; exact ⟨by omega, trivial⟩
      · exact ⟨hi, rfl⟩
  | read n => exact moved _ (read_inside _ _ h.inside)
  | line =>
    obtain ⟨a, b, _⟩ := getline_inside h.inside (show w.stream.getline = (w.stream.getline.1, w.stream.getline.2) from rfl)
    exact moved _ ⟨a, b⟩
  | newValidatory type =>
    obtain ⟨m, s', _, _, hp, _, _, _, h1, _, h2, h3, _⟩ := parse_pending w.stream h.inside
    simp only [Shared.step, Validatory.mk', hp]
    refine ⟨h1.trans h.data, h2, ?_, h.sigs⟩
    intro p hp'
    rcases List.mem_append.1 hp' with hp' | hp'
    · exact h.vals p hp'
    · rw [List.mem_singleton.1 hp']
      unfold ValidOffset at h3
      rw [h1, h.data] at h3
      exact h3
  | checkBodyHash i sig =>
    simp only [Shared.step]
    cases hi : w.vals[i]? with
    | none => exact h
    | some p =>
      exact moved _ (checkBodyHash_stream (v := w.val p) h.inside (hv p (List.mem_of_getElem? hi)) sig)
  | getSignature i now hd st =>
    simp only [Shared.step]
    cases hi : w.vals[i]? with
    | none => exact h
    | some p =>
      simp only [Validatory.getSignature]
      cases hs : Signature.parse E now hd st with
      | error e st' => exact moved _ ⟨h.inside, rfl⟩
      | ok x st' => exact moved _ (checkBodyHash_stream (v := w.val p) h.inside (hv p (List.mem_of_getElem? hi)) _)
  | checkSignature i hd sig pub =>
    simp only [Shared.step]
    cases hi : w.vals[i]? with
    | none => exact h
    | some p => exact h
  | newSignatory =>
    refine ⟨h.data, h.inside, h.vals, ?_⟩
    intro m hm
    rcases List.mem_append.1 hm with hm | hm
    · exact h.sigs m hm
    · rw [List.mem_singleton.1 hm]
      exact .inr ⟨Int.le_refl 0, Int.natCast_nonneg _⟩
  | createSignature j o clock =>
    simp only [Shared.step]
    cases hj : w.sigs[j]? with
    | none => exact h
    | some m =>
      have ho : SgOk { file := w.stream, msg := m } := by
        refine ⟨h.inside, ?_⟩
        unfold ValidOffset
        simp only [h.data]
        exact h.sigs m (List.mem_of_getElem? hj)
      obtain ⟨_, _, sg', e1, e2, e3⟩ := createSignature_any (E := E) o clock _ ho
      simp only [e1]
      refine ⟨e3.trans h.data, e2.1, h.vals, ?_⟩
      intro m' hm'
      rcases List.mem_or_eq_of_mem_set hm' with hm' | hm'
      · exact h.sigs m' hm'
      · rw [hm']
        have := e2.2
        unfold ValidOffset at this
        rw [e3.trans h.data] at this
        exact this

theorem Spec.Shared.Ok.after {d : Bytes} {w : Shared} (h : Shared.Ok d w) (us : List (Use E)) : Shared.Ok d (w.after us) := by
  induction us generalizing w with
  | nil => exact h
  | cons u us ih => exact ih (h.step u)

theorem opened_ok (d : Bytes) : Shared.Ok d (opened d) :=
  ⟨rfl, Nat.zero_le _, fun _ h => absurd h (by simp [opened]), fun _ h => absurd h (by simp [opened])⟩

/-- A `Validatory` once made keeps its message. -/
theorem vals_step (w : Shared) (u : Use E) (i : Nat) (p) (hi : w.vals[i]? = some p) : (w.step u).2.vals[i]? = some p := by
  cases u with
  | newValidatory type =>
    simp only [Shared.step]
    cases Validatory.mk' w.stream type with
    | error e => exact hi
    | ok v =>
      simp only
      rw [List.getElem?_append_left]
      · exact hi
      · exact (List.getElem?_eq_some_iff.1 hi).1
  | checkBodyHash k sig =>
    simp only [Shared.step]
    cases w.vals[k]? <;> exact hi
  | getSignature k now hd st =>
    simp only [Shared.step]
    cases w.vals[k]? <;> exact hi
  | checkSignature k hd sig pub =>
    simp only [Shared.step]
    cases w.vals[k]? <;> exact hi
  | createSignature j o clock =>
    simp only [Shared.step]
    cases w.sigs[j]? <;> exact hi
  | _ => exact hi

theorem vals_after (w : Shared) (us : List (Use E)) (i : Nat) (p) (hi : w.vals[i]? = some p) : (w.after us).vals[i]? = some p := by
  induction us generalizing w with
  | nil => exact hi
  | cons u us ih => exact ih _ (vals_step w u i p hi)

/-- A `Signatory` that has not signed yet has read nothing. -/
theorem sigs_step (w : Shared) (u : Use E) (j : Nat) (m) (hj : w.sigs[j]? = some m)
    (hu : ∀ o clock, u ≠ .createSignature j o clock) : (w.step u).2.sigs[j]? = some m := by
  cases u with
  | newValidatory type =>
    simp only [Shared.step]
    cases Validatory.mk' w.stream type <;> exact hj
  | checkBodyHash k sig =>
    simp only [Shared.step]
    cases w.vals[k]? <;> exact hj
  | getSignature k now hd st =>
    simp only [Shared.step]
    cases w.vals[k]? <;> exact hj
  | checkSignature k hd sig pub =>
    simp only [Shared.step]
    cases w.vals[k]? <;> exact hj
  | newSignatory =>
    simp only [Shared.step]
    rw [List.getElem?_append_left]
    · exact hj
    · exact (List.getElem?_eq_some_iff.1 hj).1
  | createSignature k o clock =>
    simp only [Shared.step]
    cases w.sigs[k]? with
    | none => exact hj
    | some m' =>
      simp only
      rw [List.getElem?_set_ne]
      · exact hj
      · intro e; subst e; exact hu _ _ rfl
  | _ => exact hj

theorem sigs_after (w : Shared) (us : List (Use E)) (j : Nat) (m) (hj : w.sigs[j]? = some m) (hu : SignsNot E j us) :
    (w.after us).sigs[j]? = some m := by
  induction us generalizing w with
  | nil => exact hj
  | cons u us ih =>
    exact ih _ (sigs_step w u j m hj (fun o clock e => hu o clock (by rw [e]; simp))) (fun o clock h => hu o clock (by simp [h]))

/-- The call `c` on the `i`th `Validatory`. -/
def Spec.Check.at (i : Nat) : Check E → Use E
  | .bodyHash sig => .checkBodyHash i sig
  | .getSignature now h st => .getSignature i now h st
  | .signature h sig pub => .checkSignature i h sig pub

theorem checkSignature_headers (m m' : Message) (h : m.headers = m'.headers) (hd : Header) (sig : Signature) (pub : PublicKey E) :
    checkSignature E m hd sig pub = checkSignature E m' hd sig pub := by
  unfold checkSignature headerHashInput
  rw [h]

/-- C90 (verification): whatever a program did before with the stream and with other objects over it, a `Validatory`
made now lists the same signature fields, and whatever the program does afterwards, every call on it gives the same
result, as a `Validatory` with a stream of its own that holds just the bytes unread when it was made. -/
theorem C90_validatory (d : Bytes) (pre : List (Use E)) (type : ValidatorType) :
    ∃ v, Validatory.mk' (freshStream (pending ((opened d).after pre).stream)) type = .ok v ∧
      (((opened d).after pre).step (E := E) (.newValidatory type)).1 = .list (.ok v.sigs) ∧
      ∀ (mid : List (Use E)) (c : Check E),
        (((((opened d).after pre).step (E := E) (.newValidatory type)).2.after mid).step
          (c.at ((opened d).after pre).vals.length)).1 = .call (c.run v).1.1 (c.run v).1.2 := by
  have hok := (opened_ok d).after pre
  generalize (opened d).after pre = w at hok ⊢
  obtain ⟨m, s', m0, s0, hp, hp0, hh, hb, hd1, hd0, hi1, hv1, hv0⟩ := parse_pending w.stream hok.inside
  refine ⟨{ file := s0, msg := m0, sigs := m0.headers.filter (isSigHeader type) }, ?_, ?_, ?_⟩
  · unfold Validatory.mk'
    rw [hp0]
  · simp only [Shared.step, Validatory.mk', hp, hh]
  · intro mid c
    have hok2 := (hok.step (E := E) (.newValidatory type)).after mid
    have hval := vals_after (E := E) (w.step (E := E) (.newValidatory type)).2 mid w.vals.length
      (m, m.headers.filter (isSigHeader type)) (by
        simp only [Shared.step, Validatory.mk', hp]
        rw [List.getElem?_append_right (Nat.le_refl _), Nat.sub_self]
        rfl)
    generalize (w.step (E := E) (.newValidatory type)).2.after mid = w2 at hok2 hval ⊢
    have hvo : ValidOffset (w2.val (m, m.headers.filter (isSigHeader type))).file m.bodyOffset := by
      unfold ValidOffset
      simp only [Shared.val, hok2.data]
      exact hok2.vals _ (List.mem_of_getElem? hval)
    have body : ∀ sig, ((w2.val (m, m.headers.filter (isSigHeader type))).checkBodyHash E sig).1 =
        (({ file := s0, msg := m0, sigs := m0.headers.filter (isSigHeader type) } : Validatory).checkBodyHash E sig).1 := by
      intro sig
      obtain ⟨_, _, e1⟩ := checkBodyHash_eq (E := E) (w2.val (m, m.headers.filter (isSigHeader type))) hvo sig
      obtain ⟨_, _, e2⟩ := checkBodyHash_eq (E := E)
        ({ file := s0, msg := m0, sigs := m0.headers.filter (isSigHeader type) } : Validatory) hv0 sig
      rw [e1, e2]
      simp only [hashedBody, Shared.val, hok2.data, hd0]
      rw [← hok.data, hb]
    cases c with
    | bodyHash sig =>
      simp only [Check.at, Shared.step, hval, Check.run, body]
    | getSignature now hd st =>
      simp only [Check.at, Shared.step, hval, Check.run, Validatory.getSignature]
      cases hs : Signature.parse E now hd st with
      | error e st' => rfl
      | ok x st' => simp only [body]
    | signature hd sig pub =>
      simp only [Check.at, Shared.step, hval, Check.run]
      rw [checkSignature_headers m m0 hh]

/-- C90 (signing): the first signature a `Signatory` makes, whatever else was done with the stream before and after
the `Signatory` was constructed, is that of a `Signatory` with a stream of its own that holds just the bytes pending
when it signs. -/
theorem C90_signatory (d : Bytes) (pre mid : List (Use E)) (o : Options E) (clock : Nat → Int)
    (hm : SignsNot E ((opened d).after pre).sigs.length mid) :
    let w := (((opened d).after pre).step (E := E) .newSignatory).2.after mid
    (w.step (.createSignature ((opened d).after pre).sigs.length o clock)).1 =
      .text (Signatory.createSignature E o clock { file := freshStream (pending w.stream) }).1 := by
  have hok := (opened_ok d).after pre
  generalize (opened d).after pre = w0 at hok hm ⊢
  intro w
  have hokw : Shared.Ok d w := (hok.step (E := E) .newSignatory).after mid
  have hs : w.sigs[w0.sigs.length]? = some {} := by
    refine sigs_after _ mid _ _ ?_ hm
    simp only [Shared.step]
    rw [List.getElem?_append_right (Nat.le_refl _), Nat.sub_self]
    rfl
  clear_value w
  simp only [Shared.step, hs]
  obtain ⟨m, s', m0, s0, hp, hp0, hh, hb, hd1, hd0, hi1, hv1, hv0⟩ := parse_pending w.stream hokw.inside
  obtain ⟨_, _, _, _, e1⟩ := createSignature_eq (E := E) o clock { file := w.stream } m s' hp hv1
  obtain ⟨_, _, _, _, e2⟩ := createSignature_eq (E := E) o clock { file := freshStream (pending w.stream) } m0 s0 hp0 hv0
  rw [e1, e2]
  simp only [hh, hd1, hd0, hb]

/-- After `stream.clear(); stream.seekg(0);` the whole message is unread. -/
theorem C90_rewound (d : Bytes) (pre : List (Use E)) :
    pending ((opened d).after (pre ++ [.clear, .seek 0])).stream = d := by
  have h2 : ∀ (us vs : List (Use E)) (w : Shared), w.after (us ++ vs) = (w.after us).after vs := by
    intro us vs
    induction us with
    | nil => intro w; rfl
    | cons u us ih => intro w; exact ih _
  rw [h2]
  have hok := (opened_ok d).after pre
  generalize (opened d).after pre = w at hok ⊢
  simp only [Shared.after, Shared.step, IStream.seekg, IStream.clear, pending]
  simp [hok.data]

/-! ## what happens without rewinding -/

/-- The signature fields a `Validatory` lists that is made after the program `us`. -/
def Samples.listed (d : Bytes) (us : List (Use toyEnv)) : Option Nat :=
  match (((opened d).after us).step (E := toyEnv) (.newValidatory .dkim)).1 with
  | .list (.ok l) => some l.length
  | _ => none

/-- What a `Signatory` made at the beginning makes of the message after the program `us`. -/
def Samples.signsAfter (d : Bytes) (us : List (Use toyEnv)) : Option Bytes :=
  match ((((opened d).step (E := toyEnv) .newSignatory).2.after us).step
      (E := toyEnv) (.createSignature 0 Samples.rsaOpts (fun _ => 0))).1 with
  | .text (.ok H) => some H
  | _ => none

/-- C90 (why the stream must be rewound): a second `Validatory` over the same stream takes the body for the message.
It overlooks the signature of a signed message, and finds one that is only quoted in the body. -/
theorem C90_not_rewound_witness :
    Samples.listed (Samples.signed Samples.rsaOpts Samples.message) [] = some 1 ∧
    Samples.listed (Samples.signed Samples.rsaOpts Samples.message) [.newValidatory .arc] = some 0 ∧
    Samples.listed (Samples.signed Samples.rsaOpts Samples.message) [.newValidatory .arc, .clear, .seek 0] = some 1 ∧
    Samples.listed (b!"From: x\r\n\r\n" ++ Samples.signed Samples.rsaOpts Samples.message) [] = some 0 ∧
    Samples.listed (b!"From: x\r\n\r\n" ++ Samples.signed Samples.rsaOpts Samples.message) [.newValidatory .arc] = some 1 := by
  decide +kernel

/-- C90 (the same for signing): a `Signatory` that shares its stream with a `Validatory` made after it signs the body
as if it were a message, and the signature does not verify; after rewinding it does. -/
theorem C90_sign_not_rewound_witness :
    (∃ H, Samples.signsAfter Samples.message [.newValidatory .dkim] = some H ∧
      Samples.verify Samples.rsaRec (H ++ CRLF ++ Samples.message) ≠ some (.ok ())) ∧
    ∃ H, Samples.signsAfter Samples.message [.newValidatory .dkim, .clear, .seek 0] = some H ∧
      Samples.verify Samples.rsaRec (H ++ CRLF ++ Samples.message) = some (.ok ()) := by
  refine ⟨⟨(Samples.signsAfter Samples.message [.newValidatory .dkim]).getD [], ?_, ?_⟩,
    ⟨(Samples.signsAfter Samples.message [.newValidatory .dkim, .clear, .seek 0]).getD [], ?_, ?_⟩⟩ <;> decide +kernel

/-- The theorems apply: two `Validatory` objects and a `Signatory` over one stream; the program rewinds before each
construction and moves the stream in between. -/
example : ∃ v, Validatory.mk' (freshStream (Samples.signed Samples.rsaOpts Samples.message)) .dkim = .ok v ∧
    ∀ (sig' : Signature) (c : Check toyEnv),
      ((((((opened (Samples.signed Samples.rsaOpts Samples.message)).after (E := toyEnv)
          [.newValidatory .arc, .newSignatory, .line, .clear, .seek 0]).step (E := toyEnv) (.newValidatory .dkim)).2.after
          [.read 7, .checkBodyHash 0 sig', .line, .createSignature 0 Samples.rsaOpts (fun _ => 0)]).step
        (c.at 1)).1) = .call (c.run v).1.1 (c.run v).1.2 := by
  obtain ⟨v, _, _, h, _⟩ := C41_discovery (Samples.signed Samples.rsaOpts Samples.message) .dkim
  refine ⟨v, h, fun sig' c => ?_⟩
  obtain ⟨v', h1, _, h3⟩ := C90_validatory (E := toyEnv) (Samples.signed Samples.rsaOpts Samples.message)
    [.newValidatory .arc, .newSignatory, .line, .clear, .seek 0] .dkim
  have hr := C90_rewound (E := toyEnv) (Samples.signed Samples.rsaOpts Samples.message) [.newValidatory .arc, .newSignatory, .line]
  simp only [List.cons_append, List.nil_append] at hr
  rw [hr, h] at h1
  cases h1
  have hl : ((opened (Samples.signed Samples.rsaOpts Samples.message)).after (E := toyEnv)
      [.newValidatory .arc, .newSignatory, .line, .clear, .seek 0]).vals.length = 1 := by decide +kernel
  rw [hl] at h3
  exact h3 [.read 7, .checkBodyHash 0 sig', .line, .createSignature 0 Samples.rsaOpts (fun _ => 0)] c

end Dkim

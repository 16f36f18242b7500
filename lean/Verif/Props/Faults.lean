import Verif.Spec.Faults
import Verif.Spec.Device
import Verif.Props.Message
import Verif.Tests.Samples
/-!
# Property C100: exceptions from outside
-/

namespace Dkim
open Spec

/-- A plain stream, with the mask and with faults. -/
def FStream.of (F : Nat → Option Nat) (ops : Nat) (i : IStream) : FStream :=
  { data := i.data, seekable := true, mask := { bad := true }, fault := F, ops := ops, pos := i.pos, eof := i.eof, fail := i.fail, bad := false }

/-- The stream behaves so far like the plain stream `i`. -/
def FRel (F : Nat → Option Nat) (s : FStream) (i : IStream) : Prop := ∃ ops, s = FStream.of F ops i

/-- An operation throws, because some access failed, or does what the plain one does. -/
def FOp {α : Type} (F : Nat → Option Nat) (d : Bytes) (r : FResult α) (a : α) (i : IStream) : Prop :=
  (r.1 = .error .outside ∧ (∃ k, F k ≠ none) ∧ BadbitStream d r.2) ∨ (r.1 = .ok a ∧ FRel F r.2 i)

theorem FRel.good {F s i} (h : FRel F s i) : s.good = i.good := by
  obtain ⟨ops, rfl⟩ := h
  simp [FStream.good, IStream.good, FStream.of]

theorem FRel.guard {F s i} (h : FRel F s i) : BadbitStream i.data s := by
  obtain ⟨ops, rfl⟩ := h
  exact ⟨rfl, rfl, rfl⟩

theorem settle_of {α : Type} {F ops i} (a : α) : FOp F i.data ((FStream.of F ops i).settle a) a i :=
  .inr ⟨rfl, ops, rfl⟩

theorem settle_bad {α : Type} {F d} {s : FStream} (h : BadbitStream d s) (hb : s.bad = true) (hf : ∃ k, F k ≠ none) (a b : α) (i : IStream) :
    FOp F d (s.settle a) b i := by
  left
  unfold FStream.settle
  rw [h.mask, hb]
  exact ⟨rfl, hf, h⟩

theorem fgetline_sim {F s i} (h : FRel F s i) : FOp F i.data s.getline i.getline.1 i.getline.2 := by
  have hg := h.good
  obtain ⟨ops, rfl⟩ := h
  unfold FStream.getline IStream.getline
  rw [hg]
  cases i.good with
  | false => exact settle_of (ops := ops) (i := { i with fail := true }) none
  | true =>
    simp only [Bool.not_true, Bool.false_eq_true, if_false]
    show FOp F i.data (match F ops with | some j => _ | none => _) _ _
    cases hk : F ops with
    | some j =>
      dsimp only
      refine settle_bad (F := F) ?_ ?_ ⟨ops, by rw [hk]; simp⟩ _ _ _
      · exact ⟨rfl, rfl, rfl⟩
      · rfl
    | none =>
      dsimp only [FStream.of]
      cases hc : IStream.cutLF (i.data.drop i.pos) with
      | some p => exact .inr ⟨rfl, ops + 1, rfl⟩
      | none =>
        dsimp only
        show FOp F i.data (if (i.data.drop i.pos).isEmpty = true then _ else _) _ _
        by_cases he : (i.data.drop i.pos).isEmpty = true
        · rw [if_pos he, if_pos he]
          exact settle_of (ops := ops + 1) (i := { i with eof := true, fail := true }) none
        · rw [if_neg he, if_neg he]
          exact settle_of (ops := ops + 1) (i := { i with pos := i.pos + (i.data.drop i.pos).length, eof := true }) _

theorem ftellg_sim {F s i} (h : FRel F s i) : FOp F i.data s.tellg i.tellg.1 i.tellg.2 := by
  have hg := h.good
  obtain ⟨ops, rfl⟩ := h
  unfold FStream.tellg IStream.tellg
  rw [hg]
  cases i.good with
  | true => exact .inr ⟨rfl, ops, rfl⟩
  | false => exact settle_of (ops := ops) (i := { i with fail := true }) _

theorem fread_sim {F s i} (h : FRel F s i) (n : Nat) : FOp F i.data (s.read n) (i.read n).1 (i.read n).2 := by
  have hg := h.good
  obtain ⟨ops, rfl⟩ := h
  unfold FStream.read IStream.read
  rw [hg]
  cases i.good with
  | false => exact settle_of (ops := ops) (i := { i with fail := true }) []
  | true =>
    simp only [Bool.not_true, Bool.false_eq_true, if_false]
    show FOp F i.data (match F ops with | some j => _ | none => _) _ _
    cases hk : F ops with
    | some j =>
      dsimp only
      refine settle_bad (F := F) ?_ ?_ ⟨ops, by rw [hk]; simp⟩ _ _ _
      · exact ⟨rfl, rfl, rfl⟩
      · rfl
    | none =>
      show FOp F i.data (if n ≤ (i.data.drop i.pos).length then _ else _) _ _
      by_cases he : n ≤ (i.data.drop i.pos).length
      · rw [if_pos he, if_pos he]
        exact .inr ⟨rfl, ops + 1, rfl⟩
      · rw [if_neg he, if_neg he]
        exact settle_of (ops := ops + 1) (i := { i with pos := i.pos + (i.data.drop i.pos).length, eof := true, fail := true }) _

/-- The reading operations do not change what the plain stream holds. -/
theorem getline_data (i : IStream) : i.getline.2.data = i.data := by
  unfold IStream.getline
  split
  · rfl
  · simp only
    split
    · rfl
    · split <;> rfl

theorem tellg_data (i : IStream) : i.tellg.2.data = i.data := by
  unfold IStream.tellg
  split <;> rfl

theorem read_data (i : IStream) (n : Nat) : (i.read n).2.data = i.data := by
  unfold IStream.read
  split
  · rfl
  · simp only
    split <;> rfl

theorem fParseLine_sim {F s i} (m : Message) (h : FRel F s i) :
    ((∃ s', (m.fParseLine s).1 = (.error .outside, s') ∧ BadbitStream i.data s') ∧ ∃ k, F k ≠ none) ∨
    (∃ s', m.fParseLine s = ((.ok ((m.parseLine i).1, (m.parseLine i).2.1), s'), (m.parseLine i).2.1) ∧ FRel F s' (m.parseLine i).2.2 ∧
      (m.parseLine i).2.2.data = i.data) := by
  unfold Message.fParseLine Message.parseLine
  have hd := getline_data i
  rcases fgetline_sim h with ⟨h1, hk, hb⟩ | ⟨h1, hr⟩
  · left
    cases hg : s.getline with
    | mk r s1 =>
      rw [hg] at h1 hb
      simp only at h1
      subst h1
      exact ⟨⟨s1, rfl, hb⟩, hk⟩
  · cases hg : s.getline with
    | mk r s1 =>
      cases hi : i.getline with
      | mk o i1 =>
        rw [hg, hi] at h1 hr
        rw [hi] at hd
        simp only at h1 hr hd
        subst h1
        cases o with
        | none => exact .inr ⟨s1, rfl, hr, hd⟩
        | some line0 =>
          simp only
          cases hc : chopCR line0 with
          | cons c cs => exact .inr ⟨s1, rfl, hr, hd⟩
          | nil =>
            have hd2 := tellg_data i1
            simp only
            rcases ftellg_sim hr with ⟨h1, hk, hb⟩ | ⟨h1, hr'⟩
            · left
              cases ht : s1.tellg with
              | mk r s2 =>
                rw [ht] at h1 hb
                simp only at h1
                subst h1
                exact ⟨⟨s2, rfl, hd ▸ hb⟩, hk⟩
            · right
              cases ht : s1.tellg with
              | mk r s2 =>
                rw [ht] at h1 hr'
                simp only at h1 hr'
                subst h1
                exact ⟨s2, rfl, hr', by rw [← hd]; exact hd2⟩

theorem fParseLoop_sim {F s i} (n : Nat) (m : Message) (h : FRel F s i) :
    ((∃ s', (m.fParseLoop n s).1 = (.error .outside, s') ∧ BadbitStream i.data s') ∧ ∃ k, F k ≠ none) ∨
    (match m.parseLoop n i with
      | .error e => ∃ s' m', m.fParseLoop n s = ((.error (.lib e), s'), m') ∧ BadbitStream i.data s'
      | .ok (m', i') => ∃ s', m.fParseLoop n s = ((.ok (), s'), m') ∧ FRel F s' i' ∧ i'.data = i.data) := by
  induction n generalizing m s i with
  | zero => exact .inr ⟨s, m, rfl, h.guard⟩
  | succ n ih =>
    rw [Message.fParseLoop, Message.parseLoop]
    rcases fParseLine_sim m h with ⟨⟨s', e, hb⟩, hk⟩ | ⟨s', e, hr, hd⟩
    · left
      cases hp : m.fParseLine s with
      | mk r m1 =>
        rw [hp] at e
        simp only at e
        subst e
        exact ⟨⟨s', rfl, hb⟩, hk⟩
    · rw [e]
      simp only
      cases hp : m.parseLine i with
      | mk ok q =>
        cases q with
        | mk m1 i1 =>
          rw [hp] at hr hd
          simp only at hr hd ⊢
          cases hc : (ok && !m1.done) with
          | true =>
            simp only [if_true]
            have := ih m1 hr
            rw [hd] at this
            exact this
          | false =>
            simp only [Bool.false_eq_true, if_false]
            exact .inr ⟨s', rfl, hr, hd⟩

theorem fBodyLoop_sim {F s i} (blk : Nat) (mode : CanonMode) (limit : Bool) (n : Nat) (a : BodyAcc) (h : FRel F s i) :
    ((∃ s', fBodyLoop blk mode limit n s a = (.error .outside, s') ∧ BadbitStream i.data s') ∧ ∃ k, F k ≠ none) ∨
    (match bodyLoop blk mode limit n i a with
      | .error e => ∃ s', fBodyLoop blk mode limit n s a = (.error (.lib e), s') ∧ BadbitStream i.data s'
      | .ok (i', a') => ∃ s', fBodyLoop blk mode limit n s a = (.ok a', s') ∧ BadbitStream i.data s') := by
  induction n generalizing s i a with
  | zero => exact .inr ⟨s, rfl, h.guard⟩
  | succ n ih =>
    rw [fBodyLoop, bodyLoop, h.good]
    split
    · exact .inr ⟨s, rfl, h.guard⟩
    · split
      · exact .inr ⟨s, rfl, h.guard⟩
      · have hd := read_data i blk
        rcases fread_sim h blk with ⟨h1, hk, hb⟩ | ⟨h1, hr⟩
        · left
          cases hg : s.read blk with
          | mk r s1 =>
            rw [hg] at h1 hb
            simp only at h1
            subst h1
            exact ⟨⟨s1, rfl, hb⟩, hk⟩
        · cases hg : s.read blk with
          | mk r s1 =>
            rw [hg] at h1 hr
            simp only at h1 hr
            subst h1
            simp only
            have := ih (s := s1) (i := (i.read blk).2)
              { (({ a with st := (bodyBlock mode a.st (i.read blk).1).1 } : BodyAcc).emit limit (bodyBlock mode a.st (i.read blk).1).2) with
                empty := (({ a with st := (bodyBlock mode a.st (i.read blk).1).1 } : BodyAcc).emit limit (bodyBlock mode a.st (i.read blk).1).2).empty &&
                  (bodyBlock mode a.st (i.read blk).1).2.isEmpty } hr
            rw [hd] at this
            exact this

/-- The body is found whatever happened to the stream before. -/
theorem fBody_sim {d : Bytes} {s : FStream} {i : IStream} (hs : BadbitStream d s) (hi : i.data = d) (mode : CanonMode) (off : Int)
    (limit : Bool) (size : Nat) :
    ((∃ s', fBody s mode off limit size = (.error .outside, s') ∧ BadbitStream d s') ∧ ∃ k, s.fault k ≠ none) ∨
    (match canonBody i mode off limit size with
      | .error e => ∃ s', fBody s mode off limit size = (.error (.lib e), s') ∧ BadbitStream d s'
      | .ok (r, _) => ∃ s', fBody s mode off limit size = (.ok r, s') ∧ BadbitStream d s') := by
  subst hi
  unfold fBody fBodyBlk canonBody canonBodyBlk
  by_cases hoff : off = -1
  · right
    simp only [hoff, ne_eq, not_true_eq_false, if_false]
    exact ⟨s, rfl, hs⟩
  · have hseek : ∃ s1, s.clear.seekg off = (.ok (), s1) ∧ (FRel s.fault s1 (i.clear.seekg off) ∨
        (BadbitStream i.data s1 ∧ s1.good = false ∧ (i.clear.seekg off).good = false)) := by
      obtain ⟨hd, hk, hm⟩ := hs
      cases s with
      | mk data seekable mask fault ops pos eof fail bad =>
        simp only at hd hk hm
        subst hd hk hm
        unfold FStream.seekg FStream.clear IStream.seekg IStream.clear
        simp only [Bool.or_self, Bool.false_eq_true, if_false, true_and]
        by_cases hr : 0 ≤ off ∧ off ≤ i.data.length
        · rw [if_pos hr, if_pos hr]
          exact ⟨_, rfl, .inl ⟨ops, rfl⟩⟩
        · rw [if_neg hr, if_neg hr]
          exact ⟨_, rfl, .inr ⟨⟨rfl, rfl, rfl⟩, rfl, rfl⟩⟩
    obtain ⟨s1, e1, hr⟩ := hseek
    have hd : (i.clear.seekg off).data = i.data := by
      unfold IStream.seekg IStream.clear
      simp only [Bool.false_eq_true, if_false]
      split <;> rfl
    simp only [ne_eq, hoff, not_false_eq_true, if_true, e1]
    rcases hr with hr | ⟨hb, hg1, hg2⟩
    rotate_left
    · right
      rw [fBodyLoop, bodyLoop, hg1, hg2]
      exact ⟨s1, rfl, hb⟩
    have := fBodyLoop_sim 8096 mode limit (s.data.length + 2) { size := size } hr
    rw [hs.data, hd] at this
    rw [hs.data]
    rcases this with ⟨⟨s', e, hb⟩, hk⟩ | h
    · left
      rw [e]
      exact ⟨⟨s', rfl, hb⟩, hk⟩
    · right
      cases hp : bodyLoop 8096 mode limit (i.data.length + 2) (i.clear.seekg off) { size := size } with
      | error e =>
        rw [hp] at h
        obtain ⟨s', e', hb⟩ := h
        rw [e']
        exact ⟨s', rfl, hb⟩
      | ok q =>
        obtain ⟨i', a'⟩ := q
        rw [hp] at h
        obtain ⟨s', e', hb⟩ := h
        rw [e']
        exact ⟨s', rfl, hb⟩

/-- Reading the header block from the start. -/
theorem fParse_sim {d : Bytes} {s : FStream} (hs : BadbitStream d s) (h0 : AtStart s) :
    ((∃ s', (({} : Message).fParse s).1 = (.error .outside, s') ∧ BadbitStream d s') ∧ ∃ k, s.fault k ≠ none) ∨
    (match ({} : Message).parseAll (freshStream d) with
      | .error e => ∃ s' m', ({} : Message).fParse s = ((.error (.lib e), s'), m') ∧ BadbitStream d s'
      | .ok (m', i') => ∃ s', ({} : Message).fParse s = ((.ok (), s'), m') ∧ BadbitStream d s' ∧ s'.fault = s.fault ∧ i'.data = d) := by
  have hr : FRel s.fault s (freshStream d) := by
    obtain ⟨hd, hk, hm⟩ := hs
    obtain ⟨p, e, f, b⟩ := h0
    cases s with
    | mk data seekable mask fault ops pos eof fail bad =>
      simp only at hd hk hm p e f b
      subst hd hk hm p e f b
      exact ⟨ops, rfl⟩
  unfold Message.fParse Message.parseAll
  rw [hs.data]
  have hf : (freshStream d).data = d := rfl
  rcases fParseLoop_sim (d.length + 2) {} hr with h | h
  · exact .inl h
  · right
    rw [hf]
    cases hp : Message.parseLoop (d.length + 2) {} (freshStream d) with
    | error e => rw [hp] at h; exact h
    | ok q =>
      obtain ⟨m', i'⟩ := q
      rw [hp] at h
      obtain ⟨s', e, hr', hd⟩ := h
      rw [hf] at hd
      have hg := hr'.guard
      rw [hd] at hg
      obtain ⟨ops, rfl⟩ := hr'
      exact ⟨_, e, hg, rfl, hd⟩

/-- C100: signing from a stream with `exceptions(badbit)` either passes on the exception, which happens only if an access failed, or
gives the result (or the error) for the whole text. -/
theorem C100_signing (E : Env) (o : Options E) (clock : Nat → Int) (d : Bytes) (s : FStream) (hs : BadbitStream d s) (h0 : AtStart s) :
    ((FSignatory.createSignature E o clock { file := s }).1 = .error .outside ∧ ¬ NoFault s) ∨
    (FSignatory.createSignature E o clock { file := s }).1 = liftLib (Signatory.createSignature E o clock { file := freshStream d }).1 := by
  have nf : ∀ {F : Nat → Option Nat}, F = s.fault → (∃ k, F k ≠ none) → ¬ NoFault s := by
    rintro F rfl ⟨k, hk⟩ h
    exact hk (h k)
  unfold FSignatory.createSignature Signatory.createSignature
  simp only
  rcases fParse_sim hs h0 with ⟨⟨s', e, hb⟩, hk⟩ | h
  · left
    cases hp : ({} : Message).fParse s with
    | mk r m =>
      rw [hp] at e
      simp only at e
      subst e
      exact ⟨rfl, nf rfl hk⟩
  · cases hp : ({} : Message).parseAll (freshStream d) with
    | error e =>
      rw [hp] at h
      obtain ⟨s', m', e', _⟩ := h
      rw [e']
      exact .inr rfl
    | ok q =>
      obtain ⟨m, i'⟩ := q
      rw [hp] at h
      obtain ⟨s', e', hb, hf, hd⟩ := h
      rw [e']
      simp only
      rcases fBody_sim hb hd o.canonBody m.bodyOffset o.bodySignLength o.bodyLength with ⟨⟨s2, e2, _⟩, hk⟩ | h2
      · left
        rw [e2]
        exact ⟨rfl, nf hf hk⟩
      · right
        cases hc : canonBody i' o.canonBody m.bodyOffset o.bodySignLength o.bodyLength with
        | error e =>
          rw [hc] at h2
          obtain ⟨s2, e2, _⟩ := h2
          rw [e2]
          rfl
        | ok q =>
          obtain ⟨⟨calls, ok⟩, i2⟩ := q
          rw [hc] at h2
          obtain ⟨s2, e2, _⟩ := h2
          rw [e2]
          simp only
          cases ok with
          | false => rfl
          | true =>
            simp only [Bool.not_true, Bool.false_eq_true, if_false]
            cases signLoop o.canonHead o.headers m.headers.reverse with
            | error e => rfl
            | ok q => rfl

/-- C100: the same for the constructor of the verifier. -/
theorem C100_construct (type : ValidatorType) (d : Bytes) (s : FStream) (hs : BadbitStream d s) (h0 : AtStart s) :
    ((FValidatory.mk' s type).1 = .error .outside ∧ ¬ NoFault s) ∨
    ∃ fv v, (FValidatory.mk' s type).1 = .ok fv ∧ Validatory.mk' (freshStream d) type = .ok v ∧
      fv.msg = v.msg ∧ fv.sigs = v.sigs ∧ BadbitStream d fv.file := by
  unfold FValidatory.mk' Validatory.mk'
  rcases fParse_sim hs h0 with ⟨⟨s', e, hb⟩, k, hk⟩ | h
  · left
    cases hp : ({} : Message).fParse s with
    | mk r m =>
      rw [hp] at e
      simp only at e
      subst e
      exact ⟨rfl, fun h => hk (h k)⟩
  · cases hp : ({} : Message).parseAll (freshStream d) with
    | error e =>
      obtain ⟨m, s', ls, h1, _⟩ := C20_parse d
      rw [hp] at h1
      cases h1
    | ok q =>
      obtain ⟨m, i'⟩ := q
      rw [hp] at h
      obtain ⟨s', e', hb, hf, hd⟩ := h
      rw [e']
      exact .inr ⟨_, _, rfl, rfl, rfl, rfl, hb⟩

/-- The body hash check on the stream. -/
theorem fcheckBodyHash_sim (E : Env) {d : Bytes} {fv : FValidatory} {v : Validatory} (hb : BadbitStream d fv.file) (hm : fv.msg = v.msg)
    (hd : v.file.data = d) (sig : Signature) :
    (((fv.checkBodyHash E sig).1 = .error .outside ∧ ∃ k, fv.file.fault k ≠ none) ∨
      (fv.checkBodyHash E sig).1 = liftLib (v.checkBodyHash E sig).1) ∧
    BadbitStream d (fv.checkBodyHash E sig).2.file ∧ (fv.checkBodyHash E sig).2.msg = fv.msg ∧ (v.checkBodyHash E sig).2.msg = v.msg := by
  have hv : (v.checkBodyHash E sig).2.msg = v.msg := by
    unfold Validatory.checkBodyHash
    split
    · rfl
    · simp only
      split <;> rfl
  rw [eq_true hv, and_true]
  unfold FValidatory.checkBodyHash Validatory.checkBodyHash
  rw [← hm]
  rcases fBody_sim hb hd sig.canonBody fv.msg.bodyOffset sig.bodySizeLimit sig.bodySize with ⟨⟨s2, e2, hb2⟩, hk⟩ | h2
  · rw [e2]
    exact ⟨.inl ⟨rfl, hk⟩, hb2, rfl⟩
  · cases hc : canonBody v.file sig.canonBody fv.msg.bodyOffset sig.bodySizeLimit sig.bodySize with
    | error e =>
      rw [hc] at h2
      obtain ⟨s2, e2, hb2⟩ := h2
      rw [e2]
      exact ⟨.inr rfl, hb2, rfl⟩
    | ok q =>
      obtain ⟨⟨calls, ok⟩, i2⟩ := q
      rw [hc] at h2
      obtain ⟨s2, e2, hb2⟩ := h2
      rw [e2]
      simp only
      split
      · exact ⟨.inr rfl, hb2, rfl⟩
      · exact ⟨.inr rfl, hb2, rfl⟩

/-- One verification on the stream. -/
theorem fverifyOne_sim (E : Env) {d : Bytes} {fv : FValidatory} {v : Validatory} (hb : BadbitStream d fv.file) (hm : fv.msg = v.msg)
    (hd : v.file.data = d) (now : Int) (resolver : Bytes → Option (Bool × Bytes)) (h : Header) (er : Bool) (r : Except FErr Unit)
    (st : SigSt) (pub : PublicKey E) (fv' : FValidatory) (hr : fv.verifyOne E now resolver h er = (r, st, pub, fv')) :
    ((r = .error .outside ∧ ((∃ k, fv.file.fault k ≠ none) ∨ ∃ q, resolver q = none)) ∨
      ∃ r' v', v.verifyOne E now (quiet resolver) h er = (r', st, pub, v') ∧ r = liftLib r') ∧
    BadbitStream d fv'.file ∧ fv'.msg = fv.msg := by
  unfold FValidatory.verifyOne FValidatory.getSignature at hr
  unfold Validatory.verifyOne Validatory.getSignature
  cases hp : Signature.parse E now h { erange := er } with
  | error e st1 =>
    rw [hp] at hr
    cases hr
    exact ⟨.inr ⟨_, _, rfl, rfl⟩, hb, rfl⟩
  | ok u st1 =>
    rw [hp] at hr
    simp only at hr ⊢
    obtain ⟨h1, h2, h3, h4⟩ := fcheckBodyHash_sim E hb hm hd st1.sig
    cases hc : fv.checkBodyHash E st1.sig with
    | mk rc fv1 =>
      cases hvc : v.checkBodyHash E st1.sig with
      | mk rv v1 =>
        rw [hc] at hr h1 h2 h3
        rw [hvc] at h1 h4
        simp only at h1 h2 h3 h4 hr ⊢
        rcases h1 with ⟨e1, hk⟩ | e1
        · subst e1
          cases hr
          exact ⟨.inl ⟨rfl, .inl hk⟩, h2, h3⟩
        · cases rv with
          | error e =>
            simp only [liftLib] at e1
            subst e1
            cases hr
            exact ⟨.inr ⟨_, _, rfl, rfl⟩, h2, h3⟩
          | ok u =>
            simp only [liftLib] at e1
            subst e1
            simp only at hr ⊢
            have hmsg : fv1.msg = v1.msg := by rw [h3, h4, hm]
            unfold fGetPublicKey at hr
            cases ha : resolver (keyQuery st1.sig) with
            | none =>
              rw [ha] at hr
              cases hr
              exact ⟨.inl ⟨rfl, .inr ⟨_, ha⟩⟩, h2, h3⟩
            | some a =>
              rw [ha] at hr
              simp only at hr
              have hg : getPublicKey (quiet resolver) st1.sig ({} : PublicKey E) = getPublicKey (fun _ => a) st1.sig ({} : PublicKey E) := by
                unfold getPublicKey
                have : quiet resolver (keyQuery st1.sig) = a := by simp [quiet, ha]
                rw [this]
              rw [hg]
              cases hk : getPublicKey (fun _ => a) st1.sig ({} : PublicKey E) with
              | error e pub1 =>
                rw [hk] at hr
                cases hr
                exact ⟨.inr ⟨_, _, rfl, rfl⟩, h2, h3⟩
              | ok u pub1 =>
                rw [hk] at hr
                simp only at hr ⊢
                rw [hmsg] at hr
                cases hr
                exact ⟨.inr ⟨_, _, rfl, rfl⟩, h2, h3⟩

theorem Spec.BadbitStream.disturb {d s} (h : BadbitStream d s) (x : Disturbance) : BadbitStream d (Dkim.Spec.disturb x s) := ⟨h.data, h.seekable, h.mask⟩

/-- C100: a verifier was constructed over a stream with `exceptions(badbit)`. Whatever is done to the stream between the calls, and
however its accesses fail, each verification passes on an exception (and then an access or the resolver did throw) or gives
the result, the signature object and the key object that a verifier over the whole text gives. -/
theorem C100_check (E : Env) (type : ValidatorType) (d : Bytes) (s : FStream) (hs : BadbitStream d s) (h0 : AtStart s) (fv : FValidatory)
    (hv : (FValidatory.mk' s type).1 = .ok fv) (calls : List FVerification) :
    ∃ v, Validatory.mk' (freshStream d) type = .ok v ∧ fv.sigs = v.sigs ∧ (resultsOf (fVerify E) fv calls).length = calls.length ∧
      ∀ c r st pub, (c, r, st, pub) ∈ calls.zip (resultsOf (fVerify E) fv calls) →
        (r = .error .outside ∧ ((∃ k, c.before.fault k ≠ none) ∨ ∃ q, c.resolver q = none)) ∨
        ∃ r' v', v.verifyOne E c.now (quiet c.resolver) c.header c.erange = (r', st, pub, v') ∧ r = liftLib r' := by
  rcases C100_construct type d s hs h0 with ⟨e, _⟩ | ⟨fv1, v, e1, e2, hm, hsig, hb⟩
  · rw [hv] at e
    cases e
  · rw [hv] at e1
    cases e1
    refine ⟨v, e2, hsig, ?_⟩
    have hd : v.file.data = d := by
      unfold Validatory.mk' at e2
      cases hp : ({} : Message).parseAll (freshStream d) with
      | error e => rw [hp] at e2; cases e2
      | ok q =>
        obtain ⟨m, i⟩ := q
        rw [hp] at e2
        cases e2
        have := fParse_sim (d := d) (s := FStream.of (fun _ => none) 0 (freshStream d)) ⟨rfl, rfl, rfl⟩ ⟨rfl, rfl, rfl, rfl⟩
        rw [hp] at this
        rcases this with ⟨_, k, hk⟩ | ⟨_, _, _, _, hd⟩
        · exact absurd rfl hk
        · exact hd
    clear hv e2 hsig hs h0
    induction calls generalizing fv with
    | nil => exact ⟨rfl, fun c r st pub h => by cases h⟩
    | cons c cs ih =>
      simp only [resultsOf, List.length_cons, List.zip_cons_cons, List.mem_cons]
      cases hr : FValidatory.verifyOne E c.now c.resolver { fv with file := Spec.disturb c.before fv.file } c.header c.erange with
      | mk r0 q =>
        obtain ⟨st0, pub0, fv'⟩ := q
        obtain ⟨h1, h2, h3⟩ := fverifyOne_sim E (d := d) (fv := { fv with file := Spec.disturb c.before fv.file }) (v := v) (hb.disturb _) hm hd
          c.now c.resolver c.header c.erange r0 st0 pub0 fv' hr
        have he : fVerify E fv c = ((r0, st0, pub0), fv') := by
          unfold fVerify
          rw [hr]
        rw [he]
        obtain ⟨i1, i2⟩ := ih fv' (h3.trans hm) h2
        refine ⟨by rw [i1], ?_⟩
        rintro c' r st pub (heq | hmem)
        · cases heq
          exact h1
        · exact i2 c' r st pub hmem

theorem cutLF_length {d line rest : Bytes} (h : IStream.cutLF d = some (line, rest)) : line.length + 1 + rest.length = d.length := by
  induction d generalizing line with
  | nil => cases h
  | cons b bs ih =>
    rw [IStream.cutLF] at h
    split at h
    · cases h; simp; omega
    · cases hc : IStream.cutLF bs with
      | none => rw [hc] at h; cases h
      | some p =>
        obtain ⟨l, r⟩ := p
        rw [hc] at h
        cases h
        have := ih hc
        simp only [List.length_cons] at *
        omega

/-- Reading on: nothing is wrong yet, or the last line had no line end. -/
def Quiet (d : Bytes) (s : FStream) : Prop :=
  s.data = d ∧ EndThrows s ∧ s.fail = false ∧ s.bad = false ∧ s.pos ≤ d.length ∧ (s.eof = false ∨ s.eof = true ∧ s.mask.fail = true)

theorem failed_throws {α : Type} {s : FStream} (h : s.eof = true ∨ s.mask.fail = true) (hf : s.fail = true) (hm : s.mask.fail = true ∨ s.mask.eof = true)
    (a : α) : (s.settle a).1 = .error .outside := by
  unfold FStream.settle
  rw [hf]
  rcases hm with hm | hm
  · rw [hm]; simp
  · rcases h with h | h
    · rw [hm, h]; simp
    · rw [h]; simp

theorem fParseLoop_ends {d : Bytes} (n : Nat) (m : Message) (hm : m.done = false) (s : FStream) (h : Quiet d s) (hn : d.length - s.pos + 2 ≤ n) :
    (m.fParseLoop n s).1.1 = .error .outside ∨
    ∃ s' m', m.fParseLoop n s = ((.ok (), s'), m') ∧ s'.data = d ∧ EndThrows s' ∧ 0 ≤ m'.bodyOffset ∧ m'.bodyOffset ≤ d.length := by
  induction n generalizing m s with
  | zero => omega
  | succ n ih =>
    rw [Message.fParseLoop]
    obtain ⟨hd, ht, hf, hb, hp, he⟩ := h
    have hthrow : ∀ {s'}, s.getline = (.error .outside, s') →
        (match m.fParseLine s with
          | ((.error e, s1), m1) => ((.error e, s1), m1)
          | ((.ok (ok, _), s1), m1) => if ok && !m1.done then m1.fParseLoop n s1 else ((.ok (), s1), m1) : FResult Unit × Message).1.1 =
          .error .outside := by
      intro s' hg
      unfold Message.fParseLine
      rw [hg]
    rcases he with he | ⟨he, hmf⟩
    rotate_left
    · left
      cases hg : s.getline with
      | mk r s' =>
        have : s.getline.1 = .error .outside := by
          unfold FStream.getline FStream.good
          rw [he]
          apply failed_throws
          · exact .inr hmf
          · rfl
          · exact ht.mask
        rw [hg] at this
        simp only at this
        subst this
        exact hthrow hg
    · have hgood : s.good = true := by simp [FStream.good, hf, hb, he]
      cases hc : IStream.cutLF (s.data.drop s.pos) with
      | none =>
        by_cases hemp : (s.data.drop s.pos).isEmpty = true
        · left
          cases hg : s.getline with
          | mk r s' =>
            have : s.getline.1 = .error .outside := by
              unfold FStream.getline
              rw [hgood, ht.calm]
              simp only [Bool.not_true, Bool.false_eq_true, if_false, hc]
              rw [if_pos hemp]
              apply failed_throws
              · exact .inl rfl
              · rfl
              · exact ht.mask
            rw [hg] at this
            simp only at this
            subst this
            exact hthrow hg
        · by_cases hme : s.mask.eof = true
          · left
            cases hg : s.getline with
            | mk r s' =>
              have : s.getline.1 = .error .outside := by
                unfold FStream.getline
                rw [hgood, ht.calm]
                simp only [Bool.not_true, Bool.false_eq_true, if_false, hc]
                rw [if_neg hemp]
                unfold FStream.settle
                simp [hme]
              rw [hg] at this
              simp only at this
              subst this
              exact hthrow hg
          · have hmf : s.mask.fail = true := ht.mask.resolve_right hme
            have hl : (s.data.drop s.pos).length = d.length - s.pos := by rw [hd]; simp
            have hne : d.length - s.pos ≠ 0 := by
              intro h0
              rw [h0] at hl
              exact hemp (by rw [List.eq_nil_of_length_eq_zero hl]; rfl)
            have hg : s.getline = (.ok (some (s.data.drop s.pos)),
                { s with ops := s.ops + 1, pos := s.pos + (s.data.drop s.pos).length, eof := true }) := by
              unfold FStream.getline
              rw [hgood, ht.calm]
              simp only [Bool.not_true, Bool.false_eq_true, if_false, hc]
              rw [if_neg hemp]
              unfold FStream.settle
              simp [hme, hf, hb]
            unfold Message.fParseLine
            rw [hg]
            simp only
            cases hch : chopCR (s.data.drop s.pos) with
            | nil =>
              left
              simp only
              have ht2 : (FStream.tellg { s with ops := s.ops + 1, pos := s.pos + (s.data.drop s.pos).length, eof := true }).1 = .error .outside := by
                unfold FStream.tellg FStream.good
                simp only [Bool.not_true, Bool.false_and, Bool.false_eq_true, if_false]
                apply failed_throws
                · exact .inl rfl
                · rfl
                · exact ht.mask
              cases htg : FStream.tellg { s with ops := s.ops + 1, pos := s.pos + (s.data.drop s.pos).length, eof := true } with
              | mk r s2 =>
                rw [htg] at ht2
                simp only at ht2
                subst ht2
                rfl
            | cons c cs =>
              simp only
              have hdone : ∀ (b : Bool), (if c ≠ TAB ∧ c ≠ SP then { m with headers := m.pushTmp, tmp := some {} } else m : Message).done = false := by
                intro _
                split <;> exact hm
              rw [hdone true]
              simp only [Bool.not_false, Bool.and_self, if_true]
              apply ih
              · rfl
              · exact ⟨hd, ⟨ht.seekable, ht.mask, ht.calm⟩, hf, hb, by simp only; omega, .inr ⟨rfl, hmf⟩⟩
              · simp only; omega
      | some p =>
        obtain ⟨line, rest⟩ := p
        have hl := cutLF_length hc
        have hl2 : (s.data.drop s.pos).length = d.length - s.pos := by rw [hd]; simp
        have hg : s.getline = (.ok (some line), { s with ops := s.ops + 1, pos := s.pos + line.length + 1 }) := by
          unfold FStream.getline
          rw [hgood, ht.calm]
          simp only [Bool.not_true, Bool.false_eq_true, if_false, hc]
        unfold Message.fParseLine
        rw [hg]
        simp only
        cases hch : chopCR line with
        | nil =>
          right
          have ht2 : FStream.tellg { s with ops := s.ops + 1, pos := s.pos + line.length + 1 } =
              (.ok ((s.pos + line.length + 1 : Nat) : Int), { s with ops := s.ops + 1, pos := s.pos + line.length + 1 }) := by
            have hg2 : FStream.good { s with ops := s.ops + 1, pos := s.pos + line.length + 1 } = true := hgood
            unfold FStream.tellg
            rw [if_pos hg2, if_pos ht.seekable]
          simp only
          rw [ht2]
          simp only [Bool.not_true, Bool.and_false, Bool.false_eq_true, if_false]
          refine ⟨_, _, rfl, hd, ⟨ht.seekable, ht.mask, ht.calm⟩, ?_, ?_⟩
          · simp only; omega
          · simp only; omega
        | cons c cs =>
          simp only
          have hdone : (if c ≠ TAB ∧ c ≠ SP then { m with headers := m.pushTmp, tmp := some {} } else m : Message).done = false := by
            split <;> exact hm
          rw [hdone]
          simp only [Bool.not_false, Bool.and_self, if_true]
          apply ih
          · rfl
          · exact ⟨hd, ⟨ht.seekable, ht.mask, ht.calm⟩, hf, hb, by simp only; omega, .inl he⟩
          · simp only; omega

theorem fBodyLoop_ends {d : Bytes} (mode : CanonMode) (n : Nat) (s : FStream) (a : BodyAcc) (hd : s.data = d) (ht : EndThrows s)
    (hg : s.good = true) (hp : s.pos ≤ d.length) (hn : d.length - s.pos + 1 ≤ n) : (fBodyLoop 8096 mode false n s a).1 = .error .outside := by
  induction n generalizing s a with
  | zero => omega
  | succ n ih =>
    rw [fBodyLoop, hg]
    simp only [Bool.not_true, Bool.false_eq_true, if_false, false_and]
    have hl : (s.data.drop s.pos).length = d.length - s.pos := by rw [hd]; simp
    by_cases h8 : 8096 ≤ (s.data.drop s.pos).length
    · have hr : s.read 8096 = (.ok ((s.data.drop s.pos).take 8096), { s with ops := s.ops + 1, pos := s.pos + 8096 }) := by
        unfold FStream.read
        rw [hg, ht.calm]
        simp only [Bool.not_true, Bool.false_eq_true, if_false]
        rw [if_pos h8]
      rw [hr]
      simp only
      refine ih _ _ hd ⟨ht.seekable, ht.mask, ht.calm⟩ hg ?_ ?_
      · simp only; omega
      · simp only; omega
    · have hr : (s.read 8096).1 = .error .outside := by
        unfold FStream.read
        rw [hg, ht.calm]
        simp only [Bool.not_true, Bool.false_eq_true, if_false]
        rw [if_neg h8]
        apply failed_throws
        · exact .inl rfl
        · rfl
        · exact ht.mask
      cases hrr : s.read 8096 with
      | mk r s' =>
        rw [hrr] at hr
        simp only at hr
        subst hr
        rfl

theorem fBody_ends {d : Bytes} (mode : CanonMode) (s : FStream) (off : Int) (size : Nat) (hd : s.data = d) (ht : EndThrows s)
    (h0 : 0 ≤ off) (h1 : off ≤ d.length) : (fBody s mode off false size).1 = .error .outside := by
  unfold fBody fBodyBlk
  have hs : s.clear.seekg off = (.ok (), { s.clear with pos := off.toNat }) := by
    unfold FStream.seekg
    have : s.clear.seekable = true ∧ 0 ≤ off ∧ off ≤ s.clear.data.length := ⟨ht.seekable, h0, by show off ≤ s.data.length; rw [hd]; exact h1⟩
    simp only [FStream.clear, Bool.or_self, Bool.false_eq_true, if_false] at this ⊢
    exact if_pos this
  have hoff : off ≠ -1 := by omega
  simp only [ne_eq, hoff, not_false_eq_true, if_true, hs]
  have := fBodyLoop_ends (d := d) mode (s.data.length + 2) { s.clear with pos := off.toNat } { size := size } hd
    ⟨ht.seekable, ht.mask, ht.calm⟩ rfl (by show off.toNat ≤ _; omega) (by rw [hd]; show d.length - off.toNat + 1 ≤ _; omega)
  cases hl : fBodyLoop 8096 mode false (s.data.length + 2) { s.clear with pos := off.toNat } { size := size } with
  | mk r s' =>
    rw [hl] at this
    simp only at this
    subst this
    rfl

/-- C100: failbit or eofbit must not be among the exceptions: the end of the text is then always reported as one, and no message can be
signed without a body length limit. -/
theorem C100_end_throws (E : Env) (o : Options E) (clock : Nat → Int) (s : FStream) (h : EndThrows s) (h0 : AtStart s)
    (hl : o.bodySignLength = false) : (FSignatory.createSignature E o clock { file := s }).1 = .error .outside := by
  unfold FSignatory.createSignature Message.fParse
  simp only
  rcases fParseLoop_ends (d := s.data) (s.data.length + 2) {} rfl s ⟨rfl, h, h0.fail, h0.bad, by rw [h0.pos]; exact Nat.zero_le _, .inl h0.eof⟩
    (by omega) with e | ⟨s', m', e, hd, ht, b0, b1⟩
  · cases hp : Message.fParseLoop (s.data.length + 2) {} s with
    | mk r m =>
      obtain ⟨r, s'⟩ := r
      rw [hp] at e
      simp only at e
      subst e
      rfl
  · rw [e, hl]
    simp only
    have := fBody_ends o.canonBody s' m'.bodyOffset o.bodyLength hd ht b0 b1
    cases hb : fBody s' o.canonBody m'.bodyOffset false o.bodyLength with
    | mk r s2 =>
      rw [hb] at this
      simp only at this
      subst this
      rfl

/-- C100: so does the check of every signature without a body length limit, in a verifier over such a stream. -/
theorem C100_end_throws_check (E : Env) (type : ValidatorType) (s : FStream) (h : EndThrows s) (h0 : AtStart s) :
    (FValidatory.mk' s type).1 = .error .outside ∨
    ∃ fv, (FValidatory.mk' s type).1 = .ok fv ∧ ∀ now resolver hd er st, Signature.parse E now hd { erange := er } = .ok () st →
      st.sig.bodySizeLimit = false → (fv.verifyOne E now resolver hd er).1 = .error .outside := by
  unfold FValidatory.mk' Message.fParse
  rcases fParseLoop_ends (d := s.data) (s.data.length + 2) {} rfl s ⟨rfl, h, h0.fail, h0.bad, by rw [h0.pos]; exact Nat.zero_le _, .inl h0.eof⟩
    (by omega) with e | ⟨s', m', e, hd, ht, b0, b1⟩
  · left
    cases hp : Message.fParseLoop (s.data.length + 2) {} s with
    | mk r m =>
      obtain ⟨r, s'⟩ := r
      rw [hp] at e
      simp only at e
      subst e
      rfl
  · right
    rw [e]
    refine ⟨_, rfl, ?_⟩
    intro now resolver hdr er st hp hl
    unfold FValidatory.verifyOne FValidatory.getSignature FValidatory.checkBodyHash
    rw [hp]
    simp only
    rw [hl]
    have := fBody_ends st.sig.canonBody s' m'.bodyOffset st.sig.bodySize hd ht b0 b1
    cases hb : fBody s' st.sig.canonBody m'.bodyOffset false st.sig.bodySize with
    | mk r s2 =>
      rw [hb] at this
      simp only at this
      subst this
      rfl

/-- A stream on the sample message. -/
def sampleStream (mask : Mask) (seekable : Bool) (fault : Nat → Option Nat) (d : Bytes) : FStream :=
  { data := d, seekable := seekable, mask := mask, fault := fault }

/-- C100: the exception mask does not help with a source that cannot be positioned: the signature of the message without its body
is returned (C83). -/
theorem C100_pipe_witness :
    (FSignatory.createSignature toyEnv Samples.rsaOpts (fun _ => 0) { file := sampleStream { bad := true } false (fun _ => none) Samples.message }).1 =
      liftLib (Samples.sign Samples.rsaOpts b!"To: x\r\nFrom: a@b.c\r\nTo: y,\r\n z\r\n\r\n") := by
  decide +kernel

/-- The cases of C100 occur: no fault; a fault in the header block; a fault in the body; the same without the mask; failbit in the
mask. -/
theorem fault_examples :
    (FSignatory.createSignature toyEnv Samples.rsaOpts (fun _ => 0) { file := sampleStream { bad := true } true (fun _ => none) Samples.message }).1 =
      liftLib (Samples.sign Samples.rsaOpts Samples.message) ∧
    (FSignatory.createSignature toyEnv Samples.rsaOpts (fun _ => 0)
      { file := sampleStream { bad := true } true (fun k => if k = 2 then some 3 else none) Samples.message }).1 = .error .outside ∧
    (FSignatory.createSignature toyEnv Samples.rsaOpts (fun _ => 0)
      { file := sampleStream { bad := true } true (fun k => if k = 5 then some 0 else none) Samples.message }).1 = .error .outside ∧
    (FSignatory.createSignature toyEnv Samples.rsaOpts (fun _ => 0)
      { file := sampleStream {} true (fun k => if k = 5 then some 0 else none) Samples.message }).1 =
      liftLib (Samples.sign Samples.rsaOpts b!"To: x\r\nFrom: a@b.c\r\nTo: y,\r\n z\r\n\r\n") ∧
    (FSignatory.createSignature toyEnv Samples.rsaOpts (fun _ => 0) { file := sampleStream { fail := true } true (fun _ => none) Samples.message }).1 =
      .error .outside := by
  decide +kernel

example : BadbitStream Samples.message (sampleStream { bad := true } true (fun k => if k = 2 then some 3 else none) Samples.message) ∧
    AtStart (sampleStream { bad := true } true (fun k => if k = 2 then some 3 else none) Samples.message) :=
  ⟨⟨rfl, rfl, rfl⟩, ⟨rfl, rfl, rfl, rfl⟩⟩

example : EndThrows (sampleStream { fail := true } true (fun _ => none) Samples.message) := ⟨rfl, .inl rfl, fun _ => rfl⟩

end Dkim

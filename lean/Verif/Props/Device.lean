import Verif.Proofs.Device
import Verif.Tests.Samples
/-!
# Properties C83, C84: sources that cannot be positioned or that break off

Spec: `Verif/Spec/Device.lean`.
-/

namespace Dkim
open Spec

/-! ### what the body loop sees -/

/-- The body at `od` of the device looks like the body at `os` of the text. -/
def BodySeen (d : Device) (od : Int) (text : Bytes) (os : Int) : Prop :=
  (od = -1 ∧ (os = -1 ∨ os = text.length)) ∨
  (∃ n : Nat, od = n ∧ os = n ∧ n ≤ text.length ∧ d.seekable = true ∧
    ((d.broken = false ∧ text = d.data) ∨
     (d.broken = true ∧ ∃ k, text.length = n + 8096 * k ∧ text = d.data.take text.length ∧ d.data.length < text.length + 8096)))

theorem BodySeen.same {d d' : Device} (h : SameDev d' d) {od text os} (hb : BodySeen d od text os) : BodySeen d' od text os := by
  unfold BodySeen at *
  rw [h.1, h.2.1, h.2.2]; exact hb

theorem devBody_seen {d : Device} {s : IStream} {od os : Int} (h : BodySeen d od s.data os) (mode : CanonMode) (limit : Bool) (n : Nat) :
    ∃ cd cs ok d' s', devBody d mode od limit n = .ok ((cd, ok), d') ∧ Dkim.canonBody s mode os limit n = .ok ((cs, ok), s') ∧
      cd.flatten = cs.flatten ∧ SameDev d' d ∧ s'.data = s.data := by
  rcases h with ⟨rfl, ho⟩ | ⟨p, rfl, rfl, hp, hk, hrel⟩
  · have e : os = -1 ∨ (0 ≤ os ∧ os ≤ s.data.length) := by rcases ho with h | h <;> omega
    obtain ⟨cs, s', h1, h2, h3⟩ := canonBodyBlk_spec 8096 (by decide) s mode os limit n e
    have hb : bodyPart s.data os = [] := by
      rcases ho with rfl | rfl
      · rfl
      · unfold bodyPart; rw [if_neg (by omega)]; simp
    rw [hb] at h1 h3
    obtain ⟨cs0, s0, h10, h20, h30⟩ := canonBodyBlk_spec 8096 (by decide) s mode (-1) limit n (Or.inl rfl)
    have hb0 : bodyPart s.data (-1) = [] := rfl
    rw [hb0] at h10 h30
    refine ⟨cs0, cs, !limit || decide (n ≤ (Spec.canonBody mode []).length), d, s', ?_, h1, by rw [h30, h3], ⟨rfl, rfl, rfl⟩, h2⟩
    simp only [canonBodyBlk, ne_eq, not_true_eq_false, if_false] at h10
    simp only [devBody, devBodyBlk, ne_eq, not_true_eq_false, if_false]
    injection h10 with h10
    injection h10 with h11 h12
    rw [h11]
  · have hle : s.data.length ≤ d.data.length := by
      rcases hrel with ⟨_, e⟩ | ⟨_, k, _, e, _⟩
      · rw [e]; exact Nat.le_refl _
      · have := congrArg List.length e
        rw [List.length_take] at this; omega
    have hds : d.clear.seekg (p : Int) = { d with pos := p, eof := false, fail := false, bad := false } := by
      simp only [Device.seekg, Device.clear, Bool.or_self, Bool.false_eq_true, if_false, hk, true_and, Int.toNat_natCast]
      rw [if_pos ⟨by omega, by omega⟩]
    have hss : s.clear.seekg (p : Int) = { s with pos := p, eof := false, fail := false } := by
      have h2 : (p : Int) ≤ s.data.length := by omega
      simp [IStream.seekg, IStream.clear, h2]
    obtain ⟨d', s', a', g1, g2, g3⟩ := dev_loop 8096 (by decide) mode limit (d.data.length + 2)
      { d with pos := p, eof := false, fail := false, bad := false } { s with pos := p, eof := false, fail := false } { size := n }
      ⟨rfl, rfl, rfl, hp, hrel⟩ (by simp only [List.length_drop]; omega)
    have g4 := g3 (s.data.length + 2) (by simp only [List.length_drop]; omega)
    obtain ⟨cs, s2, h1, h2, h3⟩ := canonBodyBlk_spec 8096 (by decide) s mode p limit n (Or.inr ⟨by omega, by omega⟩)
    have hne : (p : Int) ≠ -1 := by omega
    have hcan : canonBodyBlk 8096 s mode p limit n = .ok (((if a'.empty = false ∨ mode ≠ .relaxed then a'.emit limit CRLF else a').calls,
        !(limit && (if a'.empty = false ∨ mode ≠ .relaxed then a'.emit limit CRLF else a').size > 0)), s') := by
      simp only [canonBodyBlk, hne, ne_eq, not_false_eq_true, if_true, hss, g4]
    refine ⟨_, _, _, d', s', ?_, hcan, rfl, g2, ?_⟩
    · simp only [devBody, devBodyBlk, hne, ne_eq, not_false_eq_true, if_true, hds, g1]
    · rw [h1] at hcan
      injection hcan with e
      injection e with e1 e2
      rw [← e2]; exact h2

/-! ### what the header loop sees -/

theorem isHead_off {head d : Bytes} (h : IsHead head d) {ls : List Bytes} {off : Int} (ht : HeadText 0 d ls off) : off = head.length := by
  obtain ⟨h1, ⟨body, rfl⟩, h3⟩ := h
  have hne : head.length ≠ 0 := by
    intro h0
    rw [List.length_eq_zero_iff.1 h0] at h1
    exact not_endsHead_nil h1
  rcases headText_offset ht [] rfl (Or.inl rfl) with ⟨n, a1, a2, a3, a4, a5⟩ | ⟨a1, a2⟩
  · rw [a1]
    rcases Nat.lt_trichotomy n head.length with hlt | heq | hgt
    · exact absurd (by simpa using a4) (h3 n hlt)
    · rw [heq]
    · have := a5 head.length (by omega) hgt
      simp only [List.nil_append, List.take_left] at this
      exact absurd h1 this
  · have := a2 head.length (by omega) (by simp)
    simp only [List.nil_append, List.take_left] at this
    exact absurd h1 this

theorem noBlank_off {d : Bytes} (h : NoBlankLine d) {ls : List Bytes} {off : Int} (ht : HeadText 0 d ls off) : off = -1 := by
  rcases headText_offset ht [] rfl (Or.inl rfl) with ⟨n, a1, a2, a3, a4, a5⟩ | ⟨a1, a2⟩
  · exact absurd (by simpa using a4) (h n (by simpa using a3))
  · exact a1

/-- A source as a caller passes it: at its beginning, in a good state. -/
def source (seekable broken : Bool) (d : Bytes) : Device := { data := d, seekable := seekable, broken := broken }

theorem parse_seen {seekable broken : Bool} {d text : Bytes} (h : Sees seekable broken d text) :
    ∃ md d' ms s', Message.parseFrom {} (source seekable broken d) = .ok (md, d') ∧
      Message.parseAll {} (freshStream text) = .ok (ms, s') ∧ md.headers = ms.headers ∧
      BodySeen d' md.bodyOffset s'.data ms.bodyOffset ∧ s'.data = text ∧ SameDev d' (source seekable broken d) := by
  have main : ∀ {rest part : Bytes} {ls : List Bytes} {off offs : Int}, d = rest ++ part → HeadText 0 rest ls off → HeadText 0 text ls offs →
      (off = -1 → if broken then LF ∉ part ∧ (rest = [] ∨ rest.getLast? = some LF) else part = []) →
      BodySeen (source seekable broken d) (if seekable then off else -1) text offs →
      ∃ md d' ms s', Message.parseFrom {} (source seekable broken d) = .ok (md, d') ∧
        Message.parseAll {} (freshStream text) = .ok (ms, s') ∧ md.headers = ms.headers ∧
        BodySeen d' md.bodyOffset s'.data ms.bodyOffset ∧ s'.data = text ∧ SameDev d' (source seekable broken d) := by
    intro rest part ls off offs e ht hts hb hseen
    obtain ⟨ms, s', q1, q2, q3, _, q5⟩ := parseAll_head hts (freshStream text) (at_fresh text)
    have hlen : rest.length ≤ d.length := by rw [e]; simp
    obtain ⟨md, d', r1, r2, r3, r4⟩ := dev_head ht part (d.length + 2) (by omega) (source seekable broken d)
      ⟨rfl, rfl, by simp [source, e]⟩ {} [] none ⟨rfl, rfl, rfl, by simp⟩ (by exact hb)
    simp only [finish, List.nil_append] at r2
    refine ⟨md, d', ms, s', r1, q1, by rw [r2, q2], ?_, q5, r4⟩
    rw [r3, q3, q5]
    exact BodySeen.same r4 hseen
  have hle : ∀ {ls : List Bytes} {off : Int}, HeadText 0 d ls off → off = -1 ∨ ∃ n : Nat, off = n ∧ n ≤ d.length := by
    intro ls off ht
    rcases headText_offset ht [] rfl (Or.inl rfl) with ⟨n, a1, a2, a3, _⟩ | ⟨a1, _⟩
    · exact Or.inr ⟨n, a1, by simpa using a3⟩
    · exact Or.inl a1
  cases h with
  | whole =>
    obtain ⟨ls, off, ht⟩ := HeadText.total d 0
    refine main (part := []) (by simp) ht ht (fun _ => rfl) ?_
    rcases hle ht with h | ⟨n, h, hn⟩
    · exact Or.inl ⟨h, Or.inl h⟩
    · exact Or.inr ⟨n, h, h, hn, rfl, Or.inl ⟨rfl, rfl⟩⟩
  | noSeek h =>
    obtain ⟨ls, off, ht⟩ := HeadText.total d 0
    have ho := isHead_off h ht
    obtain ⟨_, ⟨body, hd⟩, _⟩ := h
    have ht2 : HeadText 0 (text ++ []) ls off := headText_body ht body [] text hd (by rw [ho]; simp)
    rw [List.append_nil] at ht2
    refine main (part := []) (by simp) ht ht2 (fun e => by omega) ?_
    exact Or.inl ⟨rfl, Or.inr ho⟩
  | noBody h =>
    obtain ⟨ls, off, ht⟩ := HeadText.total d 0
    have ho := noBlank_off h ht
    exact main (part := []) (by simp) ht ht (fun _ => rfl) (Or.inl ⟨rfl, Or.inl ho⟩)
  | bodyError h =>
    rename_i head body
    obtain ⟨ls, off, ht⟩ := HeadText.total (head ++ body) 0
    have ho := isHead_off h ht
    have ht2 := headText_body ht body (body.take (8096 * (body.length / 8096))) head rfl (by rw [ho]; simp)
    refine main (part := []) (by simp) ht ht2 (fun e => by omega) ?_
    have hmul : 8096 * (body.length / 8096) ≤ body.length := Nat.mul_div_le _ _
    have hl : (head ++ body.take (8096 * (body.length / 8096))).length = head.length + 8096 * (body.length / 8096) := by
      rw [List.length_append, List.length_take, Nat.min_eq_left hmul]
    refine Or.inr ⟨head.length, ho, ho, by rw [hl]; omega, rfl, Or.inr ⟨rfl, body.length / 8096, hl, ?_, ?_⟩⟩
    · show head ++ _ = (head ++ body).take _
      rw [hl, List.take_append, List.take_of_length_le (Nat.le_add_right _ _ : head.length ≤ _), Nat.add_sub_cancel_left]
    · show (head ++ body).length < _
      rw [hl, List.length_append]
      have := Nat.mod_lt body.length (show 8096 > 0 by decide)
      have := Nat.div_add_mod body.length 8096
      omega
  | headError h l p =>
    rename_i part
    obtain ⟨ls, off, ht⟩ := HeadText.total text 0
    have hno : NoBlankLine text := by
      intro k hk he
      refine h k (by simp; omega) ?_
      rwa [List.take_append_of_le_length hk]
    have ho := noBlank_off hno ht
    refine main rfl ht ht (fun _ => ⟨p, l⟩) (Or.inl ⟨?_, Or.inl ho⟩)
    rw [ho]; split <;> rfl

/-! ### C84 -/

/-- C84: signing a source gives the result, whatever the options and the clock, of signing the message
it is seen as. -/
theorem C84_signing (E : Env) (o : Options E) (clock : Nat → Int) {seekable broken : Bool} {d text : Bytes}
    (h : Sees seekable broken d text) :
    (DevSignatory.createSignature E o clock { file := source seekable broken d }).1 =
      (Signatory.createSignature E o clock { file := freshStream text }).1 := by
  obtain ⟨md, d', ms, s', h1, h2, h3, h4, h5, h6⟩ := parse_seen h
  unfold DevSignatory.createSignature Signatory.createSignature
  simp only [h1, h2]
  obtain ⟨cd, cs, ok, d2, s2, g1, g2, g3, _, _⟩ := devBody_seen h4 o.canonBody o.bodySignLength o.bodyLength
  simp only [g1, g2]
  cases ok with
  | false => rfl
  | true =>
    simp only [Bool.not_true, Bool.false_eq_true, if_false, g3, h3]
    cases signLoop o.canonHead o.headers ms.headers.reverse with
    | error e => rfl
    | ok r => rfl

/-- The two validators have the same fields and see the same body. -/
def SeenAlike (dv : DevValidatory) (v : Validatory) : Prop :=
  dv.msg.headers = v.msg.headers ∧ dv.sigs = v.sigs ∧ BodySeen dv.file dv.msg.bodyOffset v.file.data v.msg.bodyOffset

theorem headerHashInput_headers {m m' : Message} (h : m.headers = m'.headers) (hd : Header) (sig : Signature) :
    headerHashInput m hd sig = headerHashInput m' hd sig := by
  unfold headerHashInput; rw [h]

theorem checkSignature_headers (E : Env) {m m' : Message} (h : m.headers = m'.headers) (hd : Header) (sig : Signature) (pub : PublicKey E) :
    checkSignature E m hd sig pub = checkSignature E m' hd sig pub := by
  unfold checkSignature; rw [headerHashInput_headers h]

theorem verifyOne_seen (E : Env) {dv : DevValidatory} {v : Validatory} (h : SeenAlike dv v) (now : Int) (resolver : Bytes → Bool × Bytes)
    (hd : Header) (er : Bool) :
    ∃ r st pub dv' v', dv.verifyOne E now resolver hd er = (r, st, pub, dv') ∧ v.verifyOne E now resolver hd er = (r, st, pub, v') ∧
      SeenAlike dv' v' := by
  unfold DevValidatory.verifyOne Validatory.verifyOne DevValidatory.getSignature Validatory.getSignature
  cases hp : Signature.parse E now hd { erange := er } with
  | error e st => exact ⟨_, _, _, _, _, rfl, rfl, h⟩
  | ok _ st =>
    simp only
    unfold DevValidatory.checkBodyHash Validatory.checkBodyHash
    obtain ⟨cd, cs, ok, d2, s2, g1, g2, g3, g4, g5⟩ := devBody_seen h.2.2 st.sig.canonBody st.sig.bodySizeLimit st.sig.bodySize
    simp only [g1, g2, g3]
    have hview : SeenAlike { dv with file := d2 } { v with file := s2 } :=
      ⟨h.1, h.2.1, by show BodySeen d2 _ s2.data _; rw [g5]; exact BodySeen.same g4 h.2.2⟩
    by_cases hbh : st.sig.bh = E.hash st.sig.digest cs.flatten
    · rw [if_pos hbh, if_pos hbh]
      simp only
      cases getPublicKey resolver st.sig ({} : PublicKey E) with
      | error e pub => exact ⟨_, _, _, _, _, rfl, rfl, hview⟩
      | ok _ pub =>
        refine ⟨_, _, _, _, _, rfl, ?_, hview⟩
        rw [checkSignature_headers E (show ({ dv with file := d2 } : DevValidatory).msg.headers = ({ v with file := s2 } : Validatory).msg.headers from h.1)]
    · rw [if_neg hbh, if_neg hbh]
      exact ⟨_, _, _, _, _, rfl, rfl, hview⟩

/-- Verification as a call on the validator: outcome, signature object and key object. -/
def devCall (E : Env) (v : DevValidatory) (c : Verification) : (Except Err Unit × SigSt × PublicKey E) × DevValidatory :=
  let r := v.verifyOne E c.now c.resolver c.header c.erange
  ((r.1, r.2.1, r.2.2.1), r.2.2.2)

/-- The same over a seekable stream without errors. -/
def strCall (E : Env) (v : Validatory) (c : Verification) : (Except Err Unit × SigSt × PublicKey E) × Validatory :=
  let r := v.verifyOne E c.now c.resolver c.header c.erange
  ((r.1, r.2.1, r.2.2.1), r.2.2.2)

theorem results_seen (E : Env) (calls : List Verification) {dv : DevValidatory} {v : Validatory} (h : SeenAlike dv v) :
    resultsOf (devCall E) dv calls = resultsOf (strCall E) v calls := by
  induction calls generalizing dv v with
  | nil => rfl
  | cons c cs ih =>
    obtain ⟨r, st, pub, dv', v', h1, h2, h3⟩ := verifyOne_seen E h c.now c.resolver c.header c.erange
    simp only [resultsOf, devCall, strCall, h1, h2]
    exact congrArg _ (ih h3)

/-- C84: a validator over a source lists the fields and signatures, and every sequence of
verifications (of any header, with any resolver) gives the results, that the message gives the source is seen as. -/
theorem C84_verification (E : Env) (type : ValidatorType) {seekable broken : Bool} {d text : Bytes} (h : Sees seekable broken d text) :
    ∃ dv v, DevValidatory.mk' (source seekable broken d) type = .ok dv ∧ Validatory.mk' (freshStream text) type = .ok v ∧
      dv.msg.headers = v.msg.headers ∧ dv.sigs = v.sigs ∧
      ∀ calls, resultsOf (devCall E) dv calls = resultsOf (strCall E) v calls := by
  obtain ⟨md, d', ms, s', h1, h2, h3, h4, h5, h6⟩ := parse_seen h
  refine ⟨{ file := d', msg := md, sigs := md.headers.filter (isSigHeader type) },
    { file := s', msg := ms, sigs := ms.headers.filter (isSigHeader type) }, ?_, ?_, h3, by simp only [h3], fun calls => ?_⟩
  · unfold DevValidatory.mk'; rw [h1]
  · unfold Validatory.mk'; rw [h2]
  · exact results_seen E calls ⟨h3, by simp only [h3], h4⟩

/-- C84: every source is seen as some message, and as only one. -/
theorem C84_total (seekable broken : Bool) (d : Bytes) :
    ∃ text, Sees seekable broken d text ∧ ∀ t, Sees seekable broken d t → t = text := by
  obtain ⟨ls, off, ht⟩ := HeadText.total d 0
  have head_unique : ∀ {h1 h2 : Bytes}, IsHead h1 d → IsHead h2 d → h1 = h2 := by
    intro h1 h2 a b
    have e := isHead_off a ht
    have e2 := isHead_off b ht
    obtain ⟨_, ⟨b1, e3⟩, _⟩ := a
    obtain ⟨_, ⟨b2, e4⟩, _⟩ := b
    exact (List.append_inj (e3.symm.trans e4) (by omega)).1
  have lines_unique : ∀ {l1 p1 l2 p2 : Bytes}, l1 ++ p1 = l2 ++ p2 → (l1 = [] ∨ l1.getLast? = some LF) → LF ∉ p1 →
      (l2 = [] ∨ l2.getLast? = some LF) → LF ∉ p2 → l1 = l2 := by
    intro l1 p1 l2 p2 e a1 a2 b1 b2
    have key : ∀ {a b c : Bytes}, (b = [] ∨ b.getLast? = some LF) → b = a ++ c → LF ∉ c → b = a := by
      intro a b c hb e hc
      subst e
      cases c with
      | nil => simp
      | cons x xs =>
        rcases hb with h | h
        · simp at h
        · rw [List.getLast?_append, List.getLast?_cons, Option.some_or, ← List.getLast?_cons] at h
          exact absurd (List.mem_of_getLast? h) hc
    rcases List.append_eq_append_iff.1 e with ⟨c, h1, h2⟩ | ⟨c, h1, h2⟩
    · exact (key b1 h1 (fun h => a2 (by rw [h2]; exact List.mem_append_left _ h))).symm
    · exact key a1 h1 (fun h => b2 (by rw [h2]; exact List.mem_append_left _ h))
  have excl : ∀ {h : Bytes}, IsHead h d → ¬ NoBlankLine d := by
    intro h a b
    have := isHead_off a ht
    have := noBlank_off b ht
    omega
  have cases_ : (∃ head body, d = head ++ body ∧ IsHead head d) ∨ NoBlankLine d := by
    rcases headText_offset ht [] rfl (Or.inl rfl) with ⟨n, a1, a2, a3, a4, a5⟩ | ⟨a1, a2⟩
    · left
      refine ⟨d.take n, d.drop n, (List.take_append_drop _ _).symm, by simpa using a4, ⟨d.drop n, (List.take_append_drop _ _).symm⟩, ?_⟩
      intro k hk
      rw [List.length_take] at hk
      by_cases h0 : k = 0
      · subst h0; simpa using not_endsHead_nil
      · simpa using a5 k (by omega) (by omega)
    · right
      intro k hk
      by_cases h0 : k = 0
      · subst h0; simpa using not_endsHead_nil
      · simpa using a2 k (by omega) (by simpa using hk)
  have lines_exist : ∃ lines part, d = lines ++ part ∧ (lines = [] ∨ lines.getLast? = some LF) ∧ LF ∉ part := by
    clear head_unique excl cases_ ht ls off lines_unique
    induction d with
    | nil => exact ⟨[], [], rfl, Or.inl rfl, by simp⟩
    | cons c d ih =>
      obtain ⟨l, p, rfl, hl, hp⟩ := ih
      by_cases hc : LF ∈ c :: l
      · refine ⟨c :: l, p, rfl, Or.inr ?_, hp⟩
        rcases hl with rfl | hl
        · simp at hc; rw [← hc]; rfl
        · rw [List.getLast?_cons, hl]; rfl
      · rcases hl with rfl | hl
        · refine ⟨[], c :: p, rfl, Or.inl rfl, ?_⟩
          simp only [List.mem_cons, not_or, List.not_mem_nil, not_false_eq_true, and_true] at hc ⊢
          exact ⟨hc, hp⟩
        · exact absurd (List.mem_cons_of_mem _ (List.mem_of_getLast? hl)) hc
  rcases cases_ with ⟨head, body, rfl, hh⟩ | hno
  · cases seekable with
    | false =>
      refine ⟨head, .noSeek hh, fun t h => ?_⟩
      generalize he : head ++ body = d at *
      cases h with
      | noSeek h => exact head_unique h hh
      | noBody h => exact absurd h (excl hh)
      | headError h => exact absurd h (excl hh)
    | true =>
      cases broken with
      | false =>
        refine ⟨_, .whole _, fun t h => ?_⟩
        cases h; rfl
      | true =>
        refine ⟨_, .bodyError hh, fun t h => ?_⟩
        generalize he : head ++ body = d at *
        cases h with
        | bodyError h =>
          have e1 := head_unique h hh
          subst e1
          rw [List.append_cancel_left he]
        | headError h => exact absurd h (excl hh)
  · cases broken with
    | false =>
      refine ⟨d, ?_, fun t h => ?_⟩
      · cases seekable
        · exact .noBody hno
        · exact .whole _
      · cases h with
        | whole => rfl
        | noSeek h => exact absurd hno (excl h)
        | noBody => rfl
    | true =>
      obtain ⟨lines, part, e, hl, hp⟩ := lines_exist
      refine ⟨lines, by rw [e]; exact .headError (by rw [← e]; exact hno) hl hp, fun t h => ?_⟩
      generalize hd : d = d' at h
      cases h with
      | noSeek h => rw [← hd] at h; exact absurd hno (excl h)
      | bodyError h => rw [← hd] at h; exact absurd hno (excl h)
      | headError h l p => exact lines_unique (hd.symm.trans e) l p hl hp

/-- C84: a source that cannot be positioned: the results do not depend on the body it delivers. -/
theorem C84_body_ignored (E : Env) (o : Options E) (clock : Nat → Int) (type : ValidatorType) {broken broken' : Bool} {head body body' : Bytes}
    (h : IsHead head (head ++ body)) (h' : IsHead head (head ++ body')) :
    (DevSignatory.createSignature E o clock { file := source false broken (head ++ body) }).1 =
      (DevSignatory.createSignature E o clock { file := source false broken' (head ++ body') }).1 ∧
    ∃ v v', DevValidatory.mk' (source false broken (head ++ body)) type = .ok v ∧
      DevValidatory.mk' (source false broken' (head ++ body')) type = .ok v' ∧ v.sigs = v'.sigs ∧
      ∀ calls, resultsOf (devCall E) v calls = resultsOf (devCall E) v' calls := by
  refine ⟨by rw [C84_signing E o clock (.noSeek h), C84_signing E o clock (.noSeek h')], ?_⟩
  obtain ⟨v, w, a1, a2, _, a4, a5⟩ := C84_verification E type (Sees.noSeek (broken := broken) h)
  obtain ⟨v', w', b1, b2, _, b4, b5⟩ := C84_verification E type (Sees.noSeek (broken := broken') h')
  rw [a2] at b2
  injection b2 with b2
  subst b2
  exact ⟨v, v', a1, b1, by rw [a4, b4], fun calls => by rw [a5, b5]⟩

/-! ### C83 -/

/-- C83 (part): a source that can be positioned (or has no body) and is read without error is signed
and verified like the complete message it holds. Missing: the same, or an error, for the other sources;
that is false of the code, see the witnesses. -/
theorem C83_complete_partial (E : Env) (o : Options E) (clock : Nat → Int) (type : ValidatorType) {seekable : Bool} {d : Bytes}
    (h : seekable = true ∨ NoBlankLine d) :
    (DevSignatory.createSignature E o clock { file := source seekable false d }).1 =
      (Signatory.createSignature E o clock { file := freshStream d }).1 ∧
    ∃ dv v, DevValidatory.mk' (source seekable false d) type = .ok dv ∧ Validatory.mk' (freshStream d) type = .ok v ∧
      dv.sigs = v.sigs ∧ ∀ calls, resultsOf (devCall E) dv calls = resultsOf (strCall E) v calls := by
  have hs : Sees seekable false d d := by
    cases seekable with
    | true => exact .whole d
    | false => exact .noBody (h.resolve_left (by decide))
  refine ⟨C84_signing E o clock hs, ?_⟩
  obtain ⟨dv, v, a1, a2, _, a4, a5⟩ := C84_verification E type hs
  exact ⟨dv, v, a1, a2, a4, a5⟩

/-- C83 is false of the code: signing a message from a pipe returns a signature, without an error, and
it is the signature of the message without its body. -/
theorem C83_pipe_witness :
    (DevSignatory.createSignature toyEnv Samples.rsaOpts (fun _ => 0) { file := source false false Samples.message }).1 =
      Samples.sign Samples.rsaOpts b!"To: x\r\nFrom: a@b.c\r\nTo: y,\r\n z\r\n\r\n" ∧
    (∃ h, Samples.sign Samples.rsaOpts b!"To: x\r\nFrom: a@b.c\r\nTo: y,\r\n z\r\n\r\n" = .ok h) := by
  refine ⟨by decide +kernel, ?_⟩
  exact ⟨match Samples.sign Samples.rsaOpts b!"To: x\r\nFrom: a@b.c\r\nTo: y,\r\n z\r\n\r\n" with | .ok h => h | .error _ => [],
    by decide +kernel⟩

/-- C83 is false of the code: a read error in the body is not reported either. -/
theorem C83_error_witness :
    (DevSignatory.createSignature toyEnv Samples.rsaOpts (fun _ => 0) { file := source true true Samples.message }).1 =
      Samples.sign Samples.rsaOpts b!"To: x\r\nFrom: a@b.c\r\nTo: y,\r\n z\r\n\r\n" := by
  decide +kernel

/-- C83 is false of the code: the signature of a message with an empty body verifies on a pipe that
delivers the same header block and some body. -/
theorem C83_forged_witness :
    (match DevValidatory.mk' (source false false
        (Samples.signed Samples.rsaOpts b!"To: x\r\nFrom: a@b.c\r\n\r\n" ++ b!"Send money\r\n")) .dkim with
      | .ok v => v.sigs.map (fun h => (v.verifyOne toyEnv 0 (fun _ => (true, Samples.rsaRec)) h false).1)
      | .error _ => []) = [.ok ()] ∧
    Samples.verify Samples.rsaRec (Samples.signed Samples.rsaOpts b!"To: x\r\nFrom: a@b.c\r\n\r\n" ++ b!"Send money\r\n") =
      some (.error (.perm .bodyHashMismatch .fail)) := by
  refine ⟨by decide +kernel, by decide +kernel⟩

/-- The header block of the sample message. -/
example : IsHead b!"To: x\r\n\r\n" (b!"To: x\r\n\r\n" ++ b!"Hi") := by
  refine ⟨⟨b!"To: x\r\n", Or.inr (by decide), Or.inr (by decide)⟩, ⟨b!"Hi", rfl⟩, ?_⟩
  intro k hk h
  have hl := endsHead_last h
  match k, hk with
  | 0, _ => exact not_endsHead_nil h
  | 1, _ => revert hl; decide
  | 2, _ => revert hl; decide
  | 3, _ => revert hl; decide
  | 4, _ => revert hl; decide
  | 5, _ => revert hl; decide
  | 6, _ => revert hl; decide
  | 7, _ =>
    obtain ⟨hb, h1, h2 | h2⟩ := h
    · have e : hb = b!"To: x\r" := List.append_cancel_right (h2.symm.trans (by decide : _ = b!"To: x\r" ++ [LF]))
      subst e; revert h1; decide
    · have e : hb = b!"To: x" := List.append_cancel_right (h2.symm.trans (by decide : _ = b!"To: x" ++ CRLF))
      subst e; revert h1; decide
  | 8, _ => revert hl; decide

/-- A message without an empty line. -/
example : NoBlankLine b!"A" := by
  intro k hk h
  have hl := endsHead_last h
  match k, hk with
  | 0, _ => exact not_endsHead_nil h
  | 1, _ => revert hl; decide

end Dkim

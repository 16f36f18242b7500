import Verif.Props.RepeatExact
import Verif.Spec.Repeat
/-!
# C46: the state between calls
-/

namespace Dkim
open Spec

variable {E : Env}

/-! ### where reading the body stops -/

theorem settled_eq (mode : CanonMode) (x : Bytes) : settled mode x = (bodyBlock mode {} x).2.length := by
  unfold settled
  rw [← machineBody_eq]
  unfold machineBody
  simp only
  split
  · rename_i h
    have : (bodyBlock mode {} x).2 = [] := by simpa using h.1
    rw [this]; rfl
  · simp [CRLF]

theorem bodyLoop_stop (blk : Nat) (hblk : 0 < blk) (mode : CanonMode) (fuel : Nat) (s s' : IStream) (a a' : BodyAcc)
    (hg : s.good = true) (hpos : s.pos ≤ s.data.length)
    (h : bodyLoop blk mode true fuel s a = .ok (s', a')) :
    (s'.good = false ∧ ∀ j, blk * j ≤ (s.data.drop s.pos).length →
      (bodyBlock mode a.st ((s.data.drop s.pos).take (blk * j))).2.length < a.size) ∨
    ∃ k, blk * k ≤ (s.data.drop s.pos).length ∧ s'.good = true ∧ s'.pos = s.pos + blk * k ∧
      a.size ≤ (bodyBlock mode a.st ((s.data.drop s.pos).take (blk * k))).2.length ∧
      ∀ j, j < k → (bodyBlock mode a.st ((s.data.drop s.pos).take (blk * j))).2.length < a.size := by
  induction fuel generalizing s a with
  | zero => cases h
  | succ n ih =>
    rw [bodyLoop] at h
    simp only [hg, Bool.not_true, Bool.false_eq_true, if_false, true_and] at h
    by_cases hz : a.size = 0
    · rw [if_pos hz] at h
      simp only [Except.ok.injEq, Prod.mk.injEq] at h
      rw [← h.1]
      exact .inr ⟨0, by simp, hg, by simp, by omega, fun j hj => absurd hj (by omega)⟩
    · rw [if_neg hz] at h
      simp only [IStream.read, hg, Bool.not_true, Bool.false_eq_true, if_false] at h
      generalize hrest : s.data.drop s.pos = rest at h ⊢
      have hrl : rest.length = s.data.length - s.pos := by rw [← hrest]; simp
      by_cases hle : blk ≤ rest.length
      · simp only [hle, if_true] at h
        have hd : s.data.drop (s.pos + blk) = rest.drop blk := by rw [← hrest, List.drop_drop]
        have := ih { s with pos := s.pos + blk } _ (by simpa [IStream.good] using hg) (by simp only; omega) h
        simp only [emit_st, emit_size, hd, if_true] at this
        generalize hb : bodyBlock mode a.st (rest.take blk) = b1 at this
        have hsplit : ∀ j, (bodyBlock mode a.st (rest.take (blk * (j + 1)))).2.length =
            b1.2.length + (bodyBlock mode b1.1 ((rest.drop blk).take (blk * j))).2.length := by
          intro j
          have e : rest.take (blk * (j + 1)) = rest.take blk ++ (rest.drop blk).take (blk * j) := by
            rw [Nat.mul_add, Nat.mul_one, Nat.add_comm, List.take_add]
          rw [e, bodyBlock_append, hb]
          simp
        have hfit : ∀ j, blk * (j + 1) ≤ rest.length ↔ blk * j ≤ (rest.drop blk).length := by
          intro j
          rw [Nat.mul_add, Nat.mul_one, List.length_drop]
          omega
        have h0 : (bodyBlock mode a.st (rest.take (blk * 0))).2.length < a.size := by
          simp [bodyBlock]; omega
        rcases this with ⟨k1, k2⟩ | ⟨k, k1, k2, k3, k4, k5⟩
        · refine .inl ⟨k1, fun j hj => ?_⟩
          cases j with
          | zero => exact h0
          | succ j =>
            have := k2 j ((hfit j).1 hj)
            rw [hsplit]
            omega
        · refine .inr ⟨k + 1, (hfit k).2 k1, k2, ?_, ?_, ?_⟩
          · rw [k3, Nat.mul_add]; omega
          · rw [hsplit]; omega
          · intro j hj
            cases j with
            | zero => exact h0
            | succ j =>
              have := k5 j (by omega)
              rw [hsplit]
              omega
      · simp only [hle, if_false] at h
        cases n with
        | zero => cases h
        | succ m =>
          rw [bodyLoop] at h
          simp only [IStream.good, Bool.not_true, Bool.false_and, Bool.not_false, if_true, Except.ok.injEq,
            Prod.mk.injEq] at h
          refine .inl ⟨by rw [← h.1]; rfl, fun j hj => ?_⟩
          cases j with
          | zero => simp [bodyBlock]; omega
          | succ j =>
            rw [Nat.mul_add, Nat.mul_one] at hj
            omega

/-- The position of a stream, `none` if it is not good. -/
def IStream.At? (s : IStream) (p : Option Nat) : Prop :=
  match p with
  | none => s.good = false
  | some p => s.good = true ∧ s.pos = p

/-- A length limit as an option. -/
def limitOf (o : Options E) : Option Nat := if o.bodySignLength then some o.bodyLength else none

theorem canonBody_stop (s s' : IStream) (o : Options E) (b : Nat) (hb : b ≤ s.data.length) (q : List Bytes × Bool)
    (h : Dkim.canonBody s o.canonBody b o.bodySignLength o.bodyLength = .ok (q, s'))
    (r : Reading) (hr : r.body = some b) (next : Option Nat) (he : LeavesAt s.data o.canonBody (limitOf o) r next) :
    IStream.At? s' next := by
  have hs : s.clear.seekg (b : Int) = { data := s.data, pos := b, eof := false, fail := false } := by
    simp [IStream.seekg, IStream.clear, hb]
  cases hl : o.bodySignLength with
  | false =>
    have hlim : limitOf o = none := by unfold limitOf; rw [hl]; rfl
    rw [hl] at h
    have := (canonBody_end _ _ _ _ _ _ h).1 (by omega)
    cases he with
    | noBody k => rw [hr] at k; cases k
    | all => exact this
    | short b n _ k => rw [hlim] at k; cases k
    | stop b n k _ k2 => rw [hlim] at k2; cases k2
  | true =>
    have hlim : limitOf o = some o.bodyLength := by unfold limitOf; rw [hl]; rfl
    rw [hl] at h
    unfold Dkim.canonBody canonBodyBlk at h
    simp only [show ((b : Int) ≠ -1) from by omega, ne_eq, not_false_eq_true, if_true, hs] at h
    cases hbl : bodyLoop 8096 o.canonBody true (s.data.length + 2)
        { data := s.data, pos := b, eof := false, fail := false } { size := o.bodyLength } with
    | error e => rw [hbl] at h; cases h
    | ok p =>
      obtain ⟨s2, a⟩ := p
      rw [hbl] at h
      simp only [Except.ok.injEq, Prod.mk.injEq] at h
      have hs2 := h.2
      subst hs2
      have hst := bodyLoop_stop 8096 (by omega) o.canonBody _ _ _ _ _ rfl (by exact hb) hbl
      simp only at hst
      have key : ∀ j, (bodyBlock o.canonBody {} ((s.data.drop b).take (8096 * j))).2.length =
          settled o.canonBody ((s.data.drop b).take (8096 * j)) := fun j => (settled_eq _ _).symm
      have key2 : ∀ k k' : Nat, StopsAfter o.canonBody o.bodyLength (s.data.drop b) k →
          StopsAfter o.canonBody o.bodyLength (s.data.drop b) k' → k = k' := by
        intro k k' h1 h2
        rcases Nat.lt_trichotomy k k' with h3 | h3 | h3
        · have := h2.2.2 k h3; have := h1.2.1; omega
        · exact h3
        · have := h1.2.2 k' h3; have := h2.2.1; omega
      cases he with
      | noBody k => rw [hr] at k; cases k
      | all _ _ k => rw [hlim] at k; cases k
      | short b' n k1 k2 k3 =>
        rw [hr] at k1; rw [hlim] at k2
        cases k1; cases k2
        rcases hst with h4 | ⟨k, h4, h5, h6, h7, h8⟩
        · exact h4.1
        · exact absurd ⟨h4, by rw [← key]; exact h7, fun j hj => by rw [← key]; exact h8 j hj⟩ (k3 k)
      | stop b' n k k1 k2 k3 =>
        rw [hr] at k1; rw [hlim] at k2
        cases k1; cases k2
        rcases hst with h4 | ⟨k', h4, h5, h6, h7, h8⟩
        · have := h4.2 k k3.1
          rw [key] at this
          have := k3.2.1
          omega
        · have : k' = k := key2 _ _ ⟨h4, by rw [← key]; exact h7, fun j hj => by rw [← key]; exact h8 j hj⟩ k3
          subst this
          exact ⟨h5, h6⟩

/-! ### reading one line -/

theorem Spec.FirstLine.getline {s : IStream} {l : Bytes} {n : Option Nat} (h : FirstLine (s.data.drop s.pos) l n)
    (hg : s.good = true) :
    ∃ line s1, s.getline = (some line, s1) ∧ chopCR line = l ∧ s1.data = s.data ∧ IStream.At? s1 (n.map (s.pos + ·)) := by
  unfold IStream.getline
  generalize s.data.drop s.pos = x at h
  simp only [hg, Bool.not_true, Bool.false_eq_true, if_false]
  cases h with
  | lf _ r h1 h2 =>
    rw [cutLF_some h1]
    exact ⟨_, _, rfl, chopCR_not h2, rfl, hg, Nat.add_assoc _ _ _⟩
  | crlf _ r h1 =>
    rw [show l ++ CR :: LF :: r = (l ++ [CR]) ++ LF :: r from by simp, cutLF_some (by simp [h1]; decide)]
    refine ⟨_, _, rfl, chopCR_cr l, rfl, hg, ?_⟩
    simp only [List.length_append, List.length_cons, List.length_nil]
    omega
  | last _ h1 h2 h3 =>
    rw [cutLF_none h2]
    simp only [List.isEmpty_iff, h1, if_false]
    exact ⟨_, _, rfl, chopCR_not h3, rfl, by simp [IStream.At?, IStream.good]⟩
  | lastCR _ h1 =>
    rw [cutLF_none (by simp [h1]; decide)]
    simp only [List.isEmpty_iff, List.append_eq_nil_iff, List.cons_ne_nil, and_false, if_false]
    exact ⟨_, _, rfl, chopCR_cr l, rfl, by simp [IStream.At?, IStream.good]⟩

theorem Spec.FirstLine.le {x l : Bytes} {n : Nat} (h : FirstLine x l (some n)) : 0 < n ∧ n ≤ x.length := by
  cases h <;> simp

theorem Spec.FirstLine.exists (x : Bytes) (hx : x ≠ []) : ∃ l n, FirstLine x l n := by
  rcases cutLF_cases x with h | ⟨l, r, rfl, h⟩
  · by_cases hc : x.getLast? = some CR
    · rcases List.eq_nil_or_concat x with rfl | ⟨y, c, rfl⟩
      · exact absurd rfl hx
      · simp only [List.getLast?_append, List.concat_eq_append] at hc h ⊢
        simp at hc
        subst hc
        exact ⟨y, none, .lastCR y (fun h' => h (by simp [h']))⟩
    · exact ⟨x, none, .last x hx h hc⟩
  · by_cases hc : l.getLast? = some CR
    · rcases List.eq_nil_or_concat l with rfl | ⟨y, c, rfl⟩
      · cases hc
      · simp at hc
        subst hc
        refine ⟨y, some (y.length + 2), ?_⟩
        have := FirstLine.crlf y r (fun h' => h (by simp [h']))
        simpa using this
    · exact ⟨l, _, .lf l r h hc⟩

/-- The body position as kept in the object. -/
def Spec.Reading.offset (r : Reading) : Int :=
  match r.body with
  | none => -1
  | some b => b

/-- The body of a reading of `d`. -/
def Spec.Reading.bodyText (r : Reading) (d : Bytes) : Bytes :=
  match r.body with
  | none => []
  | some b => d.drop b

theorem Spec.Reading.bodyPart_eq (r : Reading) (d : Bytes) : bodyPart d r.offset = r.bodyText d := by
  unfold bodyPart Reading.offset Reading.bodyText
  cases r.body with
  | none => rfl
  | some b => simp only; rw [if_neg (by omega)]; rfl

/-- The object between two calls. -/
structure KeptRead (d : Bytes) (sg : Signatory) (r : Reading) : Prop where
  data : sg.file.data = d
  headers : sg.msg.headers = r.fields.map mkField
  tmp : sg.msg.tmp = if r.unfinished = [] then none else some (mkField r.unfinished)
  lines : ∀ l ∈ r.unfinished, l ≠ []
  done : sg.msg.done = true
  body : sg.msg.bodyOffset = r.offset
  inside : ∀ b, r.body = some b → b ≤ d.length
  stream : IStream.At? sg.file r.next

theorem KeptRead.push {d : Bytes} {sg : Signatory} {r : Reading} (h : KeptRead d sg r) : sg.msg.pushTmp = r.all.map mkField := by
  unfold Message.pushTmp Reading.all
  rw [h.tmp, h.headers]
  by_cases hu : r.unfinished = []
  · rw [if_pos hu, if_pos hu]
  · rw [if_neg hu, if_neg hu, List.map_append]
    rfl

theorem parseAll_one {m m1 : Message} {s s1 : IStream} {ok : Bool} (h : m.parseLine s = (ok, m1, s1)) (hd : m1.done = true) :
    m.parseAll s = .ok (m1, s1) := by
  unfold Message.parseAll Message.parseLoop
  rw [h]
  simp [hd]

theorem KeptRead.begins {d : Bytes} {sg : Signatory} {r r' : Reading} (h : KeptRead d sg r) (hb : Begins d r r') :
    ∃ m s1, sg.msg.parseAll sg.file = .ok (m, s1) ∧ KeptRead d { file := s1, msg := m } r' := by
  have hline : ∀ (l : Bytes) (n : Option Nat) (p : Nat), r.next = some p → FirstLine (d.drop p) l n →
      ∃ line s1, sg.file.getline = (some line, s1) ∧ chopCR line = l ∧ s1.data = d ∧ IStream.At? s1 (n.map (p + ·)) := by
    intro l n p hn hl
    have hs := h.stream
    rw [hn] at hs
    have hl' : FirstLine (sg.file.data.drop sg.file.pos) l n := by rw [h.data, hs.2]; exact hl
    obtain ⟨line, s1, k1, k2, k3, k4⟩ := hl'.getline hs.1
    exact ⟨line, s1, k1, k2, k3.trans h.data, by rw [hs.2] at k4; exact k4⟩
  cases hb with
  | over hn =>
    have hs := h.stream
    rw [hn] at hs
    have hs' : sg.file.good = false := hs
    refine ⟨{ sg.msg with headers := sg.msg.pushTmp, bodyOffset := -1, done := true }, { sg.file with fail := true },
      parseAll_one (ok := false) (by simp [Message.parseLine, IStream.getline, hs']) rfl, ?_⟩
    exact ⟨h.data, h.push, h.tmp, h.lines, rfl, rfl, (fun b hb => by cases hb), (by simp [IStream.At?, IStream.good])⟩
  | atEnd p hn hp =>
    have hs := h.stream
    rw [hn] at hs
    have hg : sg.file.getline = (none, { sg.file with eof := true, fail := true }) := by
      have hp' : sg.file.data.drop sg.file.pos = [] := by rw [h.data, hs.2]; exact hp
      unfold IStream.getline
      simp only [hs.1, hp']
      rfl
    refine ⟨{ sg.msg with headers := sg.msg.pushTmp, bodyOffset := -1, done := true }, { sg.file with eof := true, fail := true },
      parseAll_one (ok := false) (by simp [Message.parseLine, hg]) rfl, ?_⟩
    exact ⟨h.data, h.push, h.tmp, h.lines, rfl, rfl, (fun b hb => by cases hb), (by simp [IStream.At?, IStream.good])⟩
  | blank p n hn hl =>
    obtain ⟨line, s1, k1, k2, k3, k4⟩ := hline _ _ p hn hl
    have k4' : s1.good = true ∧ s1.pos = p + n := k4
    have ht : s1.tellg = (((p + n : Nat) : Int), s1) := by
      unfold IStream.tellg; rw [if_pos k4'.1, k4'.2]
    refine ⟨{ tmp := none, headers := sg.msg.pushTmp, bodyOffset := ((p + n : Nat) : Int), done := true }, s1,
      parseAll_one (ok := true) (by simp only [Message.parseLine, k1, k2, ht]) rfl, ?_⟩
    refine ⟨k3, h.push, rfl, (by simp), rfl, rfl, (fun b hb => ?_), k4'⟩
    injection hb with hb
    subst hb
    have := hl.le
    rw [List.length_drop] at this
    omega
  | blankEnd p hn hl =>
    obtain ⟨line, s1, k1, k2, k3, k4⟩ := hline _ _ p hn hl
    have k4' : s1.good = false := k4
    have ht : s1.tellg = (-1, { s1 with fail := true }) := by
      unfold IStream.tellg; rw [if_neg (by rw [k4']; decide)]
    refine ⟨{ tmp := none, headers := sg.msg.pushTmp, bodyOffset := -1, done := true }, { s1 with fail := true },
      parseAll_one (ok := true) (by simp only [Message.parseLine, k1, k2, ht]) rfl, ?_⟩
    exact ⟨k3, h.push, rfl, (by simp), rfl, rfl, (fun b hb => by cases hb), (by simp [IStream.At?, IStream.good])⟩
  | cont p l n hn hl hc =>
    obtain ⟨line, s1, k1, k2, k3, k4⟩ := hline _ _ p hn hl
    cases l with
    | nil => cases hc
    | cons c cs =>
      have hi : ¬ (c ≠ TAB ∧ c ≠ SP) := fun hh => by
        have := (isCont_iff c cs).1 hh
        rw [this] at hc; cases hc
      have hlast : (sg.msg.tmp.getD {}).parseLine (c :: cs) = mkField (r.unfinished ++ [c :: cs]) := by
        rw [h.tmp]
        by_cases hu : r.unfinished = []
        · rw [if_pos hu, hu]
          exact parseLine_mkField [] (c :: cs) (by simp)
        · rw [if_neg hu]
          exact parseLine_mkField _ _ h.lines
      refine ⟨{ sg.msg with tmp := some (mkField (r.unfinished ++ [c :: cs])) }, s1,
        parseAll_one (ok := true) (by simp only [Message.parseLine, k1, k2, if_neg hi, hlast]) h.done, ?_⟩
      refine ⟨k3, h.headers, (by simp), ?_, h.done, h.body, h.inside, k4⟩
      intro l hl
      simp only [List.mem_append, List.mem_cons, List.not_mem_nil, or_false] at hl
      rcases hl with hl | rfl
      · exact h.lines l hl
      · simp
  | field p l n hn hl hne hc =>
    obtain ⟨line, s1, k1, k2, k3, k4⟩ := hline _ _ p hn hl
    cases l with
    | nil => exact absurd rfl hne
    | cons c cs =>
      have hi : c ≠ TAB ∧ c ≠ SP := (isCont_iff c cs).2 hc
      have hlast : ((some ({} : Header)).getD {}).parseLine (c :: cs) = mkField [c :: cs] :=
        parseLine_mkField [] (c :: cs) (by simp)
      refine ⟨{ sg.msg with headers := sg.msg.pushTmp, tmp := some (mkField [c :: cs]) }, s1,
        parseAll_one (ok := true) (by simp only [Message.parseLine, k1, k2, if_pos hi, hlast]) h.done, ?_⟩
      refine ⟨k3, h.push, (by simp), (by simp), h.done, h.body, h.inside, k4⟩

theorem KeptRead.valid {d : Bytes} {sg : Signatory} {r : Reading} (h : KeptRead d sg r) : ValidOffset sg.file sg.msg.bodyOffset := by
  unfold ValidOffset
  rw [h.body, h.data]
  unfold Reading.offset
  have hi := h.inside
  cases hb : r.body with
  | none => exact .inl rfl
  | some b =>
    have := hi b hb
    exact .inr ⟨by simp only; omega, by simp only; omega⟩

/-- After parsing, a call signs what the reading says and leaves the stream where the reading says. -/
theorem KeptRead.leaves {d : Bytes} {sg : Signatory} {m : Message} {s1 : IStream} {r : Reading} (o : Options E) (clock : Nat → Int)
    (hp : sg.msg.parseAll sg.file = .ok (m, s1)) (h : KeptRead d { file := s1, msg := m } r) :
    (sg.createSignature E o clock).1 = signParsed E o clock (r.fields.map mkField) (r.bodyText d) ∧
    ∀ next, LeavesAt d o.canonBody (limitOf o) r next →
      KeptRead d (sg.createSignature E o clock).2 { r with next := next } := by
  obtain ⟨q, s2, k1, k2, k3⟩ := createSignature_eq o clock sg m s1 hp h.valid
  have hdata : s1.data = d := h.data
  have hbo : m.bodyOffset = r.offset := h.body
  rw [k3]
  refine ⟨?_, fun next he => ?_⟩
  · simp only
    rw [hdata, hbo, r.bodyPart_eq, show m.headers = _ from h.headers]
  · refine ⟨k2.trans hdata, h.headers, h.tmp, h.lines, h.done, h.body, h.inside, ?_⟩
    simp only
    cases hb : r.body with
    | none =>
      have ho : m.bodyOffset = -1 := by rw [hbo]; unfold Reading.offset; rw [hb]
      rw [ho] at k1
      have e2 := canonBody_none _ _ _ _ _ _ k1
      rw [e2]
      cases he with
      | noBody => exact h.stream
      | all b k => rw [hb] at k; cases k
      | short b n k => rw [hb] at k; cases k
      | stop b n k k2 => rw [hb] at k2; cases k2
    | some b =>
      have ho : m.bodyOffset = (b : Int) := by rw [hbo]; unfold Reading.offset; rw [hb]
      rw [ho] at k1
      have hi := h.inside b hb
      rw [← hdata] at hi he
      exact canonBody_stop s1 s2 o b hi q k1 r hb next he

/-- Further calls. -/
theorem KeptRead.further {d : Bytes} {sg : Signatory} {r r' : Reading} (calls : List (Options E × (Nat → Int)))
    (h : KeptRead d sg r) (hf : Further d (calls.map fun c => (c.1.canonBody, limitOf c.1)) r r') :
    KeptRead d (sg.after E calls) r' := by
  induction calls generalizing sg r with
  | nil => cases hf with | nil => exact h
  | cons c calls ih =>
    cases hf with
    | cons _ _ _ _ r1 next _ h1 h2 h3 =>
      obtain ⟨m, s1, p1, p2⟩ := h.begins h1
      have := (KeptRead.leaves c.1 c.2 p1 p2).2 next h2
      exact ih this h3

/-! ### every reading goes on -/

theorem Spec.Begins.exists (d : Bytes) (r : Reading) : ∃ r', Begins d r r' := by
  cases hn : r.next with
  | none => exact ⟨_, .over hn⟩
  | some p =>
    by_cases hd : d.drop p = []
    · exact ⟨_, .atEnd p hn hd⟩
    · obtain ⟨l, n, hl⟩ := FirstLine.exists _ hd
      by_cases hne : l = []
      · subst hne
        cases n with
        | none => exact ⟨_, .blankEnd p hn hl⟩
        | some n => exact ⟨_, .blank p n hn hl⟩
      · cases hc : isCont l with
        | true => exact ⟨_, .cont p l n hn hl hc⟩
        | false => exact ⟨_, .field p l n hn hl hne hc⟩

theorem Spec.LeavesAt.exists (d : Bytes) (mode : CanonMode) (limit : Option Nat) (r : Reading) : ∃ next, LeavesAt d mode limit r next := by
  cases hb : r.body with
  | none => exact ⟨_, .noBody hb⟩
  | some b =>
    cases limit with
    | none => exact ⟨_, .all b hb rfl⟩
    | some n =>
      by_cases hs : ∃ k, StopsAfter mode n (d.drop b) k
      · obtain ⟨k, hk⟩ := hs
        exact ⟨_, .stop b n k hb rfl hk⟩
      · exact ⟨_, .short b n hb rfl (fun k hk => hs ⟨k, hk⟩)⟩

theorem Spec.Further.exists (d : Bytes) (cs : List (CanonMode × Option Nat)) (r : Reading) : ∃ r', Further d cs r r' := by
  induction cs generalizing r with
  | nil => exact ⟨r, .nil r⟩
  | cons c cs ih =>
    obtain ⟨r1, h1⟩ := Begins.exists d r
    obtain ⟨next, h2⟩ := LeavesAt.exists d c.1 c.2 r1
    obtain ⟨r2, h3⟩ := ih { r1 with next := next }
    exact ⟨r2, .cons _ _ _ _ _ _ _ h1 h2 h3⟩

/-- The first call on a message with an empty line. -/
theorem kept_first (d : Bytes) (ls : List Bytes) (off : Nat) (hd : HeadText 0 d ls off) :
    ∃ m s1, Message.parseAll {} (freshStream d) = .ok (m, s1) ∧
      KeptRead d { file := s1, msg := m } ⟨groupLines ls, [], some off, if s1.good then some s1.pos else none⟩ := by
  obtain ⟨m, s1, p1, p2, p3, p4, p5⟩ := parseAll_head hd (freshStream d) (at_fresh d)
  obtain ⟨hv, hdata⟩ := parse_valid d m s1 p1
  have hne : m.bodyOffset ≠ -1 := by rw [p3]; omega
  refine ⟨m, s1, p1, hdata, p2, ?_, (by simp), p4, p3, (fun b hb => ?_), ?_⟩
  · rcases parseLoop_end _ _ _ _ _ rfl p1 with h | h
    · rw [if_pos rfl]; exact h
    · exact absurd h.1 hne
  · injection hb with hb
    subst hb
    unfold ValidOffset at hv
    rw [p3, hdata] at hv
    have hd' : (freshStream d).data = d := rfl
    omega
  · simp only
    cases hg : s1.good <;> simp [IStream.At?, hg]

end Dkim

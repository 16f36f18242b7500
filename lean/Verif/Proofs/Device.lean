import Verif.Spec.Device
import Verif.Proofs.BodyLoop
import Verif.Props.Message
/-!
# Lemmas for C83, C84
-/

namespace Dkim
open Spec

/-! ## the header loop -/

/-- The device is at position `pos`, with `rest` still to read. -/
def DevAt (s : Device) (pos : Nat) (rest : Bytes) : Prop :=
  s.good = true ∧ s.pos = pos ∧ s.data.drop pos = rest

/-- What a device delivers and whether it can be positioned do not change. -/
def SameDev (s' s : Device) : Prop := s'.data = s.data ∧ s'.seekable = s.seekable ∧ s'.broken = s.broken

theorem SameDev.trans {a b c : Device} (h : SameDev a b) (h2 : SameDev b c) : SameDev a c :=
  ⟨h.1.trans h2.1, h.2.1.trans h2.2.1, h.2.2.trans h2.2.2⟩

theorem devline_line {s : Device} {pos : Nat} {l r : Bytes} (h : DevAt s pos (l ++ LF :: r)) (hl : LF ∉ l) :
    ∃ s', s.getline = (some l, s') ∧ DevAt s' (pos + l.length + 1) r ∧ SameDev s' s := by
  obtain ⟨h1, h2, h3⟩ := h
  refine ⟨{ s with pos := s.pos + l.length + 1 }, ?_, ⟨?_, ?_, ?_⟩, rfl, rfl, rfl⟩
  · unfold Device.getline
    rw [h1]
    simp [h2, h3, cutLF_some hl]
  · exact h1
  · simp [h2]
  · simp only
    have e : pos + l.length + 1 = pos + (l.length + 1) := by omega
    rw [e, ← List.drop_drop, h3]
    have : l ++ LF :: r = (l ++ [LF]) ++ r := by simp
    rw [this, List.drop_append_of_le_length (by simp)]
    simp

theorem devline_last {s : Device} {pos : Nat} {l : Bytes} (h : DevAt s pos l) (hb : s.broken = false) (hl : LF ∉ l) (hne : l ≠ []) :
    ∃ s', s.getline = (some l, s') ∧ s'.good = false ∧ SameDev s' s := by
  obtain ⟨h1, h2, h3⟩ := h
  refine ⟨{ s with pos := s.pos + l.length, eof := true }, ?_, by simp [Device.good], rfl, rfl, rfl⟩
  unfold Device.getline
  rw [h1]
  simp only [Bool.not_true, Bool.false_eq_true, if_false, h2, h3, cutLF_none hl, hb]
  cases l with
  | nil => exact absurd rfl hne
  | cons => rfl

theorem devline_bad {s : Device} {pos : Nat} {l : Bytes} (h : DevAt s pos l) (hb : s.broken = true) (hl : LF ∉ l) :
    ∃ s', s.getline = (none, s') ∧ SameDev s' s := by
  obtain ⟨h1, h2, h3⟩ := h
  refine ⟨{ s with pos := s.pos + l.length, bad := true }, ?_, rfl, rfl, rfl⟩
  unfold Device.getline
  rw [h1]
  simp only [Bool.not_true, Bool.false_eq_true, if_false, h2, h3, cutLF_none hl, hb, if_true]

theorem devline_eof {s : Device} (h : s.good = false) :
    ∃ s', s.getline = (none, s') ∧ SameDev s' s :=
  ⟨{ s with fail := true }, by simp [Device.getline, h], rfl, rfl, rfl⟩

theorem devline_nil {s : Device} {pos : Nat} (h : DevAt s pos []) :
    ∃ s', s.getline = (none, s') ∧ SameDev s' s := by
  cases hb : s.broken with
  | true => exact devline_bad h hb (by simp)
  | false =>
    obtain ⟨h1, h2, h3⟩ := h
    refine ⟨{ s with eof := true, fail := true }, ?_, rfl, rfl, rfl⟩
    unfold Device.getline
    rw [h1]
    simp [h2, h3, IStream.cutLF, hb]

/-- Result of the loop. -/
def DevResult (n : Nat) (m : Message) (s : Device) (fields : List (List Bytes)) (off : Int) : Prop :=
  ∃ m' s', Message.parseFromLoop n m s = .ok (m', s') ∧ m'.headers = fields.map mkField ∧
    m'.bodyOffset = off ∧ SameDev s' s

theorem dev_none {n : Nat} {m : Message} {s s' : Device} {H cur} (h : Holds m H cur)
    (hg : s.getline = (none, s')) (hd : SameDev s' s) : DevResult (n + 1) m s (finish H cur []) (-1) := by
  refine ⟨{ m with headers := m.pushTmp, bodyOffset := -1, done := true }, s', ?_, pushTmp_eq h, rfl, hd⟩
  simp [Message.parseFromLoop, Message.parseLineFrom, hg]

theorem dev_blank {n : Nat} {m : Message} {s s' : Device} {H cur} (h : Holds m H cur) {line : Bytes}
    (hg : s.getline = (some line, s')) (hc : chopCR line = []) (hd : SameDev s' s) :
    DevResult (n + 1) m s (finish H cur []) (s'.tellg).1 := by
  refine ⟨{ tmp := none, headers := m.pushTmp, bodyOffset := (s'.tellg).1, done := true }, (s'.tellg).2, ?_,
    pushTmp_eq h, rfl, ?_⟩
  · simp [Message.parseFromLoop, Message.parseLineFrom, hg, hc]
  · unfold Device.tellg; split <;> exact hd

theorem dev_line {n : Nat} {m : Message} {s s' : Device} {H cur} (h : Holds m H cur) {line l : Bytes}
    (hg : s.getline = (some line, s')) (hc : chopCR line = l) (hl : l ≠ []) (hd : SameDev s' s)
    {L : List Bytes} {off : Int}
    (hrest : ∀ m2 H2 cur2, Holds m2 H2 cur2 → DevResult n m2 s' (finish H2 cur2 L) off) :
    DevResult (n + 1) m s (finish H cur (l :: L)) off := by
  cases l with
  | nil => exact absurd rfl hl
  | cons c cs =>
    obtain ⟨H2, cur2, h2, h3⟩ := line_step h c cs
    obtain ⟨m', s2, r1, r2, r3, r5⟩ := hrest _ H2 cur2 h2
    refine ⟨m', s2, ?_, by rw [r2, h3], r3, r5.trans hd⟩
    rw [← r1]
    have hdone : (if c ≠ TAB ∧ c ≠ SP then { m with headers := m.pushTmp, tmp := some {} } else m : Message).done = false := by
      split <;> exact h.2.2.1
    simp only [Message.parseFromLoop, Message.parseLineFrom, hg, hc]
    simp only [hdone, Bool.not_false, Bool.and_true, if_true]

/-- The header loop over a device, when the header lines are `ls`, the body is at `off` of the text and
(if there is no body) the lines are followed by a part of a line, lost by an error. -/
theorem dev_head {pos : Nat} {rest : Bytes} {ls : List Bytes} {off : Int} (h : HeadText pos rest ls off)
    (part : Bytes) (n : Nat) (hn : rest.length + 2 ≤ n) (s : Device) (hs : DevAt s pos (rest ++ part)) (m : Message) (H cur)
    (hm : Holds m H cur) (hb : off = -1 → if s.broken then LF ∉ part ∧ (rest = [] ∨ rest.getLast? = some LF) else part = []) :
    DevResult n m s (finish H cur ls) (if s.seekable then off else -1) := by
  induction h generalizing n s m H cur with
  | none pos =>
    obtain ⟨n, rfl⟩ : ∃ k, n = k + 1 := ⟨n - 1, by omega⟩
    have e : (if s.seekable then (-1 : Int) else -1) = -1 := by split <;> rfl
    rw [e]
    cases hbr : s.broken with
    | true =>
      obtain ⟨s', g, hd⟩ := devline_bad hs hbr (by have := hb rfl; rw [hbr] at this; exact this.1)
      exact dev_none hm g hd
    | false =>
      have : part = [] := by have := hb rfl; rw [hbr] at this; exact this
      subst this
      obtain ⟨s', g, hd⟩ := devline_nil hs
      exact dev_none hm g hd
  | blankLF pos r =>
    obtain ⟨s', g, ha, hd⟩ := devline_line (l := []) hs (by simp)
    obtain ⟨n, rfl⟩ : ∃ k, n = k + 1 := ⟨n - 1, by omega⟩
    have := dev_blank (n := n) hm g rfl hd
    have e : (s'.tellg).1 = if s.seekable then ((pos + 1 : Nat) : Int) else -1 := by
      unfold Device.tellg; rw [if_pos ha.1, ha.2.1, hd.2.1]; rfl
    rwa [e] at this
  | blankCRLF pos r =>
    obtain ⟨s', g, ha, hd⟩ := devline_line (l := [CR]) hs (by decide)
    obtain ⟨n, rfl⟩ : ∃ k, n = k + 1 := ⟨n - 1, by omega⟩
    have := dev_blank (n := n) hm g rfl hd
    have e : (s'.tellg).1 = if s.seekable then ((pos + 2 : Nat) : Int) else -1 := by
      unfold Device.tellg; rw [if_pos ha.1, ha.2.1, hd.2.1]; rfl
    rwa [e] at this
  | blankEnd pos =>
    have hb := hb rfl
    cases hbr : s.broken with
    | true => rw [hbr] at hb; exact absurd hb.2 (by simp; decide)
    | false =>
      rw [hbr] at hb
      have : part = [] := hb
      subst this
      obtain ⟨s', g, ha, hd⟩ := devline_last hs hbr (by decide) (by simp)
      obtain ⟨n, rfl⟩ : ∃ k, n = k + 1 := ⟨n - 1, by omega⟩
      have := dev_blank (n := n) hm g rfl hd
      have e : (s'.tellg).1 = if s.seekable then (-1 : Int) else -1 := by
        unfold Device.tellg; rw [if_neg (by simp [ha])]; split <;> rfl
      rwa [e] at this
  | lastLine pos l hne hl hcr =>
    have hb := hb rfl
    have e : (if s.seekable then (-1 : Int) else -1) = -1 := by split <;> rfl
    rw [e]
    cases hbr : s.broken with
    | true =>
      rw [hbr] at hb
      rcases hb.2 with h | h
      · exact absurd h hne
      · exact absurd (List.mem_of_getLast? h) hl
    | false =>
      rw [hbr] at hb
      have : part = [] := hb
      subst this
      rw [List.append_nil] at hs
      obtain ⟨s', g, ha, hd⟩ := devline_last hs hbr hl hne
      obtain ⟨n, rfl⟩ : ∃ k, n = k + 1 := ⟨n - 1, by omega⟩
      refine dev_line hm g (chopCR_not hcr) hne hd ?_
      intro m2 H2 cur2 hm2
      obtain ⟨s2, g2, hd2⟩ := devline_eof ha
      obtain ⟨n, rfl⟩ : ∃ k, n = k + 1 := ⟨n - 1, by omega⟩
      exact dev_none hm2 g2 hd2
  | lastLineCR pos l hne hl =>
    have hb := hb rfl
    have e : (if s.seekable then (-1 : Int) else -1) = -1 := by split <;> rfl
    rw [e]
    cases hbr : s.broken with
    | true =>
      rw [hbr] at hb
      rcases hb.2 with h | h
      · simp at h
      · simp at h; exact absurd h (by decide)
    | false =>
      rw [hbr] at hb
      have : part = [] := hb
      subst this
      rw [List.append_nil] at hs
      obtain ⟨s', g, ha, hd⟩ := devline_last hs hbr (by simp only [List.mem_append, List.mem_singleton, not_or]; exact ⟨hl, by decide⟩) (by simp)
      obtain ⟨n, rfl⟩ : ∃ k, n = k + 1 := ⟨n - 1, by omega⟩
      refine dev_line hm g (chopCR_cr l) hne hd ?_
      intro m2 H2 cur2 hm2
      obtain ⟨s2, g2, hd2⟩ := devline_eof ha
      obtain ⟨n, rfl⟩ : ∃ k, n = k + 1 := ⟨n - 1, by simp at hn; omega⟩
      exact dev_none hm2 g2 hd2
  | lineLF pos l r ls off hne hl hcr _ ih =>
    rw [List.append_assoc, List.cons_append] at hs
    obtain ⟨s', g, ha, hd⟩ := devline_line hs hl
    obtain ⟨n, rfl⟩ : ∃ k, n = k + 1 := ⟨n - 1, by omega⟩
    refine dev_line hm g (chopCR_not hcr) hne hd ?_
    intro m2 H2 cur2 hm2
    rw [← hd.2.1]
    refine ih n (by simp at hn; omega) s' ha m2 H2 cur2 hm2 ?_
    intro h
    have := hb h
    rw [hd.2.2]
    cases hbr : s.broken with
    | false => rw [hbr] at this; exact this
    | true =>
      rw [hbr] at this
      refine ⟨this.1, ?_⟩
      rcases this.2 with h | h
      · simp at h
      · cases r with
        | nil => exact Or.inl rfl
        | cons c r => right; simpa [List.getLast?_append, List.getLast?_cons] using h
  | lineCRLF pos l r ls off hne hl _ ih =>
    have hs2 : DevAt s pos ((l ++ [CR]) ++ LF :: (r ++ part)) := by simpa using hs
    obtain ⟨s', g, ha, hd⟩ := devline_line hs2 (by simp only [List.mem_append, List.mem_singleton, not_or]; exact ⟨hl, by decide⟩)
    obtain ⟨n, rfl⟩ : ∃ k, n = k + 1 := ⟨n - 1, by omega⟩
    refine dev_line hm g (chopCR_cr l) hne hd ?_
    intro m2 H2 cur2 hm2
    have ha2 : DevAt s' (pos + l.length + 2) (r ++ part) := by simpa [Nat.add_assoc] using ha
    rw [← hd.2.1]
    refine ih n (by simp at hn; omega) s' ha2 m2 H2 cur2 hm2 ?_
    intro h
    have := hb h
    rw [hd.2.2]
    cases hbr : s.broken with
    | false => rw [hbr] at this; exact this
    | true =>
      rw [hbr] at this
      refine ⟨this.1, ?_⟩
      rcases this.2 with h | h
      · simp at h
      · cases r with
        | nil => exact Or.inl rfl
        | cons c r => right; simpa [List.getLast?_append, List.getLast?_cons] using h

/-! ## the text of the header block does not depend on what follows it -/

theorem headText_ge {pos : Nat} {r : Bytes} {ls : List Bytes} {off : Int} (h : HeadText pos r ls off) : off = -1 ∨ (pos : Int) < off := by
  induction h <;> first | (left; rfl) | (right; omega) | omega

theorem headText_body {pos : Nat} {r : Bytes} {ls : List Bytes} {off : Int} (h : HeadText pos r ls off) (body body' : Bytes)
    (head : Bytes) (e : r = head ++ body) (ho : off = ((pos + head.length : Nat) : Int)) : HeadText pos (head ++ body') ls off := by
  induction h generalizing head with
  | none pos => omega
  | blankLF pos r =>
    have : head.length = 1 := by omega
    obtain ⟨c, rfl⟩ := List.length_eq_one_iff.1 this
    simp at e
    rw [← e.1]; exact .blankLF _ _
  | blankCRLF pos r =>
    have : head.length = 2 := by omega
    obtain ⟨c, c2, rfl⟩ : ∃ c c2, head = [c, c2] := by
      match head, this with
      | [c, c2], _ => exact ⟨c, c2, rfl⟩
    simp at e
    rw [← e.1, ← e.2.1]; exact .blankCRLF _ _
  | blankEnd pos => omega
  | lastLine pos l => omega
  | lastLineCR pos l => omega
  | lineLF pos l r ls off hne hl hcr hr ih =>
    have hk : l.length + 1 ≤ head.length := by
      have := headText_ge hr; omega
    have : ∃ h2, head = l ++ LF :: h2 ∧ r = h2 ++ body := by
      have e2 : (l ++ [LF]) ++ r = head ++ body := by simpa using e
      rcases List.append_eq_append_iff.1 e2 with ⟨a, h1, h2⟩ | ⟨a, h1, h2⟩
      · exact ⟨a, by simpa using h1, h2⟩
      · have : a = [] := by
          have := congrArg List.length h1; simp at this
          exact List.length_eq_zero_iff.1 (by omega)
        subst this
        exact ⟨[], by simpa using h1.symm, by simpa using h2.symm⟩
    obtain ⟨h2, rfl, e2⟩ := this
    rw [List.append_assoc, List.cons_append]
    exact .lineLF _ _ _ _ _ hne hl hcr (ih h2 e2 (by rw [ho]; simp; omega))
  | lineCRLF pos l r ls off hne hl hr ih =>
    have hk : l.length + 2 ≤ head.length := by
      have := headText_ge hr; omega
    have : ∃ h2, head = l ++ CR :: LF :: h2 ∧ r = h2 ++ body := by
      have e2 : (l ++ [CR, LF]) ++ r = head ++ body := by simpa using e
      rcases List.append_eq_append_iff.1 e2 with ⟨a, h1, h2⟩ | ⟨a, h1, h2⟩
      · exact ⟨a, by simpa using h1, h2⟩
      · have : a = [] := by
          have := congrArg List.length h1; simp at this
          exact List.length_eq_zero_iff.1 (by omega)
        subst this
        exact ⟨[], by simpa using h1.symm, by simpa using h2.symm⟩
    obtain ⟨h2, rfl, e2⟩ := this
    rw [List.append_assoc, List.cons_append, List.cons_append]
    exact .lineCRLF _ _ _ _ _ hne hl (ih h2 e2 (by rw [ho]; simp; omega))

/-! ## the body loop -/

/-- The device `d` and the stream `s` are at the same place of a body; the stream has what the device
can deliver in whole blocks. -/
def BodyRel (blk : Nat) (d : Device) (s : IStream) : Prop :=
  d.pos = s.pos ∧ d.good = true ∧ s.good = true ∧ s.pos ≤ s.data.length ∧
  ((d.broken = false ∧ s.data = d.data) ∨
   (d.broken = true ∧ ∃ k, s.data.length = s.pos + blk * k ∧ s.data = d.data.take s.data.length ∧ d.data.length < s.data.length + blk))

theorem dev_loop (blk : Nat) (hblk : 0 < blk) (mode : CanonMode) (limit : Bool) (f1 : Nat) (d : Device) (s : IStream) (a : BodyAcc)
    (h : BodyRel blk d s) (hf1 : (s.data.drop s.pos).length + 2 ≤ f1) :
    ∃ d' s' a', devLoop blk mode limit f1 d a = .ok (d', a') ∧ SameDev d' d ∧
      (∀ f2, (s.data.drop s.pos).length + 2 ≤ f2 → bodyLoop blk mode limit f2 s a = .ok (s', a')) := by
  induction f1 generalizing d s a with
  | zero => omega
  | succ n ih =>
    obtain ⟨hp, hd, hs, hle, hrel⟩ := h
    by_cases hz : limit = true ∧ a.size = 0
    · refine ⟨d, s, a, ?_, ⟨rfl, rfl, rfl⟩, ?_⟩
      · rw [devLoop]; simp only [hd, Bool.not_true, Bool.false_eq_true, if_false]; rw [if_pos hz]
      · intro f2 hf2
        obtain ⟨f2, rfl⟩ : ∃ k, f2 = k + 1 := ⟨f2 - 1, by omega⟩
        rw [bodyLoop]; simp only [hs, Bool.not_true, Bool.false_eq_true, if_false]; rw [if_pos hz]
    · have hstop : ∀ (d' : Device) (s' : IStream) (a' : BodyAcc), d'.good = false → s'.good = false → SameDev d' d →
          (∀ f, devLoop blk mode limit (f + 1) d' a' = .ok (d', a')) ∧ (∀ f, bodyLoop blk mode limit (f + 1) s' a' = .ok (s', a')) := by
        intro d' s' a' h1 h2 h3
        constructor <;> intro f
        · rw [devLoop]; simp [h1]
        · rw [bodyLoop]; simp [h2]
      by_cases hfull : blk ≤ (s.data.drop s.pos).length
      · -- a whole block
        have hlen : (s.data.drop s.pos).length = s.data.length - s.pos := by simp
        have hblock : (d.data.drop d.pos).take blk = (s.data.drop s.pos).take blk ∧ blk ≤ (d.data.drop d.pos).length := by
          rw [hp]
          rcases hrel with ⟨_, e⟩ | ⟨_, k, e1, e2, e3⟩
          · rw [← e]; exact ⟨rfl, hfull⟩
          · have hl : s.data.length ≤ d.data.length := by
              have := congrArg List.length e2
              rw [List.length_take] at this; omega
            refine ⟨?_, by rw [List.length_drop]; omega⟩
            rw [e2, List.drop_take, List.take_take, Nat.min_eq_left (by omega)]
        have hd2 : d.read blk = ((s.data.drop s.pos).take blk, { d with pos := d.pos + blk }) := by
          unfold Device.read
          simp only [hd, Bool.not_true, Bool.false_eq_true, if_false]
          rw [if_pos hblock.2, hblock.1]
        have hs2 : s.read blk = ((s.data.drop s.pos).take blk, { s with pos := s.pos + blk }) := by
          unfold IStream.read
          simp only [hs, Bool.not_true, Bool.false_eq_true, if_false]
          rw [if_pos hfull]
        have hr2 : BodyRel blk { d with pos := d.pos + blk } { s with pos := s.pos + blk } := by
          refine ⟨by simp [hp], hd, hs, by simp only; omega, ?_⟩
          rcases hrel with ⟨b, e⟩ | ⟨b, k, e1, e2, e3⟩
          · exact Or.inl ⟨b, e⟩
          · refine Or.inr ⟨b, k - 1, ?_, e2, e3⟩
            simp only
            cases k with
            | zero => simp at e1; omega
            | succ k => rw [e1, Nat.mul_succ]; simp only [Nat.add_sub_cancel]; omega
        generalize hbuf : bodyBlock mode a.st ((s.data.drop s.pos).take blk) = bb
        obtain ⟨st', buf⟩ := bb
        obtain ⟨d', s', a', g1, g2, g3⟩ := ih { d with pos := d.pos + blk } { s with pos := s.pos + blk }
          { (({ a with st := st' } : BodyAcc).emit limit buf) with empty := (({ a with st := st' } : BodyAcc).emit limit buf).empty && buf.isEmpty }
          hr2 (by simp only [List.length_drop] at hf1 hlen hfull ⊢; omega)
        refine ⟨d', s', a', ?_, g2, ?_⟩
        · rw [devLoop]; simp only [hd, Bool.not_true, Bool.false_eq_true, if_false]; rw [if_neg hz]
          simp only [hd2, hbuf]; exact g1
        · intro f2 hf2
          obtain ⟨f2, rfl⟩ : ∃ k, f2 = k + 1 := ⟨f2 - 1, by omega⟩
          rw [bodyLoop]; simp only [hs, Bool.not_true, Bool.false_eq_true, if_false]; rw [if_neg hz]
          simp only [hs2, hbuf]
          exact g3 f2 (by simp only [List.length_drop] at hf2 hlen hfull ⊢; omega)
      · -- the last block
        have hs2 : s.read blk = (s.data.drop s.pos, { s with pos := s.pos + (s.data.drop s.pos).length, eof := true, fail := true }) := by
          unfold IStream.read
          simp only [hs, Bool.not_true, Bool.false_eq_true, if_false]
          rw [if_neg hfull]
        have hd2 : ∃ d', d.read blk = (s.data.drop s.pos, d') ∧ d'.good = false ∧ SameDev d' d := by
          unfold Device.read
          simp only [hd, Bool.not_true, Bool.false_eq_true, if_false]
          rcases hrel with ⟨b, e⟩ | ⟨b, k, e1, e2, e3⟩
          · rw [hp, ← e, if_neg hfull, b]
            exact ⟨_, rfl, by simp [Device.good], e, rfl, b.symm⟩
          · have hlen : (s.data.drop s.pos).length = s.data.length - s.pos := by simp
            have hk : k = 0 := by
              cases k with
              | zero => rfl
              | succ k => rw [Nat.mul_succ] at e1; generalize blk * k = x at e1; omega
            subst hk
            rw [Nat.mul_zero] at e1
            have h0 : s.data.drop s.pos = [] := List.drop_of_length_le (by omega)
            rw [if_neg (by rw [List.length_drop, hp]; omega), b, h0]
            exact ⟨_, rfl, by simp [Device.good], rfl, rfl, b.symm⟩
        obtain ⟨d', hd2, hbad, hsame⟩ := hd2
        generalize hbuf : bodyBlock mode a.st (s.data.drop s.pos) = bb
        obtain ⟨st', buf⟩ := bb
        obtain ⟨q1, q2⟩ := hstop d' { s with pos := s.pos + (s.data.drop s.pos).length, eof := true, fail := true }
          { (({ a with st := st' } : BodyAcc).emit limit buf) with empty := (({ a with st := st' } : BodyAcc).emit limit buf).empty && buf.isEmpty }
          hbad (by simp [IStream.good]) hsame
        refine ⟨d', { s with pos := s.pos + (s.data.drop s.pos).length, eof := true, fail := true },
          { (({ a with st := st' } : BodyAcc).emit limit buf) with empty := (({ a with st := st' } : BodyAcc).emit limit buf).empty && buf.isEmpty },
          ?_, hsame, ?_⟩
        · rw [devLoop]; simp only [hd, Bool.not_true, Bool.false_eq_true, if_false]; rw [if_neg hz]
          simp only [hd2, hbuf]
          obtain ⟨n, rfl⟩ : ∃ k, n = k + 1 := ⟨n - 1, by omega⟩
          exact q1 n
        · intro f2 hf2
          obtain ⟨f2, rfl⟩ : ∃ k, f2 = k + 1 := ⟨f2 - 1, by omega⟩
          rw [bodyLoop]; simp only [hs, Bool.not_true, Bool.false_eq_true, if_false]; rw [if_neg hz]
          simp only [hs2, hbuf]
          obtain ⟨f2, rfl⟩ : ∃ k, f2 = k + 1 := ⟨f2 - 1, by omega⟩
          exact q2 f2

end Dkim

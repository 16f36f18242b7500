import Verif.Proofs.Message
import Verif.Spec.Header
/-!
# Properties C20–C22: the message parser

Spec: `Verif/Spec/Message.lean`. A message is parsed from a stream positioned at its beginning.
-/

namespace Dkim
open Spec

/-- The stream a caller passes: readable, at the beginning of the message. -/
def freshStream (d : Bytes) : IStream := { data := d }

theorem at_fresh (d : Bytes) : At (freshStream d) 0 d := ⟨rfl, rfl, by simp [freshStream]⟩

/-- C20: for every message, the parser ends, and what it delivers is the header block: its lines,
grouped into fields, and the body position. -/
theorem C20_parse (d : Bytes) :
    ∃ m s' ls, Message.parseAll {} (freshStream d) = .ok (m, s') ∧ HeadText 0 d ls m.bodyOffset ∧
      m.headers = (groupLines ls).map mkField ∧ s'.data = d := by
  obtain ⟨ls, off, h⟩ := HeadText.total d 0
  obtain ⟨m, s', h1, h2, h3, _, h5⟩ := parseAll_head h (freshStream d) (at_fresh d)
  exact ⟨m, s', ls, h1, by rw [h3]; exact h, h2, h5⟩

/-- The same from any position of any stream that is in a good state (a caller may have read a
prefix of the stream). -/
theorem C20_parse_at (s : IStream) (hg : s.good = true) :
    ∃ m s' ls, Message.parseAll {} s = .ok (m, s') ∧ HeadText s.pos (s.data.drop s.pos) ls m.bodyOffset ∧
      m.headers = (groupLines ls).map mkField ∧ s'.data = s.data := by
  obtain ⟨ls, off, h⟩ := HeadText.total (s.data.drop s.pos) s.pos
  obtain ⟨m, s', h1, h2, h3, _, h5⟩ := parseAll_head h s ⟨hg, rfl, rfl⟩
  exact ⟨m, s', ls, h1, by rw [h3]; exact h, h2, h5⟩

/-! ### lossless -/

theorem joinLines_cons_ne (x : Bytes) {l : List Bytes} (h : l ≠ []) :
    joinLines (x :: l) = x ++ CRLF ++ joinLines l := by
  cases l with
  | nil => exact absurd rfl h
  | cons y l => rfl

theorem groupLines_ne {ls : List Bytes} (h : ls ≠ []) : groupLines ls ≠ [] := by
  cases ls with
  | nil => exact absurd rfl h
  | cons l ls =>
    cases ls with
    | nil => simp [groupLines]
    | cons l2 ls =>
      rw [groupLines]
      split
      · split <;> simp
      · simp

theorem groupLines_spec (ls : List Bytes) :
    (groupLines ls).flatten = ls ∧ (∀ g ∈ groupLines ls, g ≠ [] ∧ ∀ l ∈ g.tail, isCont l = true) ∧
    (∀ g ∈ (groupLines ls).tail, ∀ l ∈ g.head?, isCont l = false) ∧
    joinLines ((groupLines ls).map joinLines) = joinLines ls ∧
    (∀ g ∈ (groupLines ls).head?, g.head? = ls.head?) := by
  induction ls with
  | nil => simp [groupLines]
  | cons l ls ih =>
    cases ls with
    | nil => simp [groupLines, joinLines]
    | cons l2 ls =>
      obtain ⟨i1, i2, i3, i4, i5⟩ := ih
      have hne := groupLines_ne (ls := l2 :: ls) (by simp)
      rw [groupLines]
      cases hg : groupLines (l2 :: ls) with
      | nil => exact absurd hg hne
      | cons g gs =>
        rw [hg] at i1 i2 i3 i4 i5
        have hgne : g ≠ [] := (i2 g (by simp)).1
        by_cases hc : isCont l2 = true
        · rw [if_pos hc]
          refine ⟨by simpa using i1, ?_, ?_, ?_, by simp⟩
          · intro x hx
            rcases List.mem_cons.1 hx with rfl | hx
            · refine ⟨by simp, ?_⟩
              intro y hy
              simp only [List.tail_cons] at hy
              have h5 := i5 g (by simp)
              cases hgg : g with
              | nil => exact absurd hgg hgne
              | cons z g' =>
                rw [hgg] at h5 hy
                simp at h5
                rcases List.mem_cons.1 hy with rfl | hy
                · rw [h5]; exact hc
                · exact (i2 g (by simp)).2 y (by rw [hgg]; exact hy)
            · exact i2 x (by simp [hx])
          · intro x hx; exact i3 x (by simpa using hx)
          · rw [joinLines_cons_ne l (by simp : l2 :: ls ≠ []), ← i4]
            cases gs with
            | nil => simp [joinLines, joinLines_cons_ne l hgne]
            | cons g2 gs =>
              simp only [List.map_cons, joinLines, joinLines_cons_ne l hgne]
              simp
        · rw [if_neg hc]
          have hc : isCont l2 = false := by simpa using hc
          refine ⟨by simpa using i1, ?_, ?_, ?_, by simp⟩
          · intro x hx
            rcases List.mem_cons.1 hx with rfl | hx
            · simp
            · exact i2 x hx
          · intro x hx y hy
            simp only [List.tail_cons] at hx
            rcases List.mem_cons.1 hx with rfl | hx
            · have h5 := i5 x (by simp)
              rw [h5] at hy
              simp at hy; subst hy; exact hc
            · exact i3 x (by simpa using hx) y hy
          · rw [joinLines_cons_ne l (by simp : l2 :: ls ≠ []), ← i4]
            simp only [List.map_cons]
            rw [joinLines_cons_ne _ (by simp)]
            rfl

/-- C20: joining the delivered fields by CRLF gives back the header lines joined by CRLF; the fields
split exactly before the lines that are not continuation lines. -/
theorem C20_lossless (d : Bytes) (m : Message) (s' : IStream)
    (h : Message.parseAll {} (freshStream d) = .ok (m, s')) :
    ∃ ls, HeadText 0 d ls m.bodyOffset ∧ joinLines (m.headers.map Header.header) = joinLines ls ∧
      ∃ groups : List (List Bytes), groups.flatten = ls ∧ m.headers.map Header.header = groups.map joinLines ∧
        (∀ g ∈ groups, g ≠ [] ∧ ∀ l ∈ g.tail, isCont l = true) ∧
        (∀ g ∈ groups.tail, ∀ l ∈ g.head?, isCont l = false) := by
  obtain ⟨m2, s2, ls, h1, h2, h3, _⟩ := C20_parse d
  rw [h1] at h
  injection h with h; injection h with h4 h5; subst h4
  obtain ⟨g1, g2, g3, g4, _⟩ := groupLines_spec ls
  have e : m2.headers.map Header.header = (groupLines ls).map joinLines := by
    rw [h3, List.map_map]
    apply List.map_congr_left
    intro g _
    simp [mkField_header]
  exact ⟨ls, h2, by rw [e, g4], groupLines ls, g1, e, g2, g3⟩

/-! ### body offset -/

theorem endsHead_last {p : Bytes} (h : EndsHead p) : p.getLast? = some LF := by
  obtain ⟨hb, _, rfl | rfl⟩ := h <;> simp

theorem take_prefix_cases {p l t : Bytes} {k : Nat} (h1 : p.length < k) (h2 : k ≤ p.length + l.length) :
    ∃ l1 l2, l = l1 ++ l2 ∧ l1 ≠ [] ∧ (p ++ (l ++ t)).take k = p ++ l1 := by
  refine ⟨l.take (k - p.length), l.drop (k - p.length), (List.take_append_drop _ _).symm, ?_, ?_⟩
  · intro h
    have h3 := congrArg List.length h
    rw [List.length_take] at h3
    simp only [List.length_nil] at h3
    omega
  · rw [List.take_append]
    have e : p.take k = p := List.take_of_length_le (by omega)
    rw [e, List.take_append_of_le_length (by omega)]

theorem not_endsHead_line {p l : Bytes} (hl : LF ∉ l) (hne : l ≠ []) : ¬ EndsHead (p ++ l) := by
  intro h
  have := endsHead_last h
  rw [List.getLast?_append] at this
  cases hx : l.getLast? with
  | none => simp at hx; exact hne hx
  | some x =>
    rw [hx] at this; simp at this
    subst this
    exact hl (List.mem_of_getLast? hx)

theorem headText_offset {pos : Nat} {r : Bytes} {ls : List Bytes} {off : Int} (h : HeadText pos r ls off)
    (p : Bytes) (hp : p.length = pos) (hpl : p = [] ∨ p.getLast? = some LF) :
    (∃ n : Nat, off = n ∧ pos < n ∧ n ≤ (p ++ r).length ∧ EndsHead ((p ++ r).take n) ∧
      ∀ k, pos < k → k < n → ¬ EndsHead ((p ++ r).take k)) ∨
    (off = -1 ∧ ∀ k, pos < k → k ≤ (p ++ r).length → ¬ EndsHead ((p ++ r).take k)) := by
  induction h generalizing p with
  | none pos =>
    right
    refine ⟨rfl, fun k h1 h2 => ?_⟩
    simp at h2; omega
  | blankLF pos r =>
    left
    refine ⟨pos + 1, rfl, by omega, by simp [hp], ?_, fun k h1 h2 => by omega⟩
    have : (p ++ LF :: r).take (pos + 1) = p ++ [LF] := by
      have e : p ++ LF :: r = (p ++ [LF]) ++ r := by simp
      rw [e, List.take_left' (by simp [hp])]
    rw [this]
    exact ⟨p, hpl, Or.inl rfl⟩
  | blankCRLF pos r =>
    left
    refine ⟨pos + 2, rfl, by omega, by simp [hp], ?_, fun k h1 h2 => ?_⟩
    · have : (p ++ CR :: LF :: r).take (pos + 2) = p ++ CRLF := by
        have e : p ++ CR :: LF :: r = (p ++ CRLF) ++ r := by simp
        rw [e, List.take_left' (by simp [hp])]
      rw [this]
      exact ⟨p, hpl, Or.inr rfl⟩
    · have hk : k = pos + 1 := by omega
      subst hk
      have : (p ++ CR :: LF :: r).take (pos + 1) = p ++ [CR] := by
        have e : p ++ CR :: LF :: r = (p ++ [CR]) ++ (LF :: r) := by simp
        rw [e, List.take_left' (by simp [hp])]
      rw [this]
      exact not_endsHead_line (by decide) (by simp)
  | blankEnd pos =>
    right
    refine ⟨rfl, fun k h1 h2 => ?_⟩
    simp at h2
    have : (p ++ [CR]).take k = p ++ [CR] := List.take_of_length_le (by simp; omega)
    rw [this]
    exact not_endsHead_line (by decide) (by simp)
  | lastLine pos l hne hl hcr =>
    right
    refine ⟨rfl, fun k h1 h2 => ?_⟩
    obtain ⟨l1, l2, rfl, hne1, e⟩ := take_prefix_cases (p := p) (l := l) (t := []) (k := k) (by omega) (by simpa using h2)
    rw [List.append_nil] at e
    rw [e]
    exact not_endsHead_line (fun h => hl (by simp [h])) hne1
  | lastLineCR pos l hne hl =>
    right
    refine ⟨rfl, fun k h1 h2 => ?_⟩
    have hl' : LF ∉ l ++ [CR] := by
      simp only [List.mem_append, List.mem_singleton, not_or]; exact ⟨hl, by decide⟩
    obtain ⟨l1, l2, e0, hne1, e⟩ := take_prefix_cases (p := p) (l := l ++ [CR]) (t := []) (k := k) (by omega) (by simpa using h2)
    rw [List.append_nil] at e
    rw [e]
    exact not_endsHead_line (fun h => hl' (by rw [e0]; simp [h])) hne1
  | lineLF pos l r ls off hne hl hcr _ ih =>
    have hsmall : ∀ k, pos < k → k ≤ pos + l.length + 1 → ¬ EndsHead ((p ++ (l ++ LF :: r)).take k) := by
      intro k h1 h2
      by_cases hk : k ≤ pos + l.length
      · obtain ⟨l1, l2, rfl, hne1, e⟩ := take_prefix_cases (p := p) (l := l) (t := LF :: r) (k := k) (by omega) (by omega)
        rw [e]
        exact not_endsHead_line (fun h => hl (by simp [h])) hne1
      · have hk : k = pos + l.length + 1 := by omega
        have e : (p ++ (l ++ LF :: r)).take k = p ++ l ++ [LF] := by
          have e : p ++ (l ++ LF :: r) = (p ++ l ++ [LF]) ++ r := by simp
          rw [e, List.take_left' (by simp [hp, hk]; omega)]
        rw [e]
        rintro ⟨hb, hh, h3 | h3⟩
        · have h3 := List.append_cancel_right h3
          subst h3
          rcases hh with h4 | h4
          · simp at h4; exact hne h4.2
          · apply not_endsHead_line (p := p) hl hne
            exact absurd h4 (by
              intro h4
              rw [List.getLast?_append] at h4
              cases hx : l.getLast? with
              | none => simp at hx; exact hne hx
              | some x =>
                rw [hx] at h4; simp at h4; subst h4
                exact hl (List.mem_of_getLast? hx))
        · have h4 : p ++ l = hb ++ [CR] := by
            have : hb ++ CRLF = (hb ++ [CR]) ++ [LF] := by simp
            rw [this] at h3
            exact List.append_cancel_right h3
          apply hcr
          have := congrArg List.getLast? h4
          rw [List.getLast?_append] at this
          cases hx : l.getLast? with
          | none => simp at hx; exact absurd hx hne
          | some x => rw [hx] at this; simpa using this
    have e : p ++ (l ++ LF :: r) = (p ++ l ++ [LF]) ++ r := by simp
    rcases ih (p ++ l ++ [LF]) (by simp [hp]; omega) (Or.inr (by simp)) with ⟨n, h1, h2, h3, h4, h5⟩ | ⟨h1, h2⟩
    · left
      rw [← e] at h3 h4
      refine ⟨n, h1, by omega, h3, h4, fun k k1 k2 => ?_⟩
      by_cases hk : k ≤ pos + l.length + 1
      · exact hsmall k k1 hk
      · have := h5 k (by omega) k2
        rwa [← e] at this
    · right
      refine ⟨h1, fun k k1 k2 => ?_⟩
      by_cases hk : k ≤ pos + l.length + 1
      · exact hsmall k k1 hk
      · have := h2 k (by omega) (by rw [← e]; exact k2)
        rwa [← e] at this
  | lineCRLF pos l r ls off hne hl _ ih =>
    have hsmall : ∀ k, pos < k → k ≤ pos + l.length + 2 → ¬ EndsHead ((p ++ (l ++ CR :: LF :: r)).take k) := by
      intro k h1 h2
      have hl' : LF ∉ l ++ [CR] := by
        simp only [List.mem_append, List.mem_singleton, not_or]; exact ⟨hl, by decide⟩
      by_cases hk : k ≤ pos + l.length + 1
      · obtain ⟨l1, l2, e0, hne1, e⟩ := take_prefix_cases (p := p) (l := l ++ [CR]) (t := LF :: r) (k := k) (by omega) (by simp; omega)
        have e3 : l ++ CR :: LF :: r = l ++ [CR] ++ LF :: r := by simp
        rw [e3, e]
        exact not_endsHead_line (fun h => hl' (by rw [e0]; simp [h])) hne1
      · have hk : k = pos + l.length + 2 := by omega
        have e : (p ++ (l ++ CR :: LF :: r)).take k = p ++ l ++ [CR] ++ [LF] := by
          have e : p ++ (l ++ CR :: LF :: r) = (p ++ l ++ [CR] ++ [LF]) ++ r := by simp
          rw [e, List.take_left' (by simp [hp, hk]; omega)]
        rw [e]
        rintro ⟨hb, hh, h3 | h3⟩
        · have h3 := List.append_cancel_right h3
          subst h3
          rcases hh with h4 | h4
          · simp at h4
          · simp at h4; exact absurd h4 (by decide)
        · have h4 : p ++ l = hb := by
            have h6 : hb ++ CRLF = (hb ++ [CR]) ++ [LF] := by simp
            rw [h6] at h3
            exact List.append_cancel_right (List.append_cancel_right h3)
          subst h4
          rcases hh with h4 | h4
          · simp at h4; exact hne h4.2
          · rw [List.getLast?_append] at h4
            cases hx : l.getLast? with
            | none => simp at hx; exact hne hx
            | some x =>
              rw [hx] at h4; simp at h4; subst h4
              exact hl (List.mem_of_getLast? hx)
    have e : p ++ (l ++ CR :: LF :: r) = (p ++ l ++ CRLF) ++ r := by simp
    rcases ih (p ++ l ++ CRLF) (by simp [hp]; omega) (Or.inr (by simp)) with ⟨n, h1, h2, h3, h4, h5⟩ | ⟨h1, h2⟩
    · left
      rw [← e] at h3 h4
      refine ⟨n, h1, by omega, h3, h4, fun k k1 k2 => ?_⟩
      by_cases hk : k ≤ pos + l.length + 2
      · exact hsmall k k1 hk
      · have := h5 k (by omega) k2
        rwa [← e] at this
    · right
      refine ⟨h1, fun k k1 k2 => ?_⟩
      by_cases hk : k ≤ pos + l.length + 2
      · exact hsmall k k1 hk
      · have := h2 k (by omega) (by rw [← e]; exact k2)
        rwa [← e] at this

theorem not_endsHead_nil : ¬ EndsHead [] := by
  rintro ⟨hb, _, h | h⟩ <;> simp at h

/-- C20: the body offset is the end of the first empty line of the message, or -1 if there is none. -/
theorem C20_body_offset (d : Bytes) (m : Message) (s' : IStream)
    (h : Message.parseAll {} (freshStream d) = .ok (m, s')) :
    (∃ n : Nat, m.bodyOffset = n ∧ n ≤ d.length ∧ EndsHead (d.take n) ∧ ∀ k, k < n → ¬ EndsHead (d.take k)) ∨
    (m.bodyOffset = -1 ∧ ∀ k, k ≤ d.length → ¬ EndsHead (d.take k)) := by
  obtain ⟨m2, s2, ls, h1, h2, _, _⟩ := C20_parse d
  rw [h1] at h
  injection h with h; injection h with h4 h5; subst h4
  rcases headText_offset h2 [] rfl (Or.inl rfl) with ⟨n, a1, a2, a3, a4, a5⟩ | ⟨a1, a2⟩
  · left
    refine ⟨n, a1, by simpa using a3, by simpa using a4, fun k hk => ?_⟩
    by_cases hk0 : k = 0
    · subst hk0; simpa using not_endsHead_nil
    · simpa using a5 k (by omega) hk
  · right
    refine ⟨a1, fun k hk => ?_⟩
    by_cases hk0 : k = 0
    · subst hk0; simpa using not_endsHead_nil
    · simpa using a2 k (by omega) (by simpa using hk)

/-! ### line endings -/

/-- Replace every LF by CRLF. -/
def toCRLF (d : Bytes) : Bytes := d.flatMap (fun c => if c = LF then CRLF else [c])

theorem toCRLF_append (a b : Bytes) : toCRLF (a ++ b) = toCRLF a ++ toCRLF b := by simp [toCRLF]

theorem toCRLF_noLF {l : Bytes} (h : LF ∉ l) : toCRLF l = l := by
  induction l with
  | nil => rfl
  | cons c l ih =>
    simp only [List.mem_cons, not_or] at h
    have := ih h.2
    simp only [toCRLF, List.flatMap_cons] at this ⊢
    rw [if_neg (fun e => h.1 e.symm), this]; rfl

theorem headText_toCRLF {pos : Nat} {r : Bytes} {ls : List Bytes} {off : Int} (h : HeadText pos r ls off)
    (hno : ∀ a b, r ≠ a ++ CR :: LF :: b) (pos' : Nat) : ∃ off', HeadText pos' (toCRLF r) ls off' := by
  induction h generalizing pos' with
  | none pos => exact ⟨-1, .none pos'⟩
  | blankLF pos r => exact ⟨_, .blankCRLF pos' (toCRLF r)⟩
  | blankCRLF pos r => exact absurd rfl (hno [] r)
  | blankEnd pos => exact ⟨-1, .blankEnd pos'⟩
  | lastLine pos l hne hl hcr => rw [toCRLF_noLF hl]; exact ⟨-1, .lastLine pos' l hne hl hcr⟩
  | lastLineCR pos l hne hl =>
    rw [toCRLF_append, toCRLF_noLF hl]; exact ⟨-1, .lastLineCR pos' l hne hl⟩
  | lineLF pos l r ls off hne hl hcr _ ih =>
    obtain ⟨off', h'⟩ := ih (fun a b e => hno (l ++ LF :: a) b (by simp [e])) (pos' + l.length + 2)
    refine ⟨off', ?_⟩
    rw [toCRLF_append, toCRLF_noLF hl]
    exact .lineCRLF pos' l (toCRLF r) ls off' hne hl h'
  | lineCRLF pos l r ls off hne hl _ ih => exact absurd rfl (hno l r)

/-- C21: a message with LF line ends and the same message with CRLF line ends have the same fields
(names, texts and value positions). -/
theorem C21_line_endings (d : Bytes) (hno : ∀ a b, d ≠ a ++ CR :: LF :: b) (m m' : Message) (s s' : IStream)
    (h : Message.parseAll {} (freshStream d) = .ok (m, s))
    (h' : Message.parseAll {} (freshStream (toCRLF d)) = .ok (m', s')) : m.headers = m'.headers := by
  obtain ⟨ls, off, ht⟩ := HeadText.total d 0
  obtain ⟨off', ht'⟩ := headText_toCRLF ht hno 0
  obtain ⟨m2, s2, h1, h2, _⟩ := parseAll_head ht (freshStream d) (at_fresh d)
  obtain ⟨m3, s3, h3, h4, _⟩ := parseAll_head ht' (freshStream (toCRLF d)) (at_fresh _)
  rw [h] at h1; injection h1 with h1; injection h1 with h1; subst h1
  rw [h'] at h3; injection h3 with h3; injection h3 with h3; subst h3
  rw [h2, h4]

/-! ### delivered fields -/

theorem headText_lines {pos : Nat} {r : Bytes} {ls : List Bytes} {off : Int} (h : HeadText pos r ls off) :
    ∀ l ∈ ls, l ≠ [] ∧ LF ∉ l := by
  induction h with
  | none => simp
  | blankLF => simp
  | blankCRLF => simp
  | blankEnd => simp
  | lastLine pos l hne hl hcr => intro x hx; simp at hx; subst hx; exact ⟨hne, hl⟩
  | lastLineCR pos l hne hl => intro x hx; simp at hx; subst hx; exact ⟨hne, hl⟩
  | lineLF pos l r ls off hne hl hcr _ ih =>
    intro x hx
    rcases List.mem_cons.1 hx with rfl | hx
    · exact ⟨hne, hl⟩
    · exact ih x hx
  | lineCRLF pos l r ls off hne hl _ ih =>
    intro x hx
    rcases List.mem_cons.1 hx with rfl | hx
    · exact ⟨hne, hl⟩
    · exact ih x hx

theorem wellFolded_noLF {l : Bytes} (h : LF ∉ l) : WellFolded l := by
  intro a b e; exact absurd (by rw [e]; simp) h

theorem wellFolded_joinLines (g : List Bytes) (h1 : ∀ l ∈ g, LF ∉ l) (h2 : ∀ l ∈ g.tail, isCont l = true) :
    WellFolded (joinLines g) := by
  induction g with
  | nil => exact wellFolded_noLF (by simp [joinLines])
  | cons x g ih =>
    cases g with
    | nil => exact wellFolded_noLF (h1 x (by simp))
    | cons y g =>
      have ihg := ih (fun l hl => h1 l (by simp [List.mem_cons.1 hl])) (fun l hl => h2 l (by simp at hl ⊢; right; exact hl))
      have hy : ∃ w r, joinLines (y :: g) = w :: r ∧ isWSP w = true := by
        have hc := h2 y (by simp)
        cases y with
        | nil => simp [isCont] at hc
        | cons w y =>
          cases g with
          | nil => exact ⟨w, y, rfl, hc⟩
          | cons z g => exact ⟨w, _, rfl, hc⟩
      obtain ⟨w, r, hw1, hw2⟩ := hy
      rw [joinLines]
      have hx := h1 x (by simp)
      intro a b e
      have e' : x ++ (CR :: (LF :: joinLines (y :: g))) = a ++ LF :: b := by simpa using e
      rcases List.append_eq_append_iff.1 e' with ⟨t, ht1, ht2⟩ | ⟨t, ht1, ht2⟩
      · cases t with
        | nil => simp at ht2; exact absurd ht2.1 (by decide)
        | cons c t =>
          simp at ht2
          obtain ⟨rfl, ht2⟩ := ht2
          cases t with
          | nil =>
            simp at ht2
            subst ht2
            exact ⟨⟨x, ht1⟩, w, r, hw1, hw2⟩
          | cons c2 t =>
            simp at ht2
            obtain ⟨rfl, ht2⟩ := ht2
            obtain ⟨⟨a', ha⟩, hb⟩ := ihg t b ht2
            exact ⟨⟨x ++ CR :: LF :: a', by rw [ht1, ha]; simp⟩, hb⟩
      · exfalso
        cases t with
        | nil => simp at ht2; exact absurd ht2.1 (by decide)
        | cons c t =>
          simp at ht2
          obtain ⟨rfl, _⟩ := ht2
          exact hx (by rw [ht1]; simp)

theorem mkField_name (ls : List Bytes) :
    (mkField ls).name = if COLON ∈ joinLines ls then trimWSP (fieldName (joinLines ls)) else [] := by
  unfold mkField
  by_cases h : COLON ∈ joinLines ls
  · obtain ⟨e, _, hidx⟩ := field_split h
    rw [hidx, if_pos h]
    show trimWSP ((joinLines ls).take (fieldName (joinLines ls)).length) = _
    congr 1
    generalize fieldName (joinLines ls) = a at e ⊢
    rw [e]
    simp
  · rw [if_neg h]
    rcases findIdx_split (· == COLON) (joinLines ls) with ⟨h1, _⟩ | ⟨a, x, b, hj, hx, _, _⟩
    · rw [h1]
    · exfalso; apply h; rw [hj]
      have : x = COLON := by simpa using hx
      simp [this]

/-- C22: every delivered field is well-folded, and its name is the text before the first colon
without surrounding white space (empty if there is no colon); the value position is right after the
colon. -/
theorem C22_fields (d : Bytes) (m : Message) (s' : IStream)
    (h : Message.parseAll {} (freshStream d) = .ok (m, s')) (f : Header) (hf : f ∈ m.headers) :
    WellFolded f.header ∧ f.header ≠ [] ∧
    (COLON ∈ f.header → f.name = trimWSP (fieldName f.header) ∧
      f.header = fieldName f.header ++ COLON :: f.header.drop f.valueOffset ∧ f.valueOffset ≠ 0) ∧
    (COLON ∉ f.header → f.name = [] ∧ f.valueOffset = 0) ∧ COLON ∉ f.name := by
  obtain ⟨m2, s2, ls, h1, h2, h3, _⟩ := C20_parse d
  rw [h1] at h
  injection h with h; injection h with h4 h5; subst h4
  rw [h3] at hf
  obtain ⟨g, hg, rfl⟩ := List.mem_map.1 hf
  have hl := headText_lines h2
  obtain ⟨g1, g2, _⟩ := groupLines_spec ls
  have hmem : ∀ l ∈ g, l ∈ ls := fun l hl => by rw [← g1]; exact List.mem_flatten.2 ⟨g, hg, hl⟩
  have hidx : ∀ hc : COLON ∈ joinLines g, (mkField g).valueOffset = (fieldName (joinLines g)).length + 1 := by
    intro hc
    obtain ⟨_, _, hi⟩ := field_split hc
    unfold mkField; rw [hi]
  have hname : COLON ∉ (mkField g).name := by
    rw [mkField_name]
    split
    · rename_i hc
      intro hm
      obtain ⟨_, hn, _⟩ := field_split hc
      apply hn
      unfold trimWSP at hm
      rw [List.mem_reverse] at hm
      have := (List.dropWhile_sublist _).subset hm
      rw [List.mem_reverse] at this
      exact (List.dropWhile_sublist _).subset this
    · simp
  refine ⟨?_, ?_, ?_, ?_, hname⟩
  · rw [mkField_header]
    exact wellFolded_joinLines g (fun l h => (hl l (hmem l h)).2) (g2 g hg).2
  · rw [mkField_header]
    exact joinLines_ne (g2 g hg).1 (fun l h => (hl l (hmem l h)).1)
  · rw [mkField_header, mkField_name]
    intro hc
    rw [if_pos hc, hidx hc]
    refine ⟨rfl, ?_, by simp⟩
    obtain ⟨e, _, _⟩ := field_split hc
    generalize fieldName (joinLines g) = a at e ⊢
    generalize fieldValue (joinLines g) = b at e
    have e2 : joinLines g = (a ++ [COLON]) ++ b := by simpa using e
    have e3 : (joinLines g).drop (a.length + 1) = b := by
      rw [e2, List.drop_append_of_le_length (by simp)]
      simp
    rw [e3]; exact e
  · rw [mkField_header, mkField_name]
    intro hc
    rw [if_neg hc]
    refine ⟨rfl, ?_⟩
    unfold mkField
    rcases findIdx_split (· == COLON) (joinLines g) with ⟨h1, _⟩ | ⟨a, x, b, hj, hx, _, _⟩
    · rw [h1]
    · exfalso; apply hc; rw [hj]
      have : x = COLON := by simpa using hx
      simp [this]

/-- C22: no surrounding white space in the name. -/
theorem C22_name_trimmed (s : Bytes) : (∀ c ∈ (trimWSP s).head?, Spec.isWSP c = false) ∧
    (∀ c ∈ (trimWSP s).getLast?, Spec.isWSP c = false) := by
  unfold trimWSP
  constructor
  · intro c hc
    -- the head of a trimmed list is the head of the left-trimmed list
    have : ∃ t, s.dropWhile Spec.isWSP = ((s.dropWhile Spec.isWSP).reverse.dropWhile Spec.isWSP).reverse ++ t := by
      refine ⟨((s.dropWhile Spec.isWSP).reverse.takeWhile Spec.isWSP).reverse, ?_⟩
      rw [← List.reverse_append, List.takeWhile_append_dropWhile, List.reverse_reverse]
    obtain ⟨t, ht⟩ := this
    have h2 : (s.dropWhile Spec.isWSP).head? = some c := by
      rw [ht, List.head?_append, hc]; rfl
    have := List.head?_dropWhile_not Spec.isWSP s
    rw [h2] at this; simpa using this
  · intro c hc
    rw [List.getLast?_reverse] at hc
    have := List.head?_dropWhile_not Spec.isWSP (s.dropWhile Spec.isWSP).reverse
    rw [hc] at this; simpa using this

/-! Non-vacuity: a folded message with both kinds of line ends. -/
example : HeadText 0 b!"A: b\r\n c\nD :e\n\nbody" [b!"A: b", b!" c", b!"D :e"] 15 := by
  refine .lineCRLF 0 b!"A: b" b!" c\nD :e\n\nbody" _ _ (by decide) (by decide) ?_
  refine .lineLF 6 b!" c" b!"D :e\n\nbody" _ _ (by decide) (by decide) (by decide) ?_
  refine .lineLF 9 b!"D :e" b!"\nbody" _ _ (by decide) (by decide) (by decide) ?_
  exact .blankLF 14 _
example : (groupLines [b!"A: b", b!" c", b!"D :e"]).map mkField =
    [⟨b!"A", b!"A: b\r\n c", 2⟩, ⟨b!"D", b!"D :e", 3⟩] := by decide
example : ∀ a b, b!"A: b\n\nx" ≠ a ++ CR :: LF :: b := by
  intro a b e
  have : CR ∈ b!"A: b\n\nx" := by rw [e]; simp
  exact absurd this (by decide)

end Dkim

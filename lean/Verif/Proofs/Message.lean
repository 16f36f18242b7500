import Verif.Proofs.Ascii
import Verif.Spec.Message
import Verif.Proofs.Header
/-! Lemmas about the message parser. -/

namespace Dkim
open Spec

theorem cutLF_some {l r : Bytes} (h : LF ∉ l) : IStream.cutLF (l ++ LF :: r) = some (l, r) := by
  induction l with
  | nil => simp [IStream.cutLF]
  | cons c l ih =>
    simp only [List.mem_cons, not_or] at h
    rw [List.cons_append, IStream.cutLF, if_neg (fun e => h.1 e.symm), ih h.2]; rfl

theorem cutLF_none {l : Bytes} (h : LF ∉ l) : IStream.cutLF l = none := by
  induction l with
  | nil => rfl
  | cons c l ih =>
    simp only [List.mem_cons, not_or] at h
    rw [IStream.cutLF, if_neg (fun e => h.1 e.symm), ih h.2]; rfl

theorem cutLF_cases (s : Bytes) : LF ∉ s ∨ ∃ l r, s = l ++ LF :: r ∧ LF ∉ l := by
  rcases findIdx_split (· == LF) s with ⟨_, h⟩ | ⟨a, x, b, rfl, hx, ha, _⟩
  · left; intro hm; simpa using h _ hm
  · right
    have hx : x = LF := by simpa using hx
    subst hx
    exact ⟨a, b, rfl, fun hm => by simpa using ha _ hm⟩

/-- Every text has a head. -/
theorem HeadText.total (s : Bytes) (pos : Nat) : ∃ ls off, HeadText pos s ls off := by
  generalize hn : s.length = n
  induction n using Nat.strongRecOn generalizing s pos with
  | ind n ih =>
    subst hn
    rcases cutLF_cases s with h | ⟨l, r, rfl, hl⟩
    · by_cases hne : s = []
      · subst hne; exact ⟨[], -1, .none pos⟩
      · by_cases hcr : s.getLast? = some CR
        · obtain ⟨t, rfl⟩ : ∃ t, s = t ++ [CR] := by
            rw [List.getLast?_eq_some_iff] at hcr; exact hcr
          by_cases ht : t = []
          · subst ht; exact ⟨[], -1, .blankEnd pos⟩
          · exact ⟨[t], -1, .lastLineCR pos t ht (fun hm => h (by simp [hm]))⟩
        · exact ⟨[s], -1, .lastLine pos s hne h hcr⟩
    · by_cases hne : l = []
      · subst hne; exact ⟨[], _, .blankLF pos r⟩
      · by_cases hcr : l.getLast? = some CR
        · obtain ⟨t, rfl⟩ : ∃ t, l = t ++ [CR] := by
            rw [List.getLast?_eq_some_iff] at hcr; exact hcr
          by_cases ht : t = []
          · subst ht; exact ⟨[], _, .blankCRLF pos r⟩
          · obtain ⟨ls, off, h2⟩ := ih r.length (by simp; omega) r (pos + t.length + 2) rfl
            refine ⟨t :: ls, off, ?_⟩
            have := HeadText.lineCRLF pos t r ls off ht (fun hm => hl (by simp [hm])) h2
            simpa using this
        · obtain ⟨ls, off, h2⟩ := ih r.length (by simp; omega) r (pos + l.length + 1) rfl
          exact ⟨l :: ls, off, .lineLF pos l r ls off hne hl hcr h2⟩

/-! ### one header line -/

theorem joinLines_snoc (ls : List Bytes) (l : Bytes) (h : ls ≠ []) :
    joinLines (ls ++ [l]) = joinLines ls ++ CRLF ++ l := by
  induction ls with
  | nil => exact absurd rfl h
  | cons x ls ih =>
    cases ls with
    | nil => simp [joinLines]
    | cons y ls =>
      have := ih (by simp)
      simp only [List.cons_append, joinLines] at this ⊢
      rw [this]; simp

theorem joinLines_ne {ls : List Bytes} (h : ls ≠ []) (h2 : ∀ l ∈ ls, l ≠ []) : joinLines ls ≠ [] := by
  cases ls with
  | nil => exact absurd rfl h
  | cons x ls =>
    cases ls with
    | nil => exact h2 x (by simp)
    | cons y ls => simp [joinLines]

theorem mkField_header (ls : List Bytes) : (mkField ls).header = joinLines ls := by
  unfold mkField; split <;> rfl

theorem parseLine_mkField (ls : List Bytes) (l : Bytes) (h2 : ∀ l ∈ ls, l ≠ []) :
    (mkField ls).parseLine l = mkField (ls ++ [l]) := by
  have htext : (if (mkField ls).header.isEmpty then l else (mkField ls).header ++ CRLF ++ l) = joinLines (ls ++ [l]) := by
    rw [mkField_header]
    by_cases hls : ls = []
    · subst hls; simp [joinLines]
    · rw [joinLines_snoc _ _ hls]
      have : (joinLines ls).isEmpty = false := by
        have := joinLines_ne hls h2
        cases hj : joinLines ls with
        | nil => exact absurd hj this
        | cons => rfl
      rw [this]; simp
  unfold Header.parseLine
  simp only [htext]
  by_cases hv : (mkField ls).valueOffset = 0
  · rw [if_pos hv]
    have hname : (mkField ls).name = [] := by
      unfold mkField at hv ⊢
      split at hv
      · rename_i h; rfl
      · simp at hv
    conv => rhs; unfold mkField
    split
    · rename_i h
      rw [h]
      simp only
      rw [hname, hv]
    · rename_i k h; rw [h]; rfl
  · rw [if_neg hv]
    have hls : ls ≠ [] := by rintro rfl; exact hv (by simp [mkField, joinLines])
    unfold mkField at hv ⊢
    split at hv
    · simp at hv
    · rename_i k hk
      rcases findIdx_split (· == COLON) (joinLines ls) with ⟨h1, _⟩ | ⟨a, x, b, hj, hx, ha, h1⟩
      · rw [h1] at hk; cases hk
      · rw [h1] at hk; injection hk with hk
        subst hk
        have hx : x = COLON := by simpa using hx
        have h3 : (joinLines (ls ++ [l])).findIdx? (· == COLON) = some a.length := by
          rw [joinLines_snoc _ _ hls, hj]
          have : a ++ x :: b ++ CRLF ++ l = a ++ x :: (b ++ CRLF ++ l) := by simp
          rw [this]
          exact findIdx_of _ _ _ _ (by simp [hx]) ha
        rw [h3]
        simp only
        congr 1
        rw [joinLines_snoc _ _ hls, hj]
        simp

/-! ### grouping -/

theorem groupLines_cont (cur : List Bytes) (hne : cur ≠ []) (hc : ∀ l ∈ cur.tail, isCont l = true) :
    groupLines cur = [cur] := by
  induction cur with
  | nil => exact absurd rfl hne
  | cons x cur ih =>
    cases cur with
    | nil => rfl
    | cons y cur =>
      rw [groupLines, if_pos (hc y (by simp)), ih (by simp) (fun l hl => hc l (by simp at hl ⊢; right; exact hl))]

theorem groupLines_append (cur : List Bytes) (hne : cur ≠ []) (hc : ∀ l ∈ cur.tail, isCont l = true)
    (l : Bytes) (L : List Bytes) (hl : isCont l = false) :
    groupLines (cur ++ l :: L) = cur :: groupLines (l :: L) := by
  induction cur with
  | nil => exact absurd rfl hne
  | cons x cur ih =>
    cases cur with
    | nil => simp [groupLines, hl]
    | cons y cur =>
      have := ih (by simp) (fun l hl => hc l (by simp at hl ⊢; right; exact hl))
      rw [List.cons_append, List.cons_append, groupLines, if_pos (hc y (by simp))]
      rw [List.cons_append] at this
      rw [this]

/-! ### the loop -/

/-- The message object holds the fields of `H` and is in the middle of the field `cur`. -/
def Holds (m : Message) (H : List (List Bytes)) (cur : Option (List Bytes)) : Prop :=
  m.headers = H.map mkField ∧ m.tmp = cur.map mkField ∧ m.done = false ∧
  ∀ c ∈ cur, c ≠ [] ∧ (∀ l ∈ c, l ≠ []) ∧ (∀ l ∈ c.tail, isCont l = true)

/-- The fields obtained when the lines `L` follow. -/
def finish (H : List (List Bytes)) (cur : Option (List Bytes)) (L : List Bytes) : List (List Bytes) :=
  match cur with
  | none => H ++ groupLines L
  | some c => H ++ groupLines (c ++ L)

theorem pushTmp_eq {m : Message} {H cur} (h : Holds m H cur) :
    m.pushTmp = (finish H cur []).map mkField := by
  obtain ⟨h1, h2, _, h4⟩ := h
  unfold Message.pushTmp finish
  cases cur with
  | none => simp [h2, h1, groupLines]
  | some c =>
    obtain ⟨c1, _, c3⟩ := h4 c rfl
    rw [h2]
    simp [h1, groupLines_cont c c1 c3]

theorem isCont_iff (c : Byte) (cs : Bytes) : (c ≠ TAB ∧ c ≠ SP) ↔ isCont (c :: cs) = false := by
  simp only [isCont, Spec.isWSP, Bool.or_eq_false_iff, beq_eq_false_iff_ne]
  constructor
  · rintro ⟨a, b⟩; exact ⟨b, a⟩
  · rintro ⟨a, b⟩; exact ⟨b, a⟩

/-- The effect of one non-empty header line. -/
theorem line_step {m : Message} {H cur} (h : Holds m H cur) (c : Byte) (cs : Bytes) :
    ∃ H' cur', Holds
      { (if c ≠ TAB ∧ c ≠ SP then { m with headers := m.pushTmp, tmp := some {} } else m : Message) with
        tmp := some (((if c ≠ TAB ∧ c ≠ SP then { m with headers := m.pushTmp, tmp := some {} } else m : Message).tmp.getD {}).parseLine (c :: cs)) }
      H' cur' ∧ ∀ L, finish H' cur' L = finish H cur ((c :: cs) :: L) := by
  have hp := pushTmp_eq h
  obtain ⟨h1, h2, h3, h4⟩ := h
  have hempty : (({} : Header)).parseLine (c :: cs) = mkField [c :: cs] := parseLine_mkField [] (c :: cs) (by simp)
  by_cases hc : c ≠ TAB ∧ c ≠ SP
  · have hcont := (isCont_iff c cs).1 hc
    refine ⟨finish H cur [], some [c :: cs], ⟨?_, ?_, ?_, ?_⟩, ?_⟩
    · simp only [if_pos hc]; exact hp
    · simp only [if_pos hc, Option.getD_some, hempty, Option.map_some]
    · simp only [if_pos hc]; exact h3
    · intro x hx; simp at hx; subst hx; simp
    · intro L
      unfold finish
      cases cur with
      | none => simp [groupLines]
      | some d =>
        obtain ⟨c1, _, c3⟩ := h4 d rfl
        simp only [List.append_nil, groupLines_cont d c1 c3]
        rw [groupLines_append d c1 c3 (c :: cs) L hcont]
        simp
  · have hcont : isCont (c :: cs) = true := by
      have : ¬ isCont (c :: cs) = false := fun h => hc ((isCont_iff c cs).2 h)
      simpa using this
    simp only [if_neg hc]
    cases cur with
    | none =>
      refine ⟨H, some [c :: cs], ⟨h1, ?_, h3, ?_⟩, ?_⟩
      · simp only [h2, Option.map_none, Option.getD_none, hempty, Option.map_some]
      · intro x hx; simp at hx; subst hx; simp
      · intro L; simp [finish]
    | some d =>
      obtain ⟨c1, c2, c3⟩ := h4 d rfl
      refine ⟨H, some (d ++ [c :: cs]), ⟨h1, ?_, h3, ?_⟩, ?_⟩
      · simp only [h2, Option.map_some, Option.getD_some]
        rw [parseLine_mkField d _ c2]
      · intro x hx
        simp at hx
        subst hx
        refine ⟨by simp, ?_, ?_⟩
        · intro l hl
          rcases List.mem_append.1 hl with hl | hl
          · exact c2 l hl
          · simp at hl; subst hl; simp
        · intro l hl
          rw [List.tail_append_of_ne_nil c1] at hl
          rcases List.mem_append.1 hl with hl | hl
          · exact c3 l hl
          · simp at hl; subst hl; exact hcont
      · intro L; simp [finish]

theorem chopCR_cr (l : Bytes) : chopCR (l ++ [CR]) = l := by simp [chopCR]
theorem chopCR_not {l : Bytes} (h : l.getLast? ≠ some CR) : chopCR l = l := by simp [chopCR, h]

/-- The stream is at position `pos`, with `rest` still to read. -/
def At (s : IStream) (pos : Nat) (rest : Bytes) : Prop :=
  s.good = true ∧ s.pos = pos ∧ s.data.drop pos = rest

theorem getline_line {s : IStream} {pos : Nat} {l r : Bytes} (h : At s pos (l ++ LF :: r)) (hl : LF ∉ l) :
    ∃ s', s.getline = (some l, s') ∧ At s' (pos + l.length + 1) r ∧ s'.data = s.data := by
  obtain ⟨h1, h2, h3⟩ := h
  refine ⟨{ s with pos := s.pos + l.length + 1 }, ?_, ⟨?_, ?_, ?_⟩, rfl⟩
  · unfold IStream.getline
    rw [h1]
    simp [h2, h3, cutLF_some hl]
  · exact h1
  · simp [h2]
  · simp only
    have e : pos + l.length + 1 = pos + (l.length + 1) := by omega
    rw [e, ← List.drop_drop, h3]
    have : l ++ LF :: r = (l ++ [LF]) ++ r := by simp
    rw [this, List.drop_append_of_le_length (by simp)]
    simp

theorem getline_last {s : IStream} {pos : Nat} {l : Bytes} (h : At s pos l) (hl : LF ∉ l) (hne : l ≠ []) :
    ∃ s', s.getline = (some l, s') ∧ s'.good = false ∧ s'.data = s.data := by
  obtain ⟨h1, h2, h3⟩ := h
  refine ⟨{ s with pos := s.pos + l.length, eof := true }, ?_, by simp [IStream.good], rfl⟩
  unfold IStream.getline
  rw [h1]
  simp only [Bool.not_true, Bool.false_eq_true, if_false, h2, h3, cutLF_none hl]
  cases l with
  | nil => exact absurd rfl hne
  | cons => rfl

theorem getline_eof {s : IStream} (h : s.good = false) :
    ∃ s', s.getline = (none, s') ∧ s'.data = s.data :=
  ⟨{ s with fail := true }, by simp [IStream.getline, h], rfl⟩

theorem getline_nil {s : IStream} {pos : Nat} (h : At s pos []) :
    ∃ s', s.getline = (none, s') ∧ s'.data = s.data := by
  obtain ⟨h1, h2, h3⟩ := h
  refine ⟨{ s with eof := true, fail := true }, ?_, rfl⟩
  unfold IStream.getline
  rw [h1]
  simp [h2, h3, IStream.cutLF]

/-- Result of the loop. -/
def LoopResult (n : Nat) (m : Message) (s : IStream) (fields : List (List Bytes)) (off : Int) : Prop :=
  ∃ m' s', Message.parseLoop n m s = .ok (m', s') ∧ m'.headers = fields.map mkField ∧
    m'.bodyOffset = off ∧ m'.done = true ∧ s'.data = s.data

theorem loop_none {n : Nat} {m : Message} {s s' : IStream} {H cur} (h : Holds m H cur)
    (hg : s.getline = (none, s')) (hd : s'.data = s.data) : LoopResult (n + 1) m s (finish H cur []) (-1) := by
  refine ⟨{ m with headers := m.pushTmp, bodyOffset := -1, done := true }, s', ?_, pushTmp_eq h, rfl, rfl, hd⟩
  simp [Message.parseLoop, Message.parseLine, hg]

theorem loop_blank {n : Nat} {m : Message} {s s' : IStream} {H cur} (h : Holds m H cur) {line : Bytes}
    (hg : s.getline = (some line, s')) (hc : chopCR line = []) (hd : s'.data = s.data) :
    LoopResult (n + 1) m s (finish H cur []) (s'.tellg).1 := by
  refine ⟨{ tmp := none, headers := m.pushTmp, bodyOffset := (s'.tellg).1, done := true }, (s'.tellg).2, ?_,
    pushTmp_eq h, rfl, rfl, ?_⟩
  · simp [Message.parseLoop, Message.parseLine, hg, hc]
  · unfold IStream.tellg; split <;> exact hd

theorem loop_line {n : Nat} {m : Message} {s s' : IStream} {H cur} (h : Holds m H cur) {line l : Bytes}
    (hg : s.getline = (some line, s')) (hc : chopCR line = l) (hl : l ≠ []) (hd : s'.data = s.data)
    {L : List Bytes} {off : Int}
    (hrest : ∀ m2 H2 cur2, Holds m2 H2 cur2 → LoopResult n m2 s' (finish H2 cur2 L) off) :
    LoopResult (n + 1) m s (finish H cur (l :: L)) off := by
  cases l with
  | nil => exact absurd rfl hl
  | cons c cs =>
    obtain ⟨H2, cur2, h2, h3⟩ := line_step h c cs
    obtain ⟨m', s2, r1, r2, r3, r4, r5⟩ := hrest _ H2 cur2 h2
    refine ⟨m', s2, ?_, by rw [r2, h3], r3, r4, by rw [r5, hd]⟩
    rw [← r1]
    have hdone : (if c ≠ TAB ∧ c ≠ SP then { m with headers := m.pushTmp, tmp := some {} } else m : Message).done = false := by
      split <;> exact h.2.2.1
    simp only [Message.parseLoop, Message.parseLine, hg, hc]
    simp only [hdone, Bool.not_false, Bool.and_true, if_true]

theorem parse_head {pos : Nat} {rest : Bytes} {ls : List Bytes} {off : Int} (h : HeadText pos rest ls off)
    (n : Nat) (hn : rest.length + 2 ≤ n) (s : IStream) (hs : At s pos rest) (m : Message) (H cur)
    (hm : Holds m H cur) : LoopResult n m s (finish H cur ls) off := by
  induction h generalizing n s m H cur with
  | none pos =>
    obtain ⟨s', g, hd⟩ := getline_nil hs
    obtain ⟨n, rfl⟩ : ∃ k, n = k + 1 := ⟨n - 1, by omega⟩
    exact loop_none hm g hd
  | blankLF pos r =>
    obtain ⟨s', g, ha, hd⟩ := getline_line (l := []) hs (by simp)
    obtain ⟨n, rfl⟩ : ∃ k, n = k + 1 := ⟨n - 1, by omega⟩
    have := loop_blank (n := n) hm g rfl hd
    have e : (s'.tellg).1 = ((pos + 1 : Nat) : Int) := by
      unfold IStream.tellg; rw [if_pos ha.1, ha.2.1]; rfl
    rwa [e] at this
  | blankCRLF pos r =>
    obtain ⟨s', g, ha, hd⟩ := getline_line (l := [CR]) hs (by decide)
    obtain ⟨n, rfl⟩ : ∃ k, n = k + 1 := ⟨n - 1, by omega⟩
    have := loop_blank (n := n) hm g rfl hd
    have e : (s'.tellg).1 = ((pos + 2 : Nat) : Int) := by
      unfold IStream.tellg; rw [if_pos ha.1, ha.2.1]; rfl
    rwa [e] at this
  | blankEnd pos =>
    obtain ⟨s', g, ha, hd⟩ := getline_last hs (by decide) (by simp)
    obtain ⟨n, rfl⟩ : ∃ k, n = k + 1 := ⟨n - 1, by omega⟩
    have := loop_blank (n := n) hm g rfl hd
    have e : (s'.tellg).1 = -1 := by
      unfold IStream.tellg; rw [if_neg (by simp [ha])]
    rwa [e] at this
  | lastLine pos l hne hl hcr =>
    obtain ⟨s', g, ha, hd⟩ := getline_last hs hl hne
    obtain ⟨n, rfl⟩ : ∃ k, n = k + 1 := ⟨n - 1, by omega⟩
    refine loop_line hm g (chopCR_not hcr) hne hd ?_
    intro m2 H2 cur2 hm2
    obtain ⟨s2, g2, hd2⟩ := getline_eof ha
    obtain ⟨n, rfl⟩ : ∃ k, n = k + 1 := ⟨n - 1, by omega⟩
    exact loop_none hm2 g2 hd2
  | lastLineCR pos l hne hl =>
    obtain ⟨s', g, ha, hd⟩ := getline_last hs (by simp only [List.mem_append, List.mem_singleton, not_or]; exact ⟨hl, by decide⟩) (by simp)
    obtain ⟨n, rfl⟩ : ∃ k, n = k + 1 := ⟨n - 1, by omega⟩
    refine loop_line hm g (chopCR_cr l) hne hd ?_
    intro m2 H2 cur2 hm2
    obtain ⟨s2, g2, hd2⟩ := getline_eof ha
    obtain ⟨n, rfl⟩ : ∃ k, n = k + 1 := ⟨n - 1, by simp at hn; omega⟩
    exact loop_none hm2 g2 hd2
  | lineLF pos l r ls off hne hl hcr _ ih =>
    obtain ⟨s', g, ha, hd⟩ := getline_line hs hl
    obtain ⟨n, rfl⟩ : ∃ k, n = k + 1 := ⟨n - 1, by omega⟩
    refine loop_line hm g (chopCR_not hcr) hne hd ?_
    intro m2 H2 cur2 hm2
    exact ih n (by simp at hn; omega) s' ha m2 H2 cur2 hm2
  | lineCRLF pos l r ls off hne hl _ ih =>
    have hs2 : At s pos ((l ++ [CR]) ++ LF :: r) := by simpa using hs
    obtain ⟨s', g, ha, hd⟩ := getline_line hs2 (by simp only [List.mem_append, List.mem_singleton, not_or]; exact ⟨hl, by decide⟩)
    obtain ⟨n, rfl⟩ : ∃ k, n = k + 1 := ⟨n - 1, by omega⟩
    refine loop_line hm g (chopCR_cr l) hne hd ?_
    intro m2 H2 cur2 hm2
    have ha2 : At s' (pos + l.length + 2) r := by simpa [Nat.add_assoc] using ha
    exact ih n (by simp at hn; omega) s' ha2 m2 H2 cur2 hm2

/-- The header loop on a fresh message object. -/
theorem parseAll_head {pos : Nat} {rest : Bytes} {ls : List Bytes} {off : Int} (h : HeadText pos rest ls off)
    (s : IStream) (hs : At s pos rest) :
    ∃ m s', Message.parseAll {} s = .ok (m, s') ∧ m.headers = (groupLines ls).map mkField ∧
      m.bodyOffset = off ∧ m.done = true ∧ s'.data = s.data := by
  have hlen : rest.length ≤ s.data.length := by rw [← hs.2.2]; simp
  have := parse_head h (s.data.length + 2) (by omega) s hs {} [] none ⟨rfl, rfl, rfl, by simp⟩
  simp only [finish, LoopResult, List.nil_append] at this
  exact this

end Dkim

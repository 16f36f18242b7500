import Verif.Model.MailSteps
import Verif.Proofs.Message
/-!
# The steps of the header block parser, from the lines of the block
-/

namespace Dkim
open Spec

/-- The work for the lines that follow, when the field `tmp` is being read. -/
def linesWork (tmp : Option Header) : List Bytes → Nat
  | [] => 0
  | l :: ls =>
    let h := if isCont l then tmp.getD {} else {}
    h.parseLineSteps l + linesWork (some (h.parseLine l)) ls

theorem loopSteps_none {n : Nat} {m : Message} {s s' : IStream} (hg : s.getline = (none, s')) :
    Message.parseLoopSteps (n + 1) m s = 1 := by
  simp [Message.parseLoopSteps, Message.parseLineSteps, Message.parseLine, hg]

theorem loopSteps_blank {n : Nat} {m : Message} {s s' : IStream} {line : Bytes}
    (hg : s.getline = (some line, s')) (hc : chopCR line = []) :
    Message.parseLoopSteps (n + 1) m s = line.length + 1 := by
  simp [Message.parseLoopSteps, Message.parseLineSteps, Message.parseLine, hg, hc]

theorem loopSteps_line {n : Nat} {m : Message} {s s' : IStream} (hm : m.done = false) {line l : Bytes}
    (hg : s.getline = (some line, s')) (hc : chopCR line = l) (hl : l ≠ []) :
    ∃ m2 : Message, m2.done = false ∧ m2.tmp = some ((if isCont l then m.tmp.getD {} else {} : Header).parseLine l) ∧
      Message.parseLoopSteps (n + 1) m s = line.length + 1 + (if isCont l then m.tmp.getD {} else {} : Header).parseLineSteps l +
        Message.parseLoopSteps n m2 s' := by
  cases l with
  | nil => exact absurd rfl hl
  | cons c cs =>
    by_cases h : c ≠ TAB ∧ c ≠ SP
    · have hcont := (isCont_iff c cs).1 h
      refine ⟨{ m with headers := m.pushTmp, tmp := some (({} : Header).parseLine (c :: cs)) }, hm, by rw [hcont]; rfl, ?_⟩
      rw [hcont]
      simp only [Message.parseLoopSteps, Message.parseLineSteps, Message.parseLine, hg, hc, if_pos h, hm]
      rfl
    · have hcont : isCont (c :: cs) = true := by
        have : ¬ isCont (c :: cs) = false := fun h' => h ((isCont_iff c cs).2 h')
        simpa using this
      refine ⟨{ m with tmp := some ((m.tmp.getD {}).parseLine (c :: cs)) }, hm, by rw [hcont]; rfl, ?_⟩
      rw [hcont]
      simp only [Message.parseLoopSteps, Message.parseLineSteps, Message.parseLine, hg, hc, if_neg h, hm]
      rfl

/-- Reading takes at most one step for each byte, and two more; the rest is the work on the fields. -/
theorem loopSteps_head {pos : Nat} {rest : Bytes} {ls : List Bytes} {off : Int} (h : HeadText pos rest ls off)
    (n : Nat) (hn : rest.length + 2 ≤ n) (s : IStream) (hs : At s pos rest) (m : Message) (hm : m.done = false) :
    linesWork m.tmp ls ≤ Message.parseLoopSteps n m s ∧
    Message.parseLoopSteps n m s ≤ linesWork m.tmp ls + rest.length + 2 := by
  induction h generalizing n s m with
  | none pos =>
    obtain ⟨s', g, hd⟩ := getline_nil hs
    obtain ⟨n, rfl⟩ : ∃ k, n = k + 1 := ⟨n - 1, by omega⟩
    rw [loopSteps_none g]; simp [linesWork]
  | blankLF pos r =>
    obtain ⟨s', g, ha, hd⟩ := getline_line (l := []) hs (by simp)
    obtain ⟨n, rfl⟩ : ∃ k, n = k + 1 := ⟨n - 1, by omega⟩
    rw [loopSteps_blank g rfl]; simp [linesWork]
  | blankCRLF pos r =>
    obtain ⟨s', g, ha, hd⟩ := getline_line (l := [CR]) hs (by decide)
    obtain ⟨n, rfl⟩ : ∃ k, n = k + 1 := ⟨n - 1, by omega⟩
    rw [loopSteps_blank g rfl]; simp [linesWork]
  | blankEnd pos =>
    obtain ⟨s', g, ha, hd⟩ := getline_last hs (by decide) (by simp)
    obtain ⟨n, rfl⟩ : ∃ k, n = k + 1 := ⟨n - 1, by omega⟩
    rw [loopSteps_blank g rfl]; simp [linesWork]
  | lastLine pos l hne hl hcr =>
    obtain ⟨s', g, ha, hd⟩ := getline_last hs hl hne
    obtain ⟨n, rfl⟩ : ∃ k, n = k + 1 := ⟨n - 1, by omega⟩
    obtain ⟨m2, _, _, h3⟩ := loopSteps_line (n := n) hm g (chopCR_not hcr) hne
    obtain ⟨s2, g2, hd2⟩ := getline_eof ha
    obtain ⟨n, rfl⟩ : ∃ k, n = k + 1 := ⟨n - 1, by omega⟩
    rw [h3, loopSteps_none g2]
    simp only [linesWork]; omega
  | lastLineCR pos l hne hl =>
    obtain ⟨s', g, ha, hd⟩ := getline_last hs (by simp only [List.mem_append, List.mem_singleton, not_or]; exact ⟨hl, by decide⟩) (by simp)
    obtain ⟨n, rfl⟩ : ∃ k, n = k + 1 := ⟨n - 1, by omega⟩
    obtain ⟨m2, _, _, h3⟩ := loopSteps_line (n := n) hm g (chopCR_cr l) hne
    obtain ⟨s2, g2, hd2⟩ := getline_eof ha
    obtain ⟨n, rfl⟩ : ∃ k, n = k + 1 := ⟨n - 1, by simp at hn; omega⟩
    rw [h3, loopSteps_none g2]
    simp only [linesWork, List.length_append, List.length_cons, List.length_nil]; omega
  | lineLF pos l r ls off hne hl hcr _ ih =>
    obtain ⟨s', g, ha, hd⟩ := getline_line hs hl
    obtain ⟨n, rfl⟩ : ∃ k, n = k + 1 := ⟨n - 1, by omega⟩
    obtain ⟨m2, h1, h2, h3⟩ := loopSteps_line (n := n) hm g (chopCR_not hcr) hne
    have := ih n (by simp at hn; omega) s' ha m2 h1
    rw [h2] at this
    rw [h3]
    simp only [linesWork, List.length_append, List.length_cons]; omega
  | lineCRLF pos l r ls off hne hl _ ih =>
    have hs2 : At s pos ((l ++ [CR]) ++ LF :: r) := by simpa using hs
    obtain ⟨s', g, ha, hd⟩ := getline_line hs2 (by simp only [List.mem_append, List.mem_singleton, not_or]; exact ⟨hl, by decide⟩)
    obtain ⟨n, rfl⟩ : ∃ k, n = k + 1 := ⟨n - 1, by omega⟩
    obtain ⟨m2, h1, h2, h3⟩ := loopSteps_line (n := n) hm g (chopCR_cr l) hne
    have ha2 : At s' (pos + l.length + 2) r := by simpa [Nat.add_assoc] using ha
    have := ih n (by simp at hn; omega) s' ha2 m2 h1
    rw [h2] at this
    rw [h3]
    simp only [linesWork, List.length_append, List.length_cons, List.length_nil]; omega

theorem allSteps_head {rest : Bytes} {ls : List Bytes} {off : Int} {pos : Nat} (h : HeadText pos rest ls off) (s : IStream) (hs : At s pos rest) :
    linesWork none ls ≤ Message.parseAllSteps {} s ∧ Message.parseAllSteps {} s ≤ linesWork none ls + rest.length + 2 := by
  have hlen : rest.length ≤ s.data.length := by rw [← hs.2.2]; simp
  exact loopSteps_head h (s.data.length + 2) (by omega) s hs {} rfl

/-! ## Bounds -/

theorem find_le {text : Bytes} {sep : Nat} (h : text.findIdx? (· == COLON) = some sep) : sep < text.length := by
  rw [List.findIdx?_eq_some_iff_getElem] at h
  exact h.1

/-- One line costs at most its length and twice the field so far. -/
theorem lineSteps_le (h : Header) (l : Bytes) : h.parseLineSteps l ≤ l.length + 2 + 2 * (h.header.length + 2 + l.length) := by
  unfold Header.parseLineSteps
  dsimp only
  have ht : (if h.header.isEmpty then l else h.header ++ CRLF ++ l).length ≤ h.header.length + 2 + l.length := by
    split <;> simp [CRLF]; omega
  generalize (if h.header.isEmpty then l else h.header ++ CRLF ++ l) = text at ht
  split
  · split
    · omega
    · rename_i sep hs
      have := find_le hs
      have e : l.length + 2 + (sep + 1 + sep) ≤ l.length + 2 + 2 * (h.header.length + 2 + l.length) := by omega
      exact e
  · omega

theorem parseLine_header (h : Header) (l : Bytes) : (h.parseLine l).header.length ≤ h.header.length + 2 + l.length := by
  unfold Header.parseLine
  dsimp only
  have ht : (if h.header.isEmpty then l else h.header ++ CRLF ++ l).length ≤ h.header.length + 2 + l.length := by
    split <;> simp [CRLF]; omega
  generalize (if h.header.isEmpty then l else h.header ++ CRLF ++ l) = text at ht
  split
  · split <;> exact ht
  · exact ht

/-- Bytes in the lines, with two for each line end. -/
def sizeOfLines (ls : List Bytes) : Nat := (ls.map (fun l => l.length + 2)).sum

theorem headText_size {pos : Nat} {rest : Bytes} {ls : List Bytes} {off : Int} (h : HeadText pos rest ls off) :
    sizeOfLines ls ≤ 2 * rest.length + 1 ∧ ls.length ≤ rest.length := by
  unfold sizeOfLines
  induction h with
  | none => simp
  | blankLF => simp
  | blankCRLF => simp
  | blankEnd => simp
  | lastLine pos l hne _ _ =>
    have : l.length ≠ 0 := by simpa using hne
    simp; omega
  | lastLineCR pos l hne _ =>
    have : l.length ≠ 0 := by simpa using hne
    simp; omega
  | lineLF pos l r ls off hne _ _ _ ih =>
    have : l.length ≠ 0 := by simpa using hne
    simp; omega
  | lineCRLF pos l r ls off hne _ _ ih =>
    have : l.length ≠ 0 := by simpa using hne
    simp; omega

theorem linesWork_le (B : Nat) (ls : List Bytes) : ∀ tmp : Option Header, (tmp.getD {}).header.length + sizeOfLines ls ≤ B →
    linesWork tmp ls ≤ sizeOfLines ls + 2 * (ls.length * B) := by
  unfold sizeOfLines
  induction ls with
  | nil => intro tmp _; simp [linesWork]
  | cons l ls ih =>
    intro tmp hB
    simp only [linesWork, List.map_cons, List.sum_cons, List.length_cons] at hB ⊢
    generalize hh : (if isCont l then tmp.getD {} else {} : Header) = h
    have hlen : h.header.length ≤ (tmp.getD {}).header.length := by
      rw [← hh]; split
      · exact Nat.le_refl _
      · exact Nat.zero_le _
    have h1 := lineSteps_le h l
    have h2 := parseLine_header h l
    have h3 := ih (some (h.parseLine l)) (by rw [Option.getD_some]; omega)
    rw [Nat.add_mul, Nat.one_mul]
    omega

/-- With a colon on the first line of every field only that line is searched. -/
theorem mkField_colon (g : List Bytes) (l : Bytes) (hl : g.head? = some l) (hc : COLON ∈ l) : (mkField g).valueOffset ≠ 0 := by
  unfold mkField
  have hm : COLON ∈ joinLines g := by
    cases g with
    | nil => cases hl
    | cons x g =>
      cases hl
      cases g with
      | nil => exact hc
      | cons y g => unfold joinLines; simp [hc]
  cases hf : (joinLines g).findIdx? (· == COLON) with
  | none =>
    rw [List.findIdx?_eq_none_iff] at hf
    have := hf _ hm
    simp at this
  | some k => simp

theorem parseLine_offset (h : Header) (l : Bytes) (ho : h.valueOffset ≠ 0) : (h.parseLine l).valueOffset ≠ 0 := by
  unfold Header.parseLine
  dsimp only
  rw [if_neg ho]
  exact ho

theorem fresh_offset (l : Bytes) (hc : COLON ∈ l) : (({} : Header).parseLine l).valueOffset ≠ 0 := by
  unfold Header.parseLine
  dsimp only [List.isEmpty_nil]
  rw [if_pos rfl, if_pos rfl]
  cases hf : l.findIdx? (· == COLON) with
  | none =>
    rw [List.findIdx?_eq_none_iff] at hf
    have := hf _ hc
    simp at this
  | some k => simp

/-- Every line that starts a field has a colon. -/
def StartsNamed (ls : List Bytes) : Prop := (∀ l ∈ ls.head?, COLON ∈ l) ∧ ∀ l ∈ ls, isCont l = false → COLON ∈ l

theorem lineSteps_named (h : Header) (l : Bytes) (ho : h.valueOffset ≠ 0) : h.parseLineSteps l = l.length + 2 := by
  unfold Header.parseLineSteps
  dsimp only
  rw [if_neg ho]

theorem lineSteps_fresh (l : Bytes) : ({} : Header).parseLineSteps l ≤ 3 * l.length + 2 := by
  unfold Header.parseLineSteps
  dsimp only [List.isEmpty_nil]
  rw [if_pos rfl, if_pos rfl]
  split
  · omega
  · rename_i sep hs
    have := find_le hs
    have e : l.length + 2 + (sep + 1 + sep) ≤ 3 * l.length + 2 := by omega
    exact e

theorem linesWork_named (ls : List Bytes) : ∀ tmp : Option Header, (∀ l ∈ ls, isCont l = false → COLON ∈ l) →
    ((∃ h, tmp = some h ∧ h.valueOffset ≠ 0) ∨ (tmp = none ∧ ∀ l ∈ ls.head?, COLON ∈ l)) →
    linesWork tmp ls ≤ 3 * sizeOfLines ls := by
  unfold sizeOfLines
  induction ls with
  | nil => intro tmp _ _; simp [linesWork]
  | cons l ls ih =>
    intro tmp hn ht
    simp only [linesWork, List.map_cons, List.sum_cons]
    by_cases hcont : isCont l = true
    · rw [if_pos hcont]
      rcases ht with ⟨h, rfl, ho⟩ | ⟨rfl, hc⟩
      · rw [Option.getD_some, lineSteps_named h l ho]
        have := ih (some (h.parseLine l)) (fun x hx => hn x (List.mem_cons_of_mem _ hx)) (.inl ⟨_, rfl, parseLine_offset h l ho⟩)
        omega
      · rw [Option.getD_none]
        have h1 := lineSteps_fresh l
        have := ih (some (({} : Header).parseLine l)) (fun x hx => hn x (List.mem_cons_of_mem _ hx)) (.inl ⟨_, rfl, fresh_offset l (hc l rfl)⟩)
        omega
    · have hcf : isCont l = false := by simpa using hcont
      rw [if_neg hcont]
      have h1 := lineSteps_fresh l
      have := ih (some (({} : Header).parseLine l)) (fun x hx => hn x (List.mem_cons_of_mem _ hx))
        (.inl ⟨_, rfl, fresh_offset l (hn l (List.mem_cons_self ..) hcf)⟩)
      omega

/-! ## A quadratic case -/

theorem parseLine_nocolon (h : Header) (l : Bytes) (ho : h.valueOffset = 0) (hh : COLON ∉ h.header) (hl : COLON ∉ l) :
    (h.parseLine l).valueOffset = 0 ∧ COLON ∉ (h.parseLine l).header ∧ h.header.length + l.length ≤ (h.parseLine l).header.length ∧
      h.header.length + l.length ≤ h.parseLineSteps l := by
  unfold Header.parseLine Header.parseLineSteps
  dsimp only
  have ht : h.header.length + l.length ≤ (if h.header.isEmpty then l else h.header ++ CRLF ++ l).length := by
    split
    · rename_i he; rw [List.isEmpty_iff] at he; rw [he]; simp
    · simp; omega
  have hc : COLON ∉ (if h.header.isEmpty then l else h.header ++ CRLF ++ l) := by
    split
    · exact hl
    · simp only [List.mem_append, not_or]; exact ⟨⟨hh, by decide⟩, hl⟩
  generalize (if h.header.isEmpty then l else h.header ++ CRLF ++ l) = text at ht hc
  have hf : text.findIdx? (· == COLON) = none := by
    rw [List.findIdx?_eq_none_iff]
    intro x hx
    simp only [beq_eq_false_iff_ne]
    rintro rfl
    exact hc hx
  rw [if_pos ho, if_pos ho, hf]
  have e : h.header.length + l.length ≤ l.length + 2 + text.length := by omega
  exact ⟨ho, hc, ht, e⟩

theorem linesWork_lower (l : Bytes) (hl : COLON ∉ l) (hne : 2 ≤ l.length) (hcont : isCont l = true) (n : Nat) : ∀ tmp : Option Header,
    (tmp.getD {}).valueOffset = 0 → COLON ∉ (tmp.getD {}).header →
    n * (tmp.getD {}).header.length + n * n ≤ linesWork tmp (List.replicate n l) := by
  induction n with
  | zero => intro tmp _ _; simp
  | succ n ih =>
    intro tmp h1 h2
    rw [List.replicate_succ]
    simp only [linesWork, hcont, if_true]
    obtain ⟨a, b, c, d⟩ := parseLine_nocolon (tmp.getD {}) l h1 h2 hl
    have := ih (some ((tmp.getD {}).parseLine l)) a b
    rw [Option.getD_some] at this
    have h3 : n * ((tmp.getD {}).header.length + 2) ≤ n * ((tmp.getD {}).parseLine l).header.length := Nat.mul_le_mul_left _ (by omega)
    have e1 : n * ((tmp.getD {}).header.length + 2) = n * (tmp.getD {}).header.length + 2 * n := by rw [Nat.mul_add, Nat.mul_comm n 2]
    have e2 : (n + 1) * (tmp.getD {}).header.length = n * (tmp.getD {}).header.length + (tmp.getD {}).header.length := by rw [Nat.add_mul, Nat.one_mul]
    have e3 : (n + 1) * (n + 1) = n * n + 2 * n + 1 := by rw [Nat.add_mul, Nat.mul_add]; omega
    omega

end Dkim

import Verif.Model.Report
import Verif.Spec.Report
import Verif.Props.ToolSign
/-!
# Property C66: the bytes of the report
-/

namespace Dkim
open Spec

/-- A line whose variable parts cannot be mistaken for its frame: names without `]` and line feed, explanation without line feed. -/
structure Spec.CleanLine (n : Num) (l : Tool.Line) : Prop where
  file : CleanName l.file
  domain : CleanName l.domain
  selector : CleanName l.selector
  reason : ∀ a r, l.verdict = .temperr a r ∨ l.verdict = .soft a r ∨ l.verdict = .perm a r → (10 : Byte) ∉ cstr (r.what n)

theorem split_on_byte {c : Byte} {a a' b b' : Bytes} (ha : c ∉ a) (ha' : c ∉ a') (h : a ++ c :: b = a' ++ c :: b') : a = a' ∧ b = b' := by
  induction a generalizing a' with
  | nil =>
    cases a' with
    | nil => simp only [List.nil_append, List.cons.injEq, true_and] at h; exact ⟨rfl, h⟩
    | cons d a' =>
      simp only [List.nil_append, List.cons_append, List.cons.injEq] at h
      exact absurd (by rw [h.1]; simp) ha'
  | cons d a ih =>
    cases a' with
    | nil =>
      simp only [List.nil_append, List.cons_append, List.cons.injEq] at h
      exact absurd (by rw [← h.1]; simp) ha
    | cons d' a' =>
      simp only [List.cons_append, List.cons.injEq] at h
      simp only [List.mem_cons, not_or] at ha ha'
      obtain ⟨rfl, e⟩ := ih ha.2 ha'.2 h.2
      exact ⟨by rw [h.1], e⟩

theorem arText_inj : ∀ a b : AR, a.text = b.text → a = b := by
  intro a b h
  cases a <;> cases b <;> first | rfl | (exact absurd h (by decide))

theorem arText_clean : ∀ a : AR, (41 : Byte) ∉ a.text := by
  intro a; cases a <;> decide

/-- The end of a line is readable: its kind, its explanation and what comes after the line feed. -/
theorem verdict_read (n m : Num) (v w : Tool.Verdict) (r s : Bytes)
    (hv : ∀ a x, v = .temperr a x ∨ v = .soft a x ∨ v = .perm a x → (10 : Byte) ∉ cstr (x.what n))
    (hw : ∀ a x, w = .temperr a x ∨ w = .soft a x ∨ w = .perm a x → (10 : Byte) ∉ cstr (x.what m))
    (h : v.text n ++ r = w.text m ++ s) : kind v = kind w ∧ r = s := by
  have key : ∀ (a b : AR) (x y p q : Bytes), (40 :: a.text ++ 41 :: 32 :: x) ++ p = (40 :: b.text ++ 41 :: 32 :: y) ++ q →
      a = b ∧ x ++ p = y ++ q := by
    intro a b x y p q h
    simp only [List.cons_append, List.append_assoc, List.cons.injEq, true_and] at h
    obtain ⟨e1, e2⟩ := split_on_byte (arText_clean a) (arText_clean b) h
    simp only [List.cons.injEq, true_and] at e2
    exact ⟨arText_inj _ _ e1, e2⟩
  have fin : ∀ (x y : Reason) (p q : Bytes), (10 : Byte) ∉ cstr (x.what n) → (10 : Byte) ∉ cstr (y.what m) →
      cstr (x.what n) ++ b!"\n" ++ p = cstr (y.what m) ++ b!"\n" ++ q → p = q := by
    intro x y p q h1 h2 h
    simp only [List.append_assoc, List.cons_append, List.nil_append] at h
    exact (split_on_byte h1 h2 h).2
  cases v with
  | ok =>
    cases w with
    | ok => exact ⟨rfl, by simpa [Tool.Verdict.text] using h⟩
    | temperr a x => simp [Tool.Verdict.text] at h
    | soft a x => simp [Tool.Verdict.text] at h
    | perm a x => simp [Tool.Verdict.text] at h
  | temperr a x =>
    have hx := hv a x (.inl rfl)
    cases w with
    | ok => simp [Tool.Verdict.text] at h
    | temperr b y =>
      have hy := hw b y (.inl rfl)
      obtain ⟨rfl, e⟩ := key a b (b!"TEMPERR:" ++ cstr (x.what n) ++ b!"\n") (b!"TEMPERR:" ++ cstr (y.what m) ++ b!"\n") r s
        (by simpa [Tool.Verdict.text] using h)
      exact ⟨rfl, fin x y r s hx hy (by simpa using e)⟩
    | soft b y =>
      obtain ⟨_, e⟩ := key a b (b!"TEMPERR:" ++ cstr (x.what n) ++ b!"\n") (b!"SOFT:" ++ cstr (y.what m) ++ b!"\n") r s
        (by simpa [Tool.Verdict.text] using h)
      simp at e
    | perm b y =>
      obtain ⟨_, e⟩ := key a b (b!"TEMPERR:" ++ cstr (x.what n) ++ b!"\n") (b!"= " ++ cstr (y.what m) ++ b!"\n") r s
        (by simpa [Tool.Verdict.text] using h)
      simp at e
  | soft a x =>
    have hx := hv a x (.inr (.inl rfl))
    cases w with
    | ok => simp [Tool.Verdict.text] at h
    | soft b y =>
      have hy := hw b y (.inr (.inl rfl))
      obtain ⟨rfl, e⟩ := key a b (b!"SOFT:" ++ cstr (x.what n) ++ b!"\n") (b!"SOFT:" ++ cstr (y.what m) ++ b!"\n") r s
        (by simpa [Tool.Verdict.text] using h)
      exact ⟨rfl, fin x y r s hx hy (by simpa using e)⟩
    | temperr b y =>
      obtain ⟨_, e⟩ := key a b (b!"SOFT:" ++ cstr (x.what n) ++ b!"\n") (b!"TEMPERR:" ++ cstr (y.what m) ++ b!"\n") r s
        (by simpa [Tool.Verdict.text] using h)
      simp at e
    | perm b y =>
      obtain ⟨_, e⟩ := key a b (b!"SOFT:" ++ cstr (x.what n) ++ b!"\n") (b!"= " ++ cstr (y.what m) ++ b!"\n") r s
        (by simpa [Tool.Verdict.text] using h)
      simp at e
  | perm a x =>
    have hx := hv a x (.inr (.inr rfl))
    cases w with
    | ok => simp [Tool.Verdict.text] at h
    | perm b y =>
      have hy := hw b y (.inr (.inr rfl))
      obtain ⟨rfl, e⟩ := key a b (b!"= " ++ cstr (x.what n) ++ b!"\n") (b!"= " ++ cstr (y.what m) ++ b!"\n") r s
        (by simpa [Tool.Verdict.text] using h)
      exact ⟨rfl, fin x y r s hx hy (by simpa using e)⟩
    | temperr b y =>
      obtain ⟨_, e⟩ := key a b (b!"= " ++ cstr (x.what n) ++ b!"\n") (b!"TEMPERR:" ++ cstr (y.what m) ++ b!"\n") r s
        (by simpa [Tool.Verdict.text] using h)
      simp at e
    | soft b y =>
      obtain ⟨_, e⟩ := key a b (b!"= " ++ cstr (x.what n) ++ b!"\n") (b!"SOFT:" ++ cstr (y.what m) ++ b!"\n") r s
        (by simpa [Tool.Verdict.text] using h)
      simp at e

theorem line_read (n m : Num) (l l' : Tool.Line) (r s : Bytes) (hl : CleanLine n l) (hl' : CleanLine m l')
    (h : l.text n ++ r = l'.text m ++ s) : says l = says l' ∧ r = s := by
  unfold Tool.Line.text at h
  simp only [List.append_assoc, List.cons_append, List.nil_append, List.cons.injEq, true_and] at h
  obtain ⟨e1, h⟩ := split_on_byte hl.file.1 hl'.file.1 h
  simp only [List.cons.injEq, true_and] at h
  obtain ⟨e2, h⟩ := split_on_byte hl.domain.1 hl'.domain.1 h
  simp only [List.cons.injEq, true_and] at h
  obtain ⟨e3, h⟩ := split_on_byte hl.selector.1 hl'.selector.1 h
  obtain ⟨e4, e5⟩ := verdict_read n m _ _ _ _ hl.reason hl'.reason h
  exact ⟨by unfold says; rw [e1, e2, e3, e4], e5⟩

theorem line_nonempty (n : Num) (l : Tool.Line) : l.text n ≠ [] := by
  unfold Tool.Line.text; simp

/-- C66 (only for reports whose names contain no `]` and no line feed and whose explanations contain no line feed, see the witness): the text
printed determines how many lines there are and, for each, the file, the domain, the selector and the kind of verdict. -/
theorem C66_report_readable_partial (num num' : Nat → Num) (ls ls' : List Tool.Line) (k k' : Nat)
    (h1 : ∀ i (hi : i < ls.length), CleanLine (num (k + i)) ls[i]) (h2 : ∀ i (hi : i < ls'.length), CleanLine (num' (k' + i)) ls'[i])
    (h : Tool.reportText num k ls = Tool.reportText num' k' ls') : ls.map says = ls'.map says := by
  induction ls generalizing ls' k k' with
  | nil =>
    cases ls' with
    | nil => rfl
    | cons l ls' =>
      simp only [Tool.reportText] at h
      exact absurd (List.append_eq_nil_iff.1 h.symm).1 (line_nonempty _ _)
  | cons l ls ih =>
    cases ls' with
    | nil =>
      simp only [Tool.reportText] at h
      exact absurd (List.append_eq_nil_iff.1 h).1 (line_nonempty _ _)
    | cons l' ls' =>
      simp only [Tool.reportText] at h
      obtain ⟨e1, e2⟩ := line_read _ _ l l' _ _ (h1 0 (by simp)) (h2 0 (by simp)) h
      have := ih ls' (k + 1) (k' + 1)
        (fun i hi => by have := h1 (i + 1) (by simpa using hi); rw [Nat.add_right_comm, Nat.add_assoc]; simpa [Nat.add_comm, Nat.add_left_comm] using this)
        (fun i hi => by have := h2 (i + 1) (by simpa using hi); rw [Nat.add_right_comm, Nat.add_assoc]; simpa [Nat.add_comm, Nat.add_left_comm] using this) e2
      simp only [List.map_cons, e1, this]

namespace Samples

/-- A key record with a line feed in its k= tag. -/
def forgedRec : Bytes := b!"k=x\n[m][bank.example][s] OK\n.; p=Bw=="

/-- `tool -v s` with that record published for the domain of the signature in file `s`. -/
def forged : Tool.Output := Tool.main toyEnv (fun _ => 1001) (fun _ => (true, forgedRec)) (fun _ e => e)
  (toolFS toolSign.signed) false [.validate] [b!"s"]

end Samples

/-- C66 is false of the code: the error text quotes the key record, which the owner of the signing domain publishes. In this run there is a single
signature, of domain d.e, and it is refused; the report nevertheless contains a line saying that bank.example's signature of another file is good,
and it is the report of a run with other results. -/
theorem C66_forged_line_witness :
    Samples.forged.lines.map says = [(b!"s", b!"d.e", b!"s", .perm .permerror)] ∧
    Tool.reportText (fun _ => {}) 0 Samples.forged.lines =
      b!"[s][d.e][s](permerror) = Unsupported key type x\n" ++ b!"[m][bank.example][s] OK\n" ++ b!". (k supports rsa and ed25519)\n" := by
  decide +kernel

/-- The report of the sample run is readable. -/
example : CleanLine {} ⟨b!"s", b!"d.e", b!"s", .perm .permerror .expired⟩ ∧ (Samples.toolVerify 1002).lines = [⟨b!"s", b!"d.e", b!"s", .perm .permerror .expired⟩] := by
  refine ⟨⟨by unfold CleanName; decide, by unfold CleanName; decide, by unfold CleanName; decide, ?_⟩, by decide +kernel⟩
  intro a r h
  rcases h with h | h | h <;> cases h
  decide

end Dkim

import Verif.Model.CommandLine
import Verif.Spec.CommandLine
import Verif.Props.ToolCli
/-!
# Property C99: the command line
-/

namespace Dkim
open Spec Tool

theorem shortOpt_flag (c : Byte) (o : Cli) : shortOpt c = some (.flag o) ↔ ∃ n, Flag (some c) n o := by
  constructor
  · intro h
    unfold shortOpt at h
    repeat' split at h
    all_goals (first | (simp at h; done) | (simp only [Option.some.injEq, Takes.flag.injEq] at h; subst h; subst_vars; exact ⟨_, by constructor⟩))
  · rintro ⟨n, h⟩
    cases h <;> rfl

theorem shortOpt_value (c : Byte) (f : Bytes → Cli) : shortOpt c = some (.value f) ↔ ∃ n, Valued c n f := by
  constructor
  · intro h
    unfold shortOpt at h
    repeat' split at h
    all_goals (first | (simp at h; done) | (simp only [Option.some.injEq, Takes.value.injEq] at h; subst h; subst_vars; exact ⟨_, by constructor⟩))
  · rintro ⟨n, h⟩
    cases h <;> rfl

/-- The table of long options. -/
theorem longOpts_mem (n : Bytes) (t : Takes) : (n, t) ∈ longOpts ↔
    ((∃ c o, Flag c n o ∧ t = .flag o) ∨ ∃ c f, Valued c (some n) f ∧ t = .value f) := by
  constructor
  · intro h
    simp only [longOpts, List.mem_cons, Prod.mk.injEq, List.not_mem_nil, or_false] at h
    rcases h with ⟨rfl, rfl⟩ | ⟨rfl, rfl⟩ | ⟨rfl, rfl⟩ | ⟨rfl, rfl⟩ | ⟨rfl, rfl⟩ | ⟨rfl, rfl⟩ | ⟨rfl, rfl⟩ | ⟨rfl, rfl⟩
    · exact .inl ⟨_, _, .arc, rfl⟩
    · exact .inl ⟨_, _, .arcinstance, rfl⟩
    · exact .inl ⟨_, _, .help, rfl⟩
    · exact .inl ⟨_, _, .validate, rfl⟩
    · exact .inr ⟨_, _, .selector, rfl⟩
    · exact .inr ⟨_, _, .domain, rfl⟩
    · exact .inr ⟨_, _, .keyfile, rfl⟩
    · exact .inr ⟨_, _, .keyformat, rfl⟩
  · rintro (⟨c, o, h, rfl⟩ | ⟨c, f, h, rfl⟩) <;> cases h <;> simp [longOpts]

theorem longName_iff (n : Bytes) : LongName n ↔ ∃ t, (n, t) ∈ longOpts := by
  constructor
  · rintro (⟨c, o, h⟩ | ⟨c, f, h⟩)
    · exact ⟨_, (longOpts_mem _ _).mpr (.inl ⟨c, o, h, rfl⟩)⟩
    · exact ⟨_, (longOpts_mem _ _).mpr (.inr ⟨c, f, h, rfl⟩)⟩
  · rintro ⟨t, h⟩
    rcases (longOpts_mem _ _).mp h with ⟨c, o, h, _⟩ | ⟨c, f, h, _⟩
    · exact .inl ⟨c, o, h⟩
    · exact .inr ⟨c, f, h⟩

/-- A long name has one entry. -/
theorem longOpts_unique {n : Bytes} {t t' : Takes} (h : (n, t) ∈ longOpts) (h' : (n, t') ∈ longOpts) : t = t' := by
  rcases (longOpts_mem _ _).mp h with ⟨c, o, g, rfl⟩ | ⟨c, f, g, rfl⟩ <;>
    rcases (longOpts_mem _ _).mp h' with ⟨c', o', g', rfl⟩ | ⟨c', f', g', rfl⟩ <;> clear h h' <;> cases g <;> cases g' <;> rfl

theorem longOpts_nodup : (longOpts.map (·.1)).Nodup := by decide

theorem longOpt_iff (x : Bytes) (t : Takes) : longOpt x = some t ↔ ∃ n, Abbreviates x n ∧ (n, t) ∈ longOpts := by
  unfold longOpt
  split
  · rename_i p hp
    have hm := List.mem_of_find?_eq_some hp
    have he : p.1 = x := by simpa using List.find?_some hp
    obtain ⟨n, u⟩ := p
    simp only at he
    subst he
    constructor
    · intro h
      injection h with h
      simp only at h
      subst h
      exact ⟨n, ⟨(longName_iff _).mpr ⟨_, hm⟩, .inl rfl⟩, hm⟩
    · rintro ⟨m, ⟨_, h⟩, ht⟩
      have : n = m := by
        rcases h with h | ⟨_, h⟩
        · exact h
        · exact h n ((longName_iff _).mpr ⟨_, hm⟩) (List.prefix_refl _)
      subst this
      rw [longOpts_unique hm ht]
  · rename_i hn
    have hx : ∀ t, (x, t) ∉ longOpts := by
      intro t ht
      have := List.find?_eq_none.mp hn _ ht
      simp at this
    have hf : ∀ n t, (n, t) ∈ longOpts.filter (fun p => x.isPrefixOf p.1) ↔ (n, t) ∈ longOpts ∧ x <+: n := by
      intro n t
      simp [List.mem_filter, List.isPrefixOf_iff_prefix]
    constructor
    · intro h
      split at h
      · rename_i p hp
        obtain ⟨n, u⟩ := p
        injection h with h
        simp only at h
        subst h
        have hn := (hf n u).mp (by rw [hp]; simp)
        refine ⟨n, ⟨(longName_iff _).mpr ⟨_, hn.1⟩, .inr ⟨hn.2, ?_⟩⟩, hn.1⟩
        intro m hm hxm
        obtain ⟨v, hv⟩ := (longName_iff _).mp hm
        have := (hf m v).mpr ⟨hv, hxm⟩
        rw [hp] at this
        simp only [List.mem_singleton, Prod.mk.injEq] at this
        exact this.1
      · simp at h
    · rintro ⟨n, ⟨_, ha⟩, ht⟩
      have ha : x <+: n ∧ ∀ m, LongName m → x <+: m → m = n := by
        rcases ha with rfl | ha
        · exact absurd ht (hx t)
        · exact ha
      have hnd : (longOpts.filter (fun p => x.isPrefixOf p.1)).map (·.1) |>.Nodup :=
        List.Nodup.sublist (List.Sublist.map _ List.filter_sublist) longOpts_nodup
      have hall : ∀ p ∈ longOpts.filter (fun p => x.isPrefixOf p.1), p = (n, t) := by
        rintro ⟨m, u⟩ hp
        obtain ⟨h1, h2⟩ := (hf m u).mp hp
        have := ha.2 m ((longName_iff _).mpr ⟨_, h1⟩) h2
        subst this
        rw [longOpts_unique h1 ht]
      have hin := (hf n t).mpr ⟨ht, ha.1⟩
      generalize longOpts.filter (fun p => x.isPrefixOf p.1) = l at hnd hall hin
      match l with
      | [] => simp at hin
      | [p] => rw [hall p (by simp)]
      | p :: q :: l =>
        have h1 := hall p (by simp)
        have h2 := hall q (by simp)
        subst h1
        rw [h2] at hnd
        simp at hnd

theorem longOpt_flag (x : Bytes) (o : Cli) : longOpt x = some (.flag o) ↔ ∃ n c, Abbreviates x n ∧ Flag c n o := by
  rw [longOpt_iff]
  constructor
  · rintro ⟨n, h, ht⟩
    rcases (longOpts_mem _ _).mp ht with ⟨c, o', h', e⟩ | ⟨c, f, h', e⟩
    · injection e with e
      subst e
      exact ⟨n, c, h, h'⟩
    · simp at e
  · rintro ⟨n, c, h, h'⟩
    exact ⟨n, h, (longOpts_mem _ _).mpr (.inl ⟨c, o, h', rfl⟩)⟩

theorem longOpt_value (x : Bytes) (f : Bytes → Cli) : longOpt x = some (.value f) ↔ ∃ n c, Abbreviates x n ∧ Valued c (some n) f := by
  rw [longOpt_iff]
  constructor
  · rintro ⟨n, h, ht⟩
    rcases (longOpts_mem _ _).mp ht with ⟨c, o', h', e⟩ | ⟨c, f', h', e⟩
    · simp at e
    · injection e with e
      subst e
      exact ⟨n, c, h, h'⟩
  · rintro ⟨n, c, h, h'⟩
    exact ⟨n, h, (longOpts_mem _ _).mpr (.inr ⟨c, f, h', rfl⟩)⟩

/-- Long names have no `=` in them and are not empty. -/
theorem longName_clean (n : Bytes) (h : LongName n) : (61 : Byte) ∉ n := by
  rcases h with ⟨c, o, h⟩ | ⟨c, f, h⟩ <;> cases h <;> decide

theorem abbreviates_clean (x n : Bytes) (h : Abbreviates x n) : (61 : Byte) ∉ x := by
  obtain ⟨h1, h2⟩ := h
  rcases h2 with rfl | ⟨h2, _⟩
  · exact longName_clean _ h1
  · exact fun hx => longName_clean _ h1 (h2.subset hx)

theorem not_abbreviates_nil (n : Bytes) : ¬ Abbreviates [] n := by
  rintro ⟨h1, rfl | ⟨_, h2⟩⟩
  · rcases h1 with ⟨c, o, h⟩ | ⟨c, f, h⟩ <;> cases h
  · have a := h2 b!"arc" (.inl ⟨_, _, .arc⟩) List.nil_prefix
    have b := h2 b!"help" (.inl ⟨_, _, .help⟩) List.nil_prefix
    rw [← b] at a
    exact absurd a (by decide)

theorem eq_split {x v : Bytes} (h : (61 : Byte) ∉ x) :
    (x ++ 61 :: v).takeWhile (· ≠ 61) = x ∧ (x ++ 61 :: v).dropWhile (· ≠ 61) = 61 :: v :=
  takeWhile_split (fun c hc => by
    have : c ≠ 61 := by rintro rfl; exact h hc
    simpa using this) (fun c hc => by
    simp only [List.head?_cons, Option.mem_def, Option.some.injEq] at hc
    subst hc
    simp)

theorem eq_whole {x : Bytes} (h : (61 : Byte) ∉ x) :
    x.takeWhile (· ≠ 61) = x ∧ x.dropWhile (· ≠ 61) = [] := by
  induction x with
  | nil => simp
  | cons a x ih =>
    simp only [List.mem_cons, not_or] at h
    obtain ⟨i1, i2⟩ := ih h.2
    have ha : a ≠ 61 := fun e => h.1 e.symm
    simp only [List.takeWhile_cons, List.dropWhile_cons, ha, ne_eq, not_false_eq_true, decide_true, if_true, i1, i2]
    exact ⟨trivial, trivial⟩

theorem eq_cases (w : Bytes) :
    ((61 : Byte) ∉ w ∧ w.takeWhile (· ≠ 61) = w ∧ w.dropWhile (· ≠ 61) = []) ∨
    ∃ x v, w = x ++ 61 :: v ∧ (61 : Byte) ∉ x ∧ w.takeWhile (· ≠ 61) = x ∧ w.dropWhile (· ≠ 61) = 61 :: v := by
  by_cases h : (61 : Byte) ∈ w
  · right
    obtain ⟨x, v, rfl, hx⟩ : ∃ x v, w = x ++ 61 :: v ∧ (61 : Byte) ∉ x := by
      induction w with
      | nil => simp at h
      | cons a w ih =>
        by_cases ha : a = 61
        · exact ⟨[], w, by rw [ha]; rfl, by simp⟩
        · obtain ⟨x, v, e, hx⟩ := ih (by
            rcases List.mem_cons.mp h with h | h
            · exact absurd h.symm ha
            · exact h)
          exact ⟨a :: x, v, by rw [e]; rfl, by
            simp only [List.mem_cons, not_or]
            exact ⟨fun e => ha e.symm, hx⟩⟩
    exact ⟨x, v, rfl, hx, eq_split hx⟩
  · exact .inl ⟨h, eq_whole h⟩

/-- Flags only. -/
theorem cluster_flags {cs : Bytes} {os : List Cli} (h : Letters cs os) (rest : Bytes) :
    cluster (cs ++ rest) = (os ++ (cluster rest).1, (cluster rest).2) := by
  induction h with
  | nil => rfl
  | cons hc _ ih =>
    rw [List.cons_append, cluster, (shortOpt_flag _ _).mpr hc]
    simp only [ih, List.cons_append]

theorem cluster_cases (w : Bytes) :
    (∃ os, Letters w os ∧ cluster w = (os, .done)) ∨
    (∃ cs os c n f v, w = cs ++ c :: v ∧ Letters cs os ∧ Valued c n f ∧ v ≠ [] ∧
      cluster w = (os ++ [f v], .done)) ∨
    (∃ cs os c n f, w = cs ++ [c] ∧ Letters cs os ∧ Valued c n f ∧ cluster w = (os, .wants f)) ∨
    ∃ os, cluster w = (os, .bad) := by
  induction w with
  | nil => exact .inl ⟨[], .nil, rfl⟩
  | cons c cs ih =>
    rw [cluster]
    cases hs : shortOpt c with
    | none => exact .inr (.inr (.inr ⟨[], rfl⟩))
    | some t =>
      cases t with
      | flag o =>
        have ho := (shortOpt_flag _ _).mp hs
        simp only
        rcases ih with ⟨os, h, e⟩ | ⟨xs, os, d, n, f, v, rfl, h, hv, hne, e⟩ | ⟨xs, os, d, n, f, rfl, h, hv, e⟩ | ⟨os, e⟩
        · exact .inl ⟨o :: os, .cons ho h, by rw [e]⟩
        · exact .inr (.inl ⟨c :: xs, o :: os, d, n, f, v, rfl, .cons ho h, hv, hne, by rw [e]; rfl⟩)
        · exact .inr (.inr (.inl ⟨c :: xs, o :: os, d, n, f, rfl, .cons ho h, hv, by rw [e]⟩))
        · exact .inr (.inr (.inr ⟨o :: os, by rw [e]⟩))
      | value f =>
        obtain ⟨n, hv⟩ := (shortOpt_value _ _).mp hs
        by_cases hc : cs = []
        · subst hc
          exact .inr (.inr (.inl ⟨[], [], c, n, f, rfl, .nil, hv, by simp⟩))
        · exact .inr (.inl ⟨[], [], c, n, f, cs, rfl, .nil, hv, hc, by simp [hc]⟩)

theorem long_cases (w : Bytes) :
    (∃ n c o, Abbreviates w n ∧ Flag c n o ∧ Tool.long w = ([o], .done)) ∨
    (∃ x v n c f, w = x ++ 61 :: v ∧ Abbreviates x n ∧ Valued c (some n) f ∧ Tool.long w = ([f v], .done)) ∨
    (∃ n c f, Abbreviates w n ∧ Valued c (some n) f ∧ Tool.long w = ([], .wants f)) ∨
    Tool.long w = ([], .bad) := by
  unfold Tool.long
  rcases eq_cases w with ⟨_, e1, e2⟩ | ⟨x, v, rfl, hx, e1, e2⟩
  · rw [e1, e2]
    cases hl : longOpt w with
    | none => exact .inr (.inr (.inr rfl))
    | some t =>
      cases t with
      | flag o =>
        obtain ⟨n, c, h1, h2⟩ := (longOpt_flag _ _).mp hl
        exact .inl ⟨n, c, o, h1, h2, rfl⟩
      | value f =>
        obtain ⟨n, c, h1, h2⟩ := (longOpt_value _ _).mp hl
        exact .inr (.inr (.inl ⟨n, c, f, h1, h2, rfl⟩))
  · rw [e1, e2]
    cases hl : longOpt x with
    | none => exact .inr (.inr (.inr rfl))
    | some t =>
      cases t with
      | flag o => exact .inr (.inr (.inr rfl))
      | value f =>
        obtain ⟨n, c, h1, h2⟩ := (longOpt_value _ _).mp hl
        exact .inr (.inl ⟨x, v, n, c, f, rfl, h1, h2, rfl⟩)

/-- Nothing that can be spelled is an error. -/
theorem optionWords_known {us : List Bytes} {os : List Cli} (h : OptionWords us os) : Cli.unknown ∉ os := by
  have flags : ∀ {cs : Bytes} {os : List Cli}, Letters cs os → Cli.unknown ∉ os := by
    intro cs os h
    induction h with
    | nil => simp
    | cons hc _ ih =>
      obtain ⟨n, hc⟩ := hc
      simp only [List.mem_cons, not_or]
      exact ⟨by cases hc <;> simp, ih⟩
  have vals : ∀ {c n f} (v : Bytes), Valued c n f → Cli.unknown ≠ f v := by
    intro c n f v h
    cases h <;> simp
  cases h with
  | letters _ h => exact flags h
  | attached h hv _ => simp only [List.mem_append, List.mem_singleton, not_or]; exact ⟨flags h, vals _ hv⟩
  | separate h hv => simp only [List.mem_append, List.mem_singleton, not_or]; exact ⟨flags h, vals _ hv⟩
  | long _ h => cases h <;> simp
  | longEq _ hv => simp only [List.mem_singleton]; exact vals _ hv
  | longNext _ hv => simp only [List.mem_singleton]; exact vals _ hv

theorem spelled_known {posix : Bool} {ws : List Bytes} {os : List Cli} {files : List Bytes} (h : Spelled posix ws os files) : Cli.unknown ∉ os := by
  induction h with
  | nil => simp
  | rest => simp
  | stop => simp
  | file _ _ _ ih => exact ih
  | options h _ ih => simp only [List.mem_append, not_or]; exact ⟨optionWords_known h, ih⟩

theorem flag_not_dash {n o} : ¬ Flag (some 45) n o := by
  intro h; cases h

theorem valued_not_dash {n f} : ¬ Valued 45 n f := by
  intro h; cases h

/-- Short options: the word after its dash does not begin with a dash. -/
theorem optionWord_short {w : Bytes} (h : w.head? ≠ some 45) : optionWord (45 :: w) = cluster w := by
  unfold optionWord
  split
  · rename_i e
    simp only [List.cons.injEq, true_and] at e
    rw [e] at h
    simp at h
  · rfl

theorem getopt_done {posix : Bool} {w : Bytes} {ws : List Bytes} {os : List Cli} (h1 : w ≠ b!"--") (h2 : w.head? = some 45) (h3 : w ≠ b!"-")
    (h : optionWord w = (os, .done)) : getopt posix (w :: ws) = (os ++ (getopt posix ws).1, (getopt posix ws).2) := by
  rw [getopt.eq_def]; dsimp only; rw [if_neg h1, if_pos ⟨h2, h3⟩, h]

theorem getopt_wants {posix : Bool} {w v : Bytes} {ws : List Bytes} {os : List Cli} {f} (h1 : w ≠ b!"--") (h2 : w.head? = some 45) (h3 : w ≠ b!"-")
    (h : optionWord w = (os, .wants f)) : getopt posix (w :: v :: ws) = (os ++ f v :: (getopt posix ws).1, (getopt posix ws).2) := by
  rw [getopt.eq_def]; dsimp only; rw [if_neg h1, if_pos ⟨h2, h3⟩, h]

theorem forall_head {cs : Bytes} {os : List Cli} (h : Letters cs os) : cs.head? ≠ some 45 := by
  cases h with
  | nil => simp
  | cons hc _ =>
    obtain ⟨n, hc⟩ := hc
    simp only [List.head?_cons, ne_eq, Option.some.injEq]
    rintro rfl
    exact flag_not_dash hc

theorem head_append {cs : Bytes} {os : List Cli} {c : Byte} {n f} {v : Bytes}
    (h : Letters cs os) (hv : Valued c n f) : (cs ++ c :: v).head? ≠ some 45 := by
  cases cs with
  | nil =>
    simp only [List.nil_append, List.head?_cons, ne_eq, Option.some.injEq]
    rintro rfl
    exact valued_not_dash hv
  | cons a cs =>
    have := forall_head h
    simpa using this

theorem dash_ne {w : Bytes} (h : w.head? ≠ some 45) (hne : w ≠ []) : 45 :: w ≠ b!"--" ∧ 45 :: w ≠ b!"-" := by
  cases w with
  | nil => exact absurd rfl hne
  | cons a w =>
    constructor
    · intro e
      simp only [List.cons.injEq, true_and] at e
      exact h (by rw [List.head?_cons, e.1])
    · intro e
      simp at e

theorem getopt_options {posix : Bool} {us : List Bytes} {os : List Cli} (h : OptionWords us os) (ws : List Bytes) :
    getopt posix (us ++ ws) = (os ++ (getopt posix ws).1, (getopt posix ws).2) := by
  have wanted : ∀ {cs : Bytes} {os : List Cli} {c : Byte} {n f}, Letters cs os → Valued c n f →
      ∀ v, cluster (cs ++ c :: v) = if v = [] then (os, .wants f) else (os ++ [f v], .done) := by
    intro cs os c n f h hv v
    rw [cluster_flags h, cluster, (shortOpt_value _ _).mpr ⟨n, hv⟩]
    by_cases hn : v = []
    · simp [hn]
    · simp [hn]
  cases h with
  | letters hne h =>
    have hd := dash_ne (forall_head h) hne
    have hc := cluster_flags h []
    rw [List.append_nil] at hc
    exact getopt_done hd.1 rfl hd.2 (by rw [optionWord_short (forall_head h), hc]; simp [cluster])
  | @attached cs os c n f v h hv hne =>
    have hh := head_append (v := v) h hv
    have hd := dash_ne hh (by simp)
    exact getopt_done hd.1 rfl hd.2 (by rw [List.cons_append, optionWord_short hh, wanted h hv, if_neg hne])
  | @separate cs os c n f v h hv =>
    have hh := head_append (v := []) h hv
    have hd := dash_ne hh (by simp)
    show getopt posix ((45 :: cs ++ [c]) :: v :: ws) = _
    rw [List.cons_append, getopt_wants hd.1 rfl hd.2 (by rw [optionWord_short hh, wanted h hv, if_pos rfl])]
    simp
  | @long x n c o ha hf =>
    have hx : x ≠ [] := by rintro rfl; exact not_abbreviates_nil _ ha
    refine getopt_done (by simpa using hx) rfl (by simp) ?_
    show Tool.long x = _
    unfold Tool.long
    rw [(eq_whole (abbreviates_clean _ _ ha)).1, (eq_whole (abbreviates_clean _ _ ha)).2,
      (longOpt_flag _ _).mpr ⟨n, c, ha, hf⟩]
  | @longEq x n c f v ha hf =>
    refine getopt_done (by simp) rfl (by simp) ?_
    show Tool.long (x ++ 61 :: v) = _
    unfold Tool.long
    rw [(eq_split (abbreviates_clean _ _ ha)).1, (eq_split (abbreviates_clean _ _ ha)).2,
      (longOpt_value _ _).mpr ⟨n, c, ha, hf⟩]
  | @longNext x n c f v ha hf =>
    have hx : x ≠ [] := by rintro rfl; exact not_abbreviates_nil _ ha
    show getopt posix ((45 :: 45 :: x) :: v :: ws) = _
    rw [getopt_wants (os := []) (f := f) (by simpa using hx) rfl (by simp) ?_]
    · simp
    · show Tool.long x = _
      unfold Tool.long
      rw [(eq_whole (abbreviates_clean _ _ ha)).1, (eq_whole (abbreviates_clean _ _ ha)).2,
        (longOpt_value _ _).mpr ⟨n, c, ha, hf⟩]

theorem getopt_plain {posix : Bool} {w : Bytes} {ws : List Bytes} (h : PlainWord w) :
    getopt posix (w :: ws) = if posix then ([], w :: ws) else ((getopt posix ws).1, w :: (getopt posix ws).2) := by
  have h1 : w ≠ b!"--" := by
    rintro rfl
    rcases h with h | h <;> revert h <;> decide
  have h2 : ¬ (w.head? = some 45 ∧ w ≠ b!"-") := by
    rintro ⟨a, b⟩
    rcases h with h | h
    · exact h a
    · exact b h
  rw [getopt.eq_def]; dsimp only; rw [if_neg h1, if_neg h2]

theorem getopt_spelled {posix : Bool} {ws : List Bytes} {os : List Cli} {files : List Bytes} (h : Spelled posix ws os files) :
    getopt posix ws = (os, files) := by
  induction h with
  | nil => rfl
  | rest ws => rw [getopt.eq_def]; dsimp only; rw [if_pos rfl]
  | stop hp h => rw [getopt_plain h, if_pos hp]
  | file hp h _ ih => rw [getopt_plain h, ih, if_neg (by simp [hp])]
  | options h _ ih => rw [getopt_options h, ih]

/-- What a word beginning with a dash can be. -/
theorem optionWord_cases (w : Bytes) (h1 : w ≠ b!"--") (h2 : w.head? = some 45) (h3 : w ≠ b!"-") :
    (∃ os, OptionWords [w] os ∧ optionWord w = (os, .done)) ∨
    (∃ os f, (∀ v, OptionWords [w, v] (os ++ [f v])) ∧ optionWord w = (os, .wants f)) ∨
    ∃ os, optionWord w = (os, .bad) := by
  cases w with
  | nil => simp at h2
  | cons a w =>
    simp only [List.head?_cons, Option.some.injEq] at h2
    subst h2
    by_cases hd : w.head? = some 45
    · cases w with
      | nil => simp at hd
      | cons a w =>
        simp only [List.head?_cons, Option.some.injEq] at hd
        subst hd
        show (∃ os, OptionWords _ os ∧ Tool.long w = _) ∨ (∃ os f, _ ∧ Tool.long w = _) ∨ ∃ os, Tool.long w = _
        rcases long_cases w with ⟨n, c, o, ha, hf, e⟩ | ⟨x, v, n, c, f, rfl, ha, hf, e⟩ | ⟨n, c, f, ha, hf, e⟩ | e
        · exact .inl ⟨_, .long ha hf, e⟩
        · exact .inl ⟨_, .longEq ha hf, e⟩
        · exact .inr (.inl ⟨[], f, fun v => .longNext ha hf, e⟩)
        · exact .inr (.inr ⟨_, e⟩)
    · rw [optionWord_short hd]
      have hne : w ≠ [] := by rintro rfl; exact h3 rfl
      rcases cluster_cases w with ⟨os, h, e⟩ | ⟨cs, os, c, n, f, v, rfl, h, hv, hn, e⟩ | ⟨cs, os, c, n, f, rfl, h, hv, e⟩ | ⟨os, e⟩
      · exact .inl ⟨os, .letters hne h, e⟩
      · exact .inl ⟨_, .attached h hv hn, e⟩
      · exact .inr (.inl ⟨os, f, fun v => .separate h hv, e⟩)
      · exact .inr (.inr ⟨os, e⟩)

theorem not_option {w : Bytes} (h : ¬ (w.head? = some 45 ∧ w ≠ b!"-")) : PlainWord w := by
  by_cases h1 : w.head? = some 45
  · right
    by_cases h2 : w = b!"-"
    · exact h2
    · exact absurd ⟨h1, h2⟩ h
  · exact .inl h1

/-- Either the words spell what `getopt` reports, or it ends with an error. -/
theorem getopt_total (posix : Bool) (ws : List Bytes) :
    Spelled posix ws (getopt posix ws).1 (getopt posix ws).2 ∨ ∃ os fs, getopt posix ws = (os ++ [.unknown], fs) := by
  have main : ∀ n, ∀ ws : List Bytes, ws.length ≤ n →
      Spelled posix ws (getopt posix ws).1 (getopt posix ws).2 ∨ ∃ os fs, getopt posix ws = (os ++ [.unknown], fs) := by
    intro n
    induction n with
    | zero =>
      intro ws h
      have : ws = [] := List.length_eq_zero_iff.mp (by omega)
      subst this
      exact .inl .nil
    | succ n ih =>
      intro ws hlen
      cases ws with
      | nil => exact .inl .nil
      | cons w ws =>
        simp only [List.length_cons] at hlen
        by_cases h1 : w = b!"--"
        · subst h1
          left
          rw [getopt.eq_def]; dsimp only; rw [if_pos rfl]
          exact .rest ws
        · by_cases h2 : w.head? = some 45 ∧ w ≠ b!"-"
          · rcases optionWord_cases w h1 h2.1 h2.2 with ⟨os, h, e⟩ | ⟨os, f, h, e⟩ | ⟨os, e⟩
            · rw [getopt_done h1 h2.1 h2.2 e]
              rcases ih ws (by omega) with h' | ⟨os', fs, e'⟩
              · exact .inl (Spelled.options h h')
              · exact .inr ⟨os ++ os', fs, by rw [e']; simp⟩
            · cases ws with
              | nil =>
                right
                refine ⟨os, [], ?_⟩
                rw [getopt.eq_def]; dsimp only; rw [if_neg h1, if_pos h2, e]
              | cons v ws =>
                simp only [List.length_cons] at hlen
                rw [getopt_wants h1 h2.1 h2.2 e]
                rcases ih ws (by omega) with h' | ⟨os', fs, e'⟩
                · left
                  have := Spelled.options (h v) h'
                  simpa using this
                · exact .inr ⟨os ++ f v :: os', fs, by rw [e']; simp⟩
            · right
              refine ⟨os, [], ?_⟩
              rw [getopt.eq_def]; dsimp only; rw [if_neg h1, if_pos h2, e]
          · have hp := not_option h2
            rw [getopt_plain hp]
            by_cases hx : posix = true
            · rw [if_pos hx]
              exact .inl (.stop hx hp)
            · have hx : posix = false := by simpa using hx
              rw [if_neg (by simp [hx])]
              rcases ih ws (by omega) with h' | ⟨os', fs, e'⟩
              · exact .inl (.file hx hp h')
              · exact .inr ⟨os', w :: fs, by rw [e']⟩
  exact main _ ws (Nat.le_refl _)

/-! ### What may precede an error -/

theorem help_in_cluster (w : Bytes) (h : Cli.help ∈ (cluster w).1) : (104 : Byte) ∈ w := by
  induction w with
  | nil => simp [cluster] at h
  | cons c cs ih =>
    rw [cluster] at h
    cases hs : shortOpt c with
    | none => rw [hs] at h; simp at h
    | some t =>
      rw [hs] at h
      cases t with
      | flag o =>
        simp only [List.mem_cons] at h
        rcases h with h | h
        · subst h
          obtain ⟨n, hf⟩ := (shortOpt_flag _ _).mp hs
          cases hf
          simp
        · exact List.mem_cons_of_mem _ (ih h)
      | value f =>
        obtain ⟨n, hv⟩ := (shortOpt_value _ _).mp hs
        simp only at h
        split at h
        · simp at h
        · cases hv <;> simp at h

theorem abbreviates_first {x n : Bytes} (h : Abbreviates x n) : x <+: n ∧ x ≠ [] := by
  refine ⟨?_, by rintro rfl; exact not_abbreviates_nil _ h⟩
  rcases h.2 with rfl | h
  · exact List.prefix_refl _
  · exact h.1

theorem help_in_long (w : Bytes) (h : Cli.help ∈ (Tool.long w).1) : (104 : Byte) ∈ w := by
  rcases long_cases w with ⟨n, c, o, ha, hf, e⟩ | ⟨x, v, n, c, f, rfl, ha, hf, e⟩ | ⟨n, c, f, ha, hf, e⟩ | e
  · rw [e] at h
    simp only [List.mem_singleton] at h
    subst h
    cases hf
    obtain ⟨h1, h2⟩ := abbreviates_first ha
    cases w with
    | nil => exact absurd rfl h2
    | cons a w =>
      have := (List.cons_prefix_cons.mp h1).1
      simp [this]
  · rw [e] at h
    cases hf <;> simp at h
  · rw [e] at h; simp at h
  · rw [e] at h; simp at h

/-- A beginning of `arcinstance` that is not one of `arc`. -/
theorem arci_of_abbreviates {x : Bytes} (h : Abbreviates x b!"arcinstance") : b!"arci" <+: x := by
  obtain ⟨h1, h2⟩ := h
  rcases h2 with rfl | ⟨h2, h3⟩
  · exact List.isPrefixOf_iff_prefix.mp (by decide)
  · have hn : ¬ x <+: b!"arc" := fun hp => absurd (h3 _ (.inl ⟨_, _, .arc⟩) hp) (by decide)
    have hl : ¬ x.length ≤ 3 := by
      intro hl
      exact hn (List.prefix_of_prefix_length_le h2 (List.isPrefixOf_iff_prefix.mp (by decide)) (by simpa using hl))
    exact List.prefix_of_prefix_length_le (List.isPrefixOf_iff_prefix.mp (by decide)) h2 (by simp; omega)

theorem null_in_cluster (w : Bytes) : Cli.arcInstance none ∉ (cluster w).1 := by
  induction w with
  | nil => simp [cluster]
  | cons c cs ih =>
    rw [cluster]
    cases hs : shortOpt c with
    | none => simp
    | some t =>
      cases t with
      | flag o =>
        obtain ⟨n, hf⟩ := (shortOpt_flag _ _).mp hs
        simp only [List.mem_cons, not_or]
        exact ⟨by cases hf <;> simp, ih⟩
      | value f =>
        obtain ⟨n, hv⟩ := (shortOpt_value _ _).mp hs
        simp only
        split
        · simp
        · cases hv <;> simp

theorem null_in_long (w : Bytes) (h : Cli.arcInstance none ∈ (Tool.long w).1) : b!"arci" <+: w := by
  rcases long_cases w with ⟨n, c, o, ha, hf, e⟩ | ⟨x, v, n, c, f, rfl, ha, hf, e⟩ | ⟨n, c, f, ha, hf, e⟩ | e
  · rw [e] at h
    simp only [List.mem_singleton] at h
    subst h
    cases hf
    exact arci_of_abbreviates ha
  · rw [e] at h
    cases hf <;> simp at h
  · rw [e] at h; simp at h
  · rw [e] at h; simp at h

/-- Where help and a null argument come from. -/
theorem stop_words (w : Bytes) (hd : w.head? = some 45) :
    (Cli.help ∈ (optionWord w).1 → (104 : Byte) ∈ w) ∧ (Cli.arcInstance none ∈ (optionWord w).1 → b!"--arci" <+: w) := by
  cases w with
  | nil => simp at hd
  | cons a w =>
    simp only [List.head?_cons, Option.some.injEq] at hd
    subst hd
    by_cases h2 : w.head? = some 45
    · cases w with
      | nil => simp at h2
      | cons a w =>
        simp only [List.head?_cons, Option.some.injEq] at h2
        subst h2
        show (Cli.help ∈ (Tool.long w).1 → _) ∧ (Cli.arcInstance none ∈ (Tool.long w).1 → _)
        refine ⟨fun h => ?_, fun h => ?_⟩
        · have := help_in_long w h
          simp [this]
        · have := null_in_long w h
          exact List.cons_prefix_cons.mpr ⟨rfl, List.cons_prefix_cons.mpr ⟨rfl, this⟩⟩
    · rw [optionWord_short h2]
      exact ⟨fun h => List.mem_cons_of_mem _ (help_in_cluster w h), fun h => absurd h (null_in_cluster w)⟩

theorem wants_value {w : Bytes} {os : List Cli} {f} (h1 : w ≠ b!"--") (h2 : w.head? = some 45) (h3 : w ≠ b!"-")
    (h : optionWord w = (os, .wants f)) : ∀ v, f v ≠ .help ∧ f v ≠ .arcInstance none := by
  have key : ∀ {c n g}, Valued c n g → ∀ v, g v ≠ .help ∧ g v ≠ .arcInstance none := by
    intro c n g hv v
    cases hv <;> simp
  cases w with
  | nil => simp at h2
  | cons a w =>
    simp only [List.head?_cons, Option.some.injEq] at h2
    subst h2
    by_cases hd : w.head? = some 45
    · cases w with
      | nil => simp at hd
      | cons a w =>
        simp only [List.head?_cons, Option.some.injEq] at hd
        subst hd
        have h : Tool.long w = (os, .wants f) := h
        rcases long_cases w with ⟨n, c, o, ha, hf, e⟩ | ⟨x, v, n, c, g, rfl, ha, hf, e⟩ | ⟨n, c, g, ha, hf, e⟩ | e
        · rw [e] at h; simp at h
        · rw [e] at h; simp at h
        · rw [e] at h
          simp only [Prod.mk.injEq, End.wants.injEq] at h
          rw [← h.2]
          exact key hf
        · rw [e] at h; simp at h
    · rw [optionWord_short hd] at h
      rcases cluster_cases w with ⟨os, g, e⟩ | ⟨cs, os, c, n, g, v, rfl, _, hv, hn, e⟩ | ⟨cs, os, c, n, g, rfl, _, hv, e⟩ | ⟨os, e⟩
      · rw [e] at h; simp at h
      · rw [e] at h; simp at h
      · rw [e] at h
        simp only [Prod.mk.injEq, End.wants.injEq] at h
        rw [← h.2]
        exact key hv
      · rw [e] at h; simp at h

theorem getopt_stops (posix : Bool) (ws : List Bytes) :
    (Cli.help ∈ (getopt posix ws).1 → ∃ w ∈ ws, w.head? = some 45 ∧ (104 : Byte) ∈ w) ∧
    (Cli.arcInstance none ∈ (getopt posix ws).1 → ∃ w ∈ ws, b!"--arci" <+: w) := by
  have main : ∀ n, ∀ ws : List Bytes, ws.length ≤ n →
      (Cli.help ∈ (getopt posix ws).1 → ∃ w ∈ ws, w.head? = some 45 ∧ (104 : Byte) ∈ w) ∧
      (Cli.arcInstance none ∈ (getopt posix ws).1 → ∃ w ∈ ws, b!"--arci" <+: w) := by
    intro n
    induction n with
    | zero =>
      intro ws h
      have : ws = [] := List.length_eq_zero_iff.mp (by omega)
      subst this
      simp [getopt]
    | succ n ih =>
      intro ws hlen
      cases ws with
      | nil => simp [getopt]
      | cons w ws =>
        simp only [List.length_cons] at hlen
        have up : ∀ vs : List Bytes, vs.length ≤ n → (∀ x ∈ vs, x ∈ w :: ws) →
            (Cli.help ∈ (getopt posix vs).1 → ∃ w' ∈ w :: ws, w'.head? = some 45 ∧ (104 : Byte) ∈ w') ∧
            (Cli.arcInstance none ∈ (getopt posix vs).1 → ∃ w' ∈ w :: ws, b!"--arci" <+: w') := by
          intro vs hv hs
          obtain ⟨a, b⟩ := ih vs hv
          exact ⟨fun h => let ⟨x, hx, p⟩ := a h; ⟨x, hs x hx, p⟩, fun h => let ⟨x, hx, p⟩ := b h; ⟨x, hs x hx, p⟩⟩
        by_cases h1 : w = b!"--"
        · subst h1
          rw [getopt.eq_def]; dsimp only; rw [if_pos rfl]
          simp
        · by_cases h2 : w.head? = some 45 ∧ w ≠ b!"-"
          · obtain ⟨s1, s2⟩ := stop_words w h2.1
            have here : (Cli.help ∈ (optionWord w).1 → ∃ w' ∈ w :: ws, w'.head? = some 45 ∧ (104 : Byte) ∈ w') ∧
                (Cli.arcInstance none ∈ (optionWord w).1 → ∃ w' ∈ w :: ws, b!"--arci" <+: w') :=
              ⟨fun h => ⟨w, by simp, h2.1, s1 h⟩, fun h => ⟨w, by simp, s2 h⟩⟩
            cases ho : optionWord w with
            | mk os e =>
              rw [ho] at here
              simp only at here
              cases e with
              | done =>
                rw [getopt_done h1 h2.1 h2.2 ho]
                obtain ⟨a, b⟩ := up ws (by omega) (by intro x hx; simp [hx])
                simp only [List.mem_append]
                exact ⟨fun h => h.elim here.1 a, fun h => h.elim here.2 b⟩
              | bad =>
                rw [getopt.eq_def]; dsimp only; rw [if_neg h1, if_pos h2, ho]
                simp only [List.mem_append, List.mem_singleton, reduceCtorEq, or_false]
                exact here
              | wants f =>
                cases ws with
                | nil =>
                  rw [getopt.eq_def]; dsimp only; rw [if_neg h1, if_pos h2, ho]
                  simp only [List.mem_append, List.mem_singleton, reduceCtorEq, or_false] at here ⊢
                  exact here
                | cons v ws =>
                  simp only [List.length_cons] at hlen
                  rw [getopt_wants h1 h2.1 h2.2 ho]
                  obtain ⟨a, b⟩ := up ws (by omega) (by intro x hx; simp [hx])
                  obtain ⟨k1, k2⟩ := wants_value h1 h2.1 h2.2 ho v
                  simp only [List.mem_append, List.mem_cons] at here a b ⊢
                  exact ⟨fun h => h.elim here.1 (fun h => h.elim (fun h => absurd h.symm k1) a),
                    fun h => h.elim here.2 (fun h => h.elim (fun h => absurd h.symm k2) b)⟩
          · rw [getopt_plain (not_option h2)]
            split
            · simp
            · obtain ⟨a, b⟩ := up ws (by omega) (by intro x hx; simp [hx])
              exact ⟨a, b⟩
  exact main _ ws (Nat.le_refl _)

/-! ### C99 -/

/-- C99: a command line that spells options and file names does what the tool does with these (see C59, C60); and every
command line spells at most one thing. -/
theorem C99_spelled (clock : Nat → Int) (resolver : Bytes → Bool × Bytes) (noise : Nat → Bool → Bool) (fs : Bytes → Option Bytes)
    (er posix : Bool) (argv : List Bytes) (opts : List Cli) (files : List Bytes) (h : Spelled posix argv opts files) :
    Tool.run E clock resolver noise fs er posix argv = Tool.main E clock resolver noise fs er opts files ∧
    ∀ opts' files', Spelled posix argv opts' files' → opts' = opts ∧ files' = files := by
  have e := getopt_spelled h
  refine ⟨by rw [Tool.run, e], fun opts' files' h' => ?_⟩
  have e' := getopt_spelled h'
  rw [e] at e'
  injection e' with a b
  exact ⟨a.symm, b.symm⟩

/-- C99: any other command line is refused: nothing is signed or verified, and the exit status is 2, unless an earlier
option asks for help (0) or is `--arcinstance`, which reads a null pointer. -/
theorem C99_refused (clock : Nat → Int) (resolver : Bytes → Bool × Bytes) (noise : Nat → Bool → Bool) (fs : Bytes → Option Bytes)
    (er posix : Bool) (argv : List Bytes) (h : ¬ ∃ opts files, Spelled posix argv opts files) :
    ∃ o, Tool.run E clock resolver noise fs er posix argv = { signed := [], lines := [], outcome := o } ∧
      (o = .exit 2 ∨ (o = .exit 0 ∧ ∃ w ∈ argv, w.head? = some 45 ∧ (104 : Byte) ∈ w) ∨
        (o = .abort .ub ∧ ∃ w ∈ argv, b!"--arci" <+: w)) := by
  rcases getopt_total posix argv with g | ⟨os, files, e⟩
  · exact absurd ⟨_, _, g⟩ h
  · obtain ⟨s1, s2⟩ := getopt_stops posix argv
    have first : ∀ os : List Cli, ∃ pre x post, os ++ [Cli.unknown] = pre ++ x :: post ∧ (∀ y ∈ pre, isStop y = false) ∧ isStop x = true := by
      intro os
      induction os with
      | nil => exact ⟨[], .unknown, [], rfl, by simp, rfl⟩
      | cons x os ih =>
        cases hx : isStop x with
        | true => exact ⟨[], x, os ++ [.unknown], rfl, by simp, hx⟩
        | false =>
          obtain ⟨pre, y, post, e, hp, hy⟩ := ih
          exact ⟨x :: pre, y, post, by rw [List.cons_append, e]; rfl, by
            intro z hz
            rcases List.mem_cons.mp hz with rfl | hz
            · exact hx
            · exact hp z hz, hy⟩
    obtain ⟨pre, x, post, e2, hp, hx⟩ := first os
    have hmem : x ∈ (getopt posix argv).1 := by rw [e]; simp only; rw [e2]; simp
    have run : ∀ o, CliStops x o → Tool.run E clock resolver noise fs er posix argv = { signed := [], lines := [], outcome := o } := by
      intro o ho
      rw [Tool.run, e]
      exact (C60_main clock resolver noise fs er _ _).1 o (.stop e2 hp ho)
    cases x with
    | help => exact ⟨_, run _ .help, .inr (.inl ⟨rfl, s1 hmem⟩)⟩
    | unknown => exact ⟨_, run _ .unknown, .inl rfl⟩
    | arcInstance a =>
      cases a with
      | none => exact ⟨_, run _ .null, .inr (.inr ⟨rfl, s2 hmem⟩)⟩
      | some a => cases hx
    | _ => cases hx

/-- A piece of a command line: words that spell options, or a file name. -/
structure Spec.CmdPiece where
  words : List Bytes
  opts : List Cli
  files : List Bytes
  ok : (OptionWords words opts ∧ files = []) ∨ ∃ w, PlainWord w ∧ words = [w] ∧ opts = [] ∧ files = [w]

theorem pieces_spelled (ps : List CmdPiece) {ws : List Bytes} {os : List Cli} {files : List Bytes} (h : Spelled false ws os files) :
    Spelled false (ps.flatMap (·.words) ++ ws) (ps.flatMap (·.opts) ++ os) (ps.flatMap (·.files) ++ files) := by
  induction ps with
  | nil => exact h
  | cons p ps ih =>
    simp only [List.flatMap_cons, List.append_assoc]
    rcases p.ok with ⟨h1, h2⟩ | ⟨w, hw, h1, h2, h3⟩
    · rw [h2]
      exact .options h1 ih
    · rw [h1, h2, h3]
      exact .file rfl hw ih

/-- C99: it does not matter where the file names are between the options (unless POSIXLY_CORRECT is set), nor how each option is
spelled; file names after `--` are the last ones. -/
theorem C99_order (clock : Nat → Int) (resolver : Bytes → Bool × Bytes) (noise : Nat → Bool → Bool) (fs : Bytes → Option Bytes)
    (er : Bool) (ps qs : List CmdPiece) (last last' : List Bytes) (ho : ps.flatMap (·.opts) = qs.flatMap (·.opts))
    (hf : ps.flatMap (·.files) ++ last = qs.flatMap (·.files) ++ last') :
    Tool.run E clock resolver noise fs er false (ps.flatMap (·.words) ++ b!"--" :: last) =
      Tool.run E clock resolver noise fs er false (qs.flatMap (·.words) ++ b!"--" :: last') ∧
    (last' = [] → Tool.run E clock resolver noise fs er false (ps.flatMap (·.words) ++ b!"--" :: last) =
      Tool.run E clock resolver noise fs er false (qs.flatMap (·.words))) := by
  have a := (C99_spelled (E := E) clock resolver noise fs er false _ _ _ (pieces_spelled ps (.rest last))).1
  have b := (C99_spelled (E := E) clock resolver noise fs er false _ _ _ (pieces_spelled qs (.rest last'))).1
  have c := (C99_spelled (E := E) clock resolver noise fs er false _ _ _ (pieces_spelled qs .nil)).1
  constructor
  · rw [a, b, ho, hf]
  · rintro rfl
    rw [List.append_nil] at c
    rw [a, c, ho, hf]

/-- C99: the option `--keytype` that the usage text documents does not exist: wherever it stands as an option, the command line
is refused. -/
theorem C99_keytype (clock : Nat → Int) (resolver : Bytes → Bool × Bytes) (noise : Nat → Bool → Bool) (fs : Bytes → Option Bytes)
    (er : Bool) (ps : List CmdPiece) (more : List Bytes) (value : Bytes) (hs : ∀ o ∈ ps.flatMap (·.opts), isStop o = false) :
    Tool.run E clock resolver noise fs er false (ps.flatMap (·.words) ++ b!"--keytype" :: more) =
      { signed := [], lines := [], outcome := .exit 2 } ∧
    Tool.run E clock resolver noise fs er false (ps.flatMap (·.words) ++ (b!"--keytype=" ++ value) :: more) =
      { signed := [], lines := [], outcome := .exit 2 } := by
  have pieces : ∀ ws, getopt false (ps.flatMap (·.words) ++ ws) =
      (ps.flatMap (·.opts) ++ (getopt false ws).1, ps.flatMap (·.files) ++ (getopt false ws).2) := by
    intro ws
    clear hs
    induction ps with
    | nil => rfl
    | cons p ps ih =>
      simp only [List.flatMap_cons, List.append_assoc]
      rcases p.ok with ⟨h1, h2⟩ | ⟨w, hw, h1, h2, h3⟩
      · rw [h2, getopt_options h1, ih]
        rfl
      · rw [h1, h2, h3, List.singleton_append, getopt_plain hw, ih]
        rfl
  have refuse : ∀ w, getopt false (w :: more) = ([.unknown], []) →
      Tool.run E clock resolver noise fs er false (ps.flatMap (·.words) ++ w :: more) = { signed := [], lines := [], outcome := .exit 2 } := by
    intro w hw
    rw [Tool.run, pieces, hw]
    exact (C60_main clock resolver noise fs er _ _).1 _ (.stop rfl hs .unknown)
  have key : longOpt b!"keytype" = none := by rfl
  constructor
  · apply refuse
    rfl
  · apply refuse
    rw [getopt.eq_def]; dsimp only
    rw [if_neg (by simp), if_pos ⟨by rfl, by simp⟩]
    have : optionWord (b!"--keytype=" ++ value) = ([], .bad) := by
      show Tool.long (b!"keytype" ++ 61 :: value) = _
      unfold Tool.long
      rw [(eq_split (by decide)).1, (eq_split (by decide)).2, key]
    rw [this]
    rfl

/-- C99: the two command lines of the usage text, for every selector, domain and key file (also if they begin with a dash) and for
every file names that do not begin with a dash, with or without POSIXLY_CORRECT. -/
theorem C99_documented (clock : Nat → Int) (resolver : Bytes → Bool × Bytes) (noise : Nat → Bool → Bool) (fs : Bytes → Option Bytes)
    (er posix : Bool) (sel dom key file : Bytes) (files : List Bytes) (hf : ∀ w ∈ file :: files, PlainWord w) :
    Tool.run E clock resolver noise fs er posix [b!"-s", sel, b!"-d", dom, b!"-k", key, file] =
      Tool.main E clock resolver noise fs er [.selector sel, .domain dom, .keyfile key] [file] ∧
    Tool.run E clock resolver noise fs er posix (b!"-v" :: file :: files) =
      Tool.main E clock resolver noise fs er [.validate] (file :: files) := by
  have plain : ∀ l : List Bytes, (∀ w ∈ l, PlainWord w) → Spelled posix l [] l := by
    intro l hl
    cases posix with
    | true =>
      cases l with
      | nil => exact .nil
      | cons w l => exact .stop rfl (hl w (by simp))
    | false =>
      induction l with
      | nil => exact .nil
      | cons w l ih => exact .file rfl (hl w (by simp)) (ih (fun x hx => hl x (by simp [hx])))
  constructor
  · refine (C99_spelled clock resolver noise fs er posix _ _ _ ?_).1
    exact .options (.separate .nil .selector) (.options (.separate .nil .domain) (.options (.separate .nil .keyfile)
      (plain [file] (by intro w hw; simp only [List.mem_singleton] at hw; exact hf w (by simp [hw])))))
  · refine (C99_spelled clock resolver noise fs er posix _ _ _ ?_).1
    exact .options (.letters (by simp) (.cons ⟨_, .validate⟩ .nil)) (plain _ hf)

/-- A command line with everything: `-avs s m1 --dom=d --keyfo ed25519 -- -m2`. -/
example : Spelled false [b!"-avs", b!"s", b!"m1", b!"--dom=d", b!"--keyfo", b!"ed25519", b!"--", b!"-m2"]
    [.arc, .validate, .selector b!"s", .domain b!"d", .keytype b!"ed25519"] [b!"m1", b!"-m2"] := by
  have ab : ∀ x n, x <+: n → LongName n → (∀ p ∈ longOpts, x <+: p.1 → p.1 = n) → Abbreviates x n := by
    intro x n h1 h2 h3
    refine ⟨h2, .inr ⟨h1, fun m hm hx => ?_⟩⟩
    obtain ⟨t, ht⟩ := (longName_iff _).mp hm
    exact h3 _ ht hx
  refine .options (.separate (cs := b!"av") (.cons ⟨_, .arc⟩ (.cons ⟨_, .validate⟩ .nil)) .selector) ?_
  refine .file rfl (.inl (by decide)) ?_
  refine .options (.longEq (x := b!"dom") (ab _ _ (List.isPrefixOf_iff_prefix.mp (by decide)) (.inr ⟨_, _, .domain⟩) ?_) .domain) ?_
  · simp only [longOpts, List.forall_mem_cons, ← List.isPrefixOf_iff_prefix]; decide
  refine .options (.longNext (x := b!"keyfo") (ab _ _ (List.isPrefixOf_iff_prefix.mp (by decide)) (.inr ⟨_, _, .keyformat⟩) ?_) .keyformat) ?_
  · simp only [longOpts, List.forall_mem_cons, ← List.isPrefixOf_iff_prefix]; decide
  exact .rest _

/-- Refused: an ambiguous beginning, a flag with a value, a missing value, an unknown letter. -/
example : (getopt false [b!"--key", b!"k"]).1 = [.unknown] ∧ (getopt false [b!"--validate=1"]).1 = [.unknown] ∧
    (getopt false [b!"-vs"]).1 = [.validate, .unknown] ∧ (getopt false [b!"-vx"]).1 = [.validate, .unknown] := by decide +kernel

end Dkim

import Verif.Proofs.CNumber
import Verif.Proofs.Numbers
import Verif.Props.Report
/-!
# Properties C60, C66: exit status, usage and the frame of the report
-/

namespace Dkim
open Spec

/-! ### The command line -/

/-- How an option that ends the program at once ends it: help is success, an unknown option (or a missing argument) is a usage
error, `--arcinstance` (declared without argument) reads a null pointer. -/
inductive Spec.CliStops : Tool.Cli → Tool.Outcome → Prop
  | help : Spec.CliStops .help (.exit 0)
  | unknown : Spec.CliStops .unknown (.exit 2)
  | null : Spec.CliStops (.arcInstance none) (.abort .ub)

/-- The command lines on which the tool does nothing but explain its usage (or dies reading a null pointer), and the exit status. -/
inductive Spec.NoWork (opts : List Tool.Cli) (args : List Bytes) : Tool.Outcome → Prop
  /-- The first option that ends the program decides. -/
  | stop {pre x post o} (at_ : opts = pre ++ x :: post) (first : ∀ y ∈ pre, isStop y = false) (ends : CliStops x o) : NoWork opts args o
  /-- No file. -/
  | noFile (run : ∀ y ∈ opts, isStop y = false) (none : args = []) : NoWork opts args (.exit 2)
  /-- Signing needs a selector, a domain and a key file. -/
  | missing (run : ∀ y ∈ opts, isStop y = false) (sign : Tool.Cli.validate ∉ opts)
      (what : lastArg (fun x => match x with | .selector a => some a | _ => none) [] opts = [] ∨
        lastArg (fun x => match x with | .domain a => some a | _ => none) [] opts = [] ∨
        lastArg (fun x => match x with | .keyfile a => some a | _ => none) [] opts = []) : NoWork opts args (.exit 2)

theorem configure_stop (opts : List Tool.Cli) (c0 : Tool.Config) (o : Tool.Outcome) :
    Tool.configure c0 opts = .error o ↔
      ∃ pre x post, opts = pre ++ x :: post ∧ (∀ y ∈ pre, isStop y = false) ∧ CliStops x o := by
  induction opts generalizing c0 with
  | nil => simp [Tool.configure]
  | cons x xs ih =>
    have stop : ∀ o', CliStops x o' → Tool.configure c0 (x :: xs) = .error o' := by
      intro o' h; cases h <;> rfl
    have uniq : ∀ o', CliStops x o' → isStop x = true := by intro o' h; cases h <;> rfl
    have go : isStop x = false → ∃ c, Tool.configure c0 (x :: xs) = Tool.configure c xs := by
      intro h
      cases x with
      | arcInstance a => cases a with
        | none => cases h
        | some a => exact ⟨_, rfl⟩
      | help => cases h
      | unknown => cases h
      | _ => exact ⟨_, rfl⟩
    constructor
    · intro h
      cases hx : isStop x with
      | true =>
        have : ∃ o', CliStops x o' := by
          cases x with
          | arcInstance a => cases a with
            | none => exact ⟨_, .null⟩
            | some a => cases hx
          | help => exact ⟨_, .help⟩
          | unknown => exact ⟨_, .unknown⟩
          | _ => cases hx
        obtain ⟨o', ho⟩ := this
        rw [stop o' ho] at h
        cases h
        exact ⟨[], x, xs, rfl, by simp, ho⟩
      | false =>
        obtain ⟨c, hc⟩ := go hx
        rw [hc] at h
        obtain ⟨pre, y, post, e, h1, h2⟩ := (ih c).1 h
        exact ⟨x :: pre, y, post, by rw [e]; rfl, by simpa [hx] using h1, h2⟩
    · rintro ⟨pre, y, post, e, h1, h2⟩
      cases pre with
      | nil => cases e; exact stop o h2
      | cons z pre =>
        cases e
        obtain ⟨c, hc⟩ := go (h1 x (by simp))
        rw [hc]
        exact (ih c).2 ⟨pre, y, post, rfl, fun w hw => h1 w (by simp [hw]), h2⟩

/-- C60: when the tool has nothing to do, it prints no signature and no report and its exit status is the documented one; in every
other case it reports on all files (if `-v` was given) or signs the first one, with the settings of the last occurrence of each option. -/
theorem C60_main {E : Env} (clock : Nat → Int) (resolver : Bytes → Bool × Bytes) (noise : Nat → Bool → Bool)
    (fs : Bytes → Option Bytes) (er : Bool) (opts : List Tool.Cli) (args : List Bytes) :
    (∀ o, NoWork opts args o → Tool.main E clock resolver noise fs er opts args = { signed := [], lines := [], outcome := o }) ∧
    ((¬ ∃ o, NoWork opts args o) → ∃ c file files, Tool.configure {} opts = .ok c ∧ args = file :: files ∧
      Tool.main E clock resolver noise fs er opts args =
        (if Tool.Cli.validate ∈ opts then
          { signed := [], lines := (Tool.validateFiles E clock resolver noise fs c.type 0 er args).1,
            outcome := (Tool.validateFiles E clock resolver noise fs c.type 0 er args).2 }
         else
          { signed := (Tool.sign E clock fs c file).1, lines := [], outcome := (Tool.sign E clock fs c file).2 })) := by
  constructor
  · intro o h
    unfold Tool.main
    cases h with
    | stop at_ first ends =>
      rename_i pre x post
      rw [if_neg (by rw [at_]; simp), (configure_stop opts {} o).2 ⟨pre, x, post, at_, first, ends⟩]
    | noFile run none =>
      subst none
      obtain ⟨c, hc⟩ := (C60_options opts).2 run
      split
      · rfl
      · rw [hc]
    | missing run sign what =>
      obtain ⟨c, hc⟩ := (C60_options opts).2 run
      obtain ⟨h1, h2, h3, -, h5, -⟩ := C60_options_values opts c hc
      split
      · rfl
      · rw [hc]
        cases args with
        | nil => rfl
        | cons f fs' =>
          have hv : c.validate = false := by
            cases hv : c.validate with
            | false => rfl
            | true => exact absurd (h5.1 hv) sign
          simp only [hv]
          rw [if_neg (by simp), if_pos]
          rw [h1, h2, h3]
          exact what
  · intro h
    have run : ∀ y ∈ opts, isStop y = false := by
      refine (C60_options opts).1 ?_
      cases hc : Tool.configure {} opts with
      | ok c => exact ⟨c, rfl⟩
      | error o =>
        obtain ⟨pre, x, post, h1, h2, h3⟩ := (configure_stop opts {} o).1 hc
        exact absurd ⟨o, .stop h1 h2 h3⟩ h
    obtain ⟨c, hc⟩ := (C60_options opts).2 run
    obtain ⟨h1, h2, h3, -, h5, -⟩ := C60_options_values opts c hc
    cases args with
    | nil => exact absurd ⟨_, .noFile run rfl⟩ h
    | cons f fs' =>
      refine ⟨c, f, fs', hc, rfl, ?_⟩
      unfold Tool.main
      rw [if_neg (by simp), hc]
      simp only
      by_cases hv : Tool.Cli.validate ∈ opts
      · rw [if_pos (h5.2 hv), if_pos hv]
      · rw [if_neg (fun hq => hv (h5.1 hq)), if_neg hv, if_neg]
        rw [h1, h2, h3]
        exact fun hq => h ⟨_, .missing run hv hq⟩

/-- C60: the ARC instance is the number written in the last argument of `-A` (as the C library reads it), 0 without `-A`. -/
theorem C60_arc_value (opts : List Tool.Cli) (c : Tool.Config) (h : Tool.configure {} opts = .ok c) :
    ((∀ a, Tool.Cli.arcInstance a ∉ opts) → c.arcInstance = 0) ∧
    ∀ pre a post, opts = pre ++ .arcInstance (some a) :: post → (∀ b, Tool.Cli.arcInstance b ∉ post) →
      ∃ rest o, ULong (cstr a) c.arcInstance rest o := by
  have keep : ∀ (opts : List Tool.Cli) (c0 c : Tool.Config), Tool.configure c0 opts = .ok c →
      (∀ a, Tool.Cli.arcInstance a ∉ opts) → c.arcInstance = c0.arcInstance := by
    intro opts
    induction opts with
    | nil => intro c0 c h _; cases h; rfl
    | cons x xs ih =>
      intro c0 c h hn
      have hxs : ∀ a, Tool.Cli.arcInstance a ∉ xs := fun a ha => hn a (by simp [ha])
      unfold Tool.configure at h
      cases x with
      | arcInstance a => exact absurd (by simp) (hn a)
      | help => cases h
      | unknown => cases h
      | _ =>
        simp only [Tool.Cli.apply] at h
        exact (ih _ _ h hxs).trans rfl
  refine ⟨fun hn => keep opts {} c h hn, ?_⟩
  intro pre a post e hp
  have main : ∀ (pre : List Tool.Cli) (c0 : Tool.Config), Tool.configure c0 (pre ++ .arcInstance (some a) :: post) = .ok c →
      c.arcInstance = (strtoul (cstr a)).1 := by
    intro pre
    induction pre with
    | nil => intro c0 h; exact keep post _ _ h hp
    | cons x xs ih =>
      intro c0 h
      rw [List.cons_append] at h
      unfold Tool.configure at h
      cases hx : x.apply c0 with
      | error e => rw [hx] at h; cases h
      | ok c1 => rw [hx] at h; exact ih c1 h
  rw [e] at h
  exact uLong_value.2 (main pre {} h).symm

/-- `dkim -d d.e m`: usage (no selector, no key). `dkim -h`: usage with status 0. -/
example : NoWork [.domain b!"d.e"] [b!"m"] (.exit 2) ∧ NoWork [.validate, .help, .unknown] [] (.exit 0) ∧
    (∃ c, Tool.configure {} [.arcInstance (some b!"7"), .arc, .arcInstance (some b!"4294967298")] = .ok c ∧ c.arcInstance = 4294967298) := by
  refine ⟨.missing (by simp [isStop]) (by simp) (Or.inl rfl), .stop (pre := [.validate]) rfl (by simp [isStop]) .help, _, rfl, by decide +kernel⟩

/-! ### The frame of the report -/

/-- The texts from the message, the key record or the command line that an explanation quotes. -/
def Spec.quoted : Reason → List Bytes
  | .duplicateTag name => [name]
  | .missingColon f => [f]
  | .badV v | .badA v | .badC v | .badQ v | .keyBadV v | .keyBadK v => [v]
  | .badI m d => [m, d]
  | .noKey s d | .dnsFailed s d => [s, d]
  | _ => []

theorem not_mem_cstr {c : Byte} {s : Bytes} (h : c ∉ s) : c ∉ cstr s := by
  intro hc
  unfold cstr at hc
  exact h ((List.takeWhile_sublist _).subset hc)

/-- C66: an explanation is fixed text and what it quotes: no line feed unless one is quoted (the numbers printed have none). -/
theorem C66_explanation (n : Num) (hx : (10 : Byte) ∉ n.hex) (hp : (10 : Byte) ∉ n.pos) (r : Reason)
    (hq : ∀ q ∈ quoted r, (10 : Byte) ∉ q) : (10 : Byte) ∉ r.what n := by
  have hq' : ∀ q ∈ quoted r, (10 : Byte) ∉ cstr q := fun q h => not_mem_cstr (hq q h)
  cases r <;> simp only [Reason.what, quoted, List.forall_mem_cons, List.mem_cons, List.mem_append] at hq' ⊢ <;>
    first
    | (simp [hq', hx, hp]; done)
    | (split <;> simp [hx, hp]; done)

/-- C66: the numbers a parser prints are hexadecimal digits and a decimal number, so they never contain a line feed. -/
theorem C66_numbers (b : Option Nat) (p : Option Int) :
    (∀ c ∈ (numOf b p).hex, (48 ≤ c ∧ c ≤ 57) ∨ (97 ≤ c ∧ c ≤ 102)) ∧ (∀ c ∈ (numOf b p).pos, c = 45 ∨ (48 ≤ c ∧ c ≤ 57)) := by
  have hx : ∀ k, k < 16 → ∀ c, c = (if k < 10 then UInt8.ofNat (48 + k) else UInt8.ofNat (87 + k)) →
      (48 ≤ c ∧ c ≤ 57) ∨ (97 ≤ c ∧ c ≤ 102) := by
    intro k hk c hc
    have : ∀ k : Fin 16, (48 ≤ (if k.val < 10 then UInt8.ofNat (48 + k.val) else UInt8.ofNat (87 + k.val)) ∧
        (if k.val < 10 then UInt8.ofNat (48 + k.val) else UInt8.ofNat (87 + k.val)) ≤ 57) ∨
        (97 ≤ (if k.val < 10 then UInt8.ofNat (48 + k.val) else UInt8.ofNat (87 + k.val)) ∧
        (if k.val < 10 then UInt8.ofNat (48 + k.val) else UInt8.ofNat (87 + k.val)) ≤ 102) := by decide
    rw [hc]
    exact this ⟨k, hk⟩
  constructor
  · cases b with
    | none => simp [numOf]
    | some n =>
      intro c hc
      simp only [numOf, Option.map_some, Option.getD_some, fmtX] at hc
      split at hc
      · rename_i h
        exact hx n h c (by simpa using hc)
      · rcases List.mem_cons.1 hc with h | h
        · exact hx (n / 16 % 16) (Nat.mod_lt _ (by decide)) c h
        · exact hx (n % 16) (Nat.mod_lt _ (by decide)) c (by simpa using h)
  · cases p with
    | none => simp [numOf]
    | some p =>
      have dec : ∀ n : Nat, ∀ c ∈ natDec n, (48 : Byte) ≤ c ∧ c ≤ 57 := by
        intro n c hc
        have := (natDec_decimal n).facts.2.1 c hc
        simpa [isDigit] using this
      intro c hc
      simp only [numOf, Option.map_some, Option.getD_some, fmtLd] at hc
      split at hc
      · rcases List.mem_cons.1 hc with h | h
        · exact Or.inl h
        · exact Or.inr (dec _ c h)
      · exact Or.inr (dec _ c hc)

/-- The value of a text of lower case hexadecimal digits. -/
def Spec.hexValue (t : Bytes) : Nat := t.foldl (fun n c => 16 * n + (if c ≤ 57 then c.toNat - 48 else c.toNat - 87)) 0

/-- C78: the numbers are printed faithfully: the byte in hexadecimal, the position in decimal, -1 for the end of the input. -/
theorem C78_printed (c : Byte) (i : Nat) :
    hexValue (numOf (some c.toNat) (some i)).hex = c.toNat ∧ Decimal i (numOf (some c.toNat) (some i)).pos ∧
    (numOf (some 255) (some (-1))).hex = b!"ff" ∧ (numOf (some 255) (some (-1))).pos = b!"-1" := by
  refine ⟨?_, ?_, by decide +kernel, by decide +kernel⟩
  · have : ∀ n : Fin 256, hexValue (fmtX n.val) = n.val := by decide +kernel
    exact this ⟨c.toNat, c.toNat_lt⟩
  · show Decimal i (fmtLd i)
    unfold fmtLd
    rw [if_neg (by omega)]
    exact natDec_decimal i

/-- The numbers printed contain no line feed, the names neither `]` nor line feed, and what the explanation quotes no line feed. -/
structure Spec.CleanParts (n : Num) (l : Tool.Line) : Prop where
  hex : (10 : Byte) ∉ n.hex
  pos : (10 : Byte) ∉ n.pos
  file : CleanName l.file
  domain : CleanName l.domain
  selector : CleanName l.selector
  quotes : ∀ a r, l.verdict = .temperr a r ∨ l.verdict = .soft a r ∨ l.verdict = .perm a r → ∀ q ∈ quoted r, (10 : Byte) ∉ q

/-- C66: then the line is one line: its only line feed is its last byte. -/
theorem C66_one_line (n : Num) (l : Tool.Line) (h : CleanParts n l) :
    CleanLine n l ∧ ∃ t, l.text n = t ++ [10] ∧ (10 : Byte) ∉ t := by
  have hr : ∀ a r, l.verdict = .temperr a r ∨ l.verdict = .soft a r ∨ l.verdict = .perm a r → (10 : Byte) ∉ cstr (r.what n) :=
    fun a r hv => not_mem_cstr (C66_explanation n h.hex h.pos r (h.quotes a r hv))
  refine ⟨⟨h.file, h.domain, h.selector, hr⟩, ?_⟩
  have front : (10 : Byte) ∉ b!"[" ++ l.file ++ b!"][" ++ l.domain ++ b!"][" ++ l.selector ++ b!"]" := by
    simp [h.file.2, h.domain.2, h.selector.2]
  have ar : ∀ a : AR, (10 : Byte) ∉ a.text := by intro a; cases a <;> decide
  have tail : ∃ t, l.verdict.text n = t ++ [10] ∧ (10 : Byte) ∉ t := by
    cases hv : l.verdict with
    | ok => exact ⟨b!" OK", rfl, by decide⟩
    | temperr a r =>
      exact ⟨b!"(" ++ a.text ++ b!") TEMPERR:" ++ cstr (r.what n), rfl, by simp [ar a, hr a r (.inl hv)]⟩
    | soft a r =>
      exact ⟨b!"(" ++ a.text ++ b!") SOFT:" ++ cstr (r.what n), rfl, by simp [ar a, hr a r (.inr (.inl hv))]⟩
    | perm a r =>
      exact ⟨b!"(" ++ a.text ++ b!") = " ++ cstr (r.what n), rfl, by simp [ar a, hr a r (.inr (.inr hv))]⟩
  obtain ⟨t, e, ht⟩ := tail
  refine ⟨b!"[" ++ l.file ++ b!"][" ++ l.domain ++ b!"][" ++ l.selector ++ b!"]" ++ t, ?_, ?_⟩
  · unfold Tool.Line.text; rw [e]; simp
  · rw [List.mem_append, not_or]; exact ⟨front, ht⟩

/-- C66: the report has as many lines as signatures were reported on. -/
theorem C66_line_count (num : Nat → Num) (k : Nat) (ls : List Tool.Line)
    (h : ∀ i (hi : i < ls.length), CleanParts (num (k + i)) ls[i]) : (Tool.reportText num k ls).count 10 = ls.length := by
  induction ls generalizing k with
  | nil => rfl
  | cons l ls ih =>
    obtain ⟨-, t, e, ht⟩ := C66_one_line (num k) l (h 0 (by simp))
    have := ih (k + 1) (fun i hi => by
      have := h (i + 1) (by simpa using hi)
      rw [Nat.add_assoc, Nat.add_comm 1 i]; simpa using this)
    unfold Tool.reportText
    rw [e, List.count_append, List.count_append, List.count_eq_zero.2 ht, this, List.length_cons]
    simp [Nat.add_comm]

/-- The report of the sample run. -/
example : CleanParts {} ⟨b!"s", b!"d.e", b!"s", .perm .fail (.badA b!"rsa-md5")⟩ := by
  refine ⟨by decide, by decide, by unfold CleanName; decide, by unfold CleanName; decide, by unfold CleanName; decide, ?_⟩
  intro a r h
  rcases h with h | h | h <;> cases h
  simp [quoted]

end Dkim

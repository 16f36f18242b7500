import Verif.Model.Tool
import Verif.Spec.Tool
import Verif.Props.VerifyBody
import Verif.Props.SignatureHistory
import Verif.Props.RoundTrip
/-!
# Properties C59, C60: the command line tool
-/

namespace Dkim
open Spec

variable {E : Env}

theorem verifyOne_same {v w : Validatory} (hw : SameMessage w v) (now : Int) (resolver : Bytes → Bool × Bytes) (h : Header)
    (er : Bool) :
    (w.verifyOne E now resolver h er).1 = (v.verifyOne E now resolver h er).1 ∧
    (w.verifyOne E now resolver h er).2.1 = (v.verifyOne E now resolver h er).2.1 ∧
    (w.verifyOne E now resolver h er).2.2.1 = (v.verifyOne E now resolver h er).2.2.1 ∧
    SameMessage (w.verifyOne E now resolver h er).2.2.2 v := by
  obtain ⟨e1, e2⟩ := run_same hw (Check.getSignature now h { erange := er } : Check E)
  have hvv : SameMessage v v := ⟨rfl, rfl, rfl, by obtain ⟨a, b, _, c⟩ := hw; unfold ValidOffset at *; rw [← a, ← b]; exact c⟩
  obtain ⟨_, e3⟩ := run_same hvv (Check.getSignature now h { erange := er } : Check E)
  unfold Validatory.verifyOne
  simp only [Check.run] at e1 e2 e3
  generalize w.getSignature E now h { erange := er } = A at e1 e2
  generalize v.getSignature E now h { erange := er } = B at e1 e3
  obtain ⟨a1, a2, a3⟩ := A
  obtain ⟨b1, b2, b3⟩ := B
  simp only [Prod.mk.injEq, Option.some.injEq] at e1 e2 e3
  obtain ⟨rfl, rfl⟩ := e1
  cases a1 with
  | error e => exact ⟨rfl, rfl, rfl, e2⟩
  | ok u =>
    simp only
    cases getPublicKey resolver a2.sig ({} : PublicKey E) with
    | error e p => exact ⟨rfl, rfl, rfl, e2⟩
    | ok u p =>
      simp only
      rw [e2.2.1, e3.2.1]
      exact ⟨rfl, trivial, trivial, e2⟩

/-- `line` is a correct report on job `j` for the verification at time `now` with errno `er` before it, by itself: with
objects freshly made for that file. -/
def Spec.Correct (E : Env) (type : ValidatorType) (now : Int) (resolver : Bytes → Bool × Bytes) (j : Job) (er : Bool)
    (line : Tool.Line) : Prop :=
  ∃ v r st pub v', Validatory.mk' (freshStream j.text) type = .ok v ∧ v.verifyOne E now resolver j.field er = (r, st, pub, v') ∧
    line.file = j.file ∧ line.domain = cstr st.sig.domain ∧ line.selector = cstr st.sig.selector ∧
    Says r pub.softFail line.verdict

/-- Verification of `j` ends the process: a signature header of 2 GiB or more, or short Ed25519 data (C43). -/
def Spec.Fatal (E : Env) (type : ValidatorType) (now : Int) (resolver : Bytes → Bool × Bytes) (j : Job) (er : Bool) (e : Err) : Prop :=
  ∃ v st pub v', Validatory.mk' (freshStream j.text) type = .ok v ∧ v.verifyOne E now resolver j.field er = (.error e, st, pub, v') ∧
    ((e = .outOfRange ∧ 2 ^ 31 ≤ j.field.header.length) ∨ (e = .ub ∧ st.sig.alg = .ed25519 ∧ st.sig.b.length < 63))

/-- The report on a list of jobs, the first being the k-th of the run. -/
inductive Spec.Reported (E : Env) (type : ValidatorType) (clock : Nat → Int) (resolver : Bytes → Bool × Bytes) :
    Nat → List Job → List Tool.Line → Option Err → Prop
  | done (k) : Reported E type clock resolver k [] [] none
  | line (k j js er l ls o) : Correct E type (clock k) resolver j er l → Reported E type clock resolver (k + 1) js ls o →
      Reported E type clock resolver k (j :: js) (l :: ls) o
  | fatal (k j js er e) : Fatal E type (clock k) resolver j er e → Reported E type clock resolver k (j :: js) [] (some e)

theorem Spec.Reported.append {type : ValidatorType} {clock : Nat → Int} {resolver : Bytes → Bool × Bytes} {k : Nat} {js : List Job}
    {ls : List Tool.Line} {js' : List Job} {ls' : List Tool.Line} {o : Option Err}
    (h : Reported E type clock resolver k js ls none) (h' : Reported E type clock resolver (k + js.length) js' ls' o) :
    Reported E type clock resolver k (js ++ js') (ls ++ ls') o := by
  generalize hn : (none : Option Err) = n at h
  induction h with
  | done k => simpa using h'
  | line k j js er l ls o hc _ ih =>
    subst hn
    refine .line k j _ er l _ _ hc (ih ?_ rfl)
    simpa [Nat.add_assoc, Nat.add_comm 1] using h'
  | fatal => cases hn

theorem Spec.Reported.append_fatal {type : ValidatorType} {clock : Nat → Int} {resolver : Bytes → Bool × Bytes} {k : Nat}
    {js : List Job} {ls : List Tool.Line} {js' : List Job} {e : Err} (h : Reported E type clock resolver k js ls (some e)) :
    Reported E type clock resolver k (js ++ js') ls (some e) := by
  generalize hn : some e = n at h
  induction h with
  | done k => cases hn
  | line k j js er l ls o hc _ ih => exact .line k j _ er l _ _ hc (ih hn)
  | fatal k j js er e' hf => exact .fatal k j _ er e' hf

theorem validateSigs_reported (type : ValidatorType) (clock : Nat → Int) (resolver : Bytes → Bool × Bytes)
    (noise : Nat → Bool → Bool) (file d : Bytes) (v : Validatory) (hv : Validatory.mk' (freshStream d) type = .ok v)
    (hs : List Header) : ∀ (k : Nat) (w : Validatory) (er : Bool), SameMessage w v →
      Reported E type clock resolver k (hs.map (fun h => (⟨file, d, h⟩ : Job)))
        (Tool.validateSigs E clock resolver noise file k w er hs).1 (Tool.validateSigs E clock resolver noise file k w er hs).2.1 := by
  induction hs with
  | nil => intro k w er _; exact .done k
  | cons h hs ih =>
    intro k w er hw
    obtain ⟨e1, e2, e3, e4⟩ := verifyOne_same (E := E) hw (clock k) resolver h (noise k er)
    have hsafe := C43_memory_safe_partial (E := E) (clock k) resolver d type v hv h (noise k er)
    unfold Tool.validateSigs
    simp only [List.map_cons]
    cases hV : v.verifyOne E (clock k) resolver h (noise k er) with
    | mk r q =>
    obtain ⟨st, pub, v'⟩ := q
    cases hW : w.verifyOne E (clock k) resolver h (noise k er) with
    | mk r' q' =>
    obtain ⟨st', pub', w'⟩ := q'
    rw [hV] at hsafe
    rw [hV, hW] at e1 e2 e3
    rw [hW] at e4
    simp only at e1 e2 e3 e4
    subst e1 e2 e3
    have correct : ∀ l, Tool.lineFor file r' st' pub' = .ok l → Correct E type (clock k) resolver ⟨file, d, h⟩ (noise k er) l := by
      intro l hl
      refine ⟨v, r', st', pub', v', hv, hV, ?_⟩
      unfold Tool.lineFor at hl
      cases r' with
      | ok u => cases hl; exact ⟨rfl, rfl, rfl, .ok _⟩
      | error e =>
        cases e with
        | temp r a => cases hl; exact ⟨rfl, rfl, rfl, .temperr _ _ _⟩
        | perm r a =>
          cases hl
          refine ⟨rfl, rfl, rfl, ?_⟩
          cases hs : pub'.softFail with
          | true => exact .soft _ _
          | false => exact .perm _ _
        | outOfRange => cases hl
        | ub => cases hl
        | hang => cases hl
    simp only
    cases hl : Tool.lineFor file r' st' pub' with
    | ok l =>
      simp only
      exact .line k _ _ (noise k er) l _ _ (correct l hl) (ih (k + 1) w' st'.erange e4)
    | error e =>
      refine .fatal k _ _ (noise k er) e ⟨v, st', pub', v', hv, ?_⟩
      have : r' = .error e ∧ ∀ r a, e ≠ .perm r a ∧ e ≠ .temp r a := by
        unfold Tool.lineFor at hl
        cases r' with
        | ok u => cases hl
        | error e' => cases e' <;> cases hl <;> exact ⟨rfl, fun _ _ => ⟨by simp, by simp⟩⟩
      obtain ⟨rfl, hne⟩ := this
      refine ⟨hV, ?_⟩
      rcases hsafe e rfl with ⟨r, a, rfl⟩ | ⟨r, a, rfl⟩ | hh | hh
      · exact absurd rfl (hne r a).1
      · exact absurd rfl (hne r a).2
      · exact Or.inl hh
      · exact Or.inr hh

theorem openFile_some {fs : Bytes → Option Bytes} {f d : Bytes} (h : fs f = some d) : Tool.openFile fs f = freshStream d := by
  unfold Tool.openFile; rw [h]; rfl

theorem openFile_none {fs : Bytes → Option Bytes} {f : Bytes} (h : fs f = none) (type : ValidatorType) :
    ∃ v, Validatory.mk' (Tool.openFile fs f) type = .ok v ∧ v.sigs = [] := by
  unfold Tool.openFile
  rw [h]
  exact ⟨_, rfl, rfl⟩

/-- C59: what `-v` prints, for all files, texts, keys, clocks and errno histories: one correct line per signature field,
in order, each saying what verification of that field by itself gives; the process ends with status 0 after the last one,
or earlier in the cases of C43 only. Files that cannot be opened and files without signatures are not mentioned. -/
theorem C59_report (clock : Nat → Int) (resolver : Bytes → Bool × Bytes) (noise : Nat → Bool → Bool)
    (fs : Bytes → Option Bytes) (type : ValidatorType) (files : List Bytes) (er : Bool) :
    ∃ ls o, Reported E type clock resolver 0 (jobs type fs files) ls o ∧
      Tool.validateFiles E clock resolver noise fs type 0 er files =
        (ls, match o with | none => .exit 0 | some e => .abort e) := by
  have main : ∀ (files : List Bytes) (k : Nat) (er : Bool), ∃ ls o, Reported E type clock resolver k (jobs type fs files) ls o ∧
      Tool.validateFiles E clock resolver noise fs type k er files =
        (ls, match o with | none => .exit 0 | some e => .abort e) := by
    intro files
    induction files with
    | nil => intro k er; exact ⟨[], none, .done k, rfl⟩
    | cons f files ih =>
      intro k er
      unfold Tool.validateFiles
      cases hf : fs f with
      | none =>
        obtain ⟨v, h1, h2⟩ := openFile_none hf type
        obtain ⟨ls, o, h3, h4⟩ := ih k er
        refine ⟨ls, o, ?_, ?_⟩
        · have : jobs type fs (f :: files) = jobs type fs files := by unfold jobs; simp [hf]
          rw [this]; exact h3
        · rw [h1]
          simp only [h2, Tool.validateSigs, List.length_nil, Nat.add_zero, h4, List.nil_append]
      | some d =>
        rw [openFile_some hf]
        obtain ⟨v, _, _, h1, _, _⟩ := C41_discovery d type
        have hj : jobs type fs (f :: files) = v.sigs.map (fun h => (⟨f, d, h⟩ : Job)) ++ jobs type fs files := by
          unfold jobs sigFields
          simp [hf, h1]
        rw [h1, hj]
        simp only
        have hr := validateSigs_reported (E := E) type clock resolver noise f d v h1 v.sigs k v er
          ⟨rfl, rfl, rfl, (mk'_built d type v h1).1.off⟩
        generalize Tool.validateSigs E clock resolver noise f k v er v.sigs = R at hr
        obtain ⟨ls, o, er'⟩ := R
        cases o with
        | some e => exact ⟨ls, some e, hr.append_fatal, rfl⟩
        | none =>
          obtain ⟨ls', o', h3, h4⟩ := ih (k + v.sigs.length) er'
          refine ⟨ls ++ ls', o', hr.append (by simpa using h3), ?_⟩
          simp only [h4]
  exact main files 0 er

end Dkim

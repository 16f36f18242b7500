import Verif.Proofs.Threads
import Verif.Tests.Samples
/-!
# C104: Calls in several threads

`Validatory::GetSignature` and `CheckBodyHash` move the one read position of the message stream. The theorems say what
threads may do at the same time, for every schedule.
-/

namespace Dkim
open Spec

variable {E : Env}

/-- The world at the start: the `Validatory` objects are built, the threads have not begun. -/
def Spec.verifiers (E : Env) (vs : Nat → Validatory) (jobs : List Verifier) : Thr.World (List (Except Err Unit)) :=
  { files := fun i => (vs i).file, threads := jobs.map (Verifier.prog E vs) }

theorem verifiers_inv (texts : Nat → Bytes) (types : Nat → ValidatorType) (vs : Nat → Validatory)
    (hv : ∀ i, Validatory.mk' { data := texts i } (types i) = .ok (vs i)) (jobs : List Verifier) :
    ∃ ns, Thr.Inv texts (verifiers E vs jobs) (jobs.map (Verifier.verdicts E vs)) ns := by
  have hb : ∀ i, Built (texts i) (vs i) := fun i => (mk'_built (texts i) (types i) (vs i) (hv i)).1
  have hx : ∀ j : Verifier, ∃ n, Thr.Expects texts (j.prog E vs) (j.verdicts E vs) n := by
    intro j
    exact Thr.verifyAll_expects j.on j.now j.resolver (vs j.on) j.fields (vs j.on) j.errno .ret _ 0
      ⟨rfl, rfl, rfl, (hb j.on).off⟩ (hb j.on).data (.ret _)
  -- one bound for each thread
  refine ⟨jobs.map (fun j => Classical.choose (hx j)), ?_, ?_, ?_, ?_, ?_⟩
  · exact fun i => (hb i).data
  · simp [verifiers]
  · simp [verifiers]
  · intro t h
    simp only [verifiers, List.getElem_map]
    exact .inl (Classical.choose_spec (hx _))
  · intro t t' h h' i _ hin
    simp only [verifiers, List.getElem_map] at hin
    obtain ⟨n, hn⟩ := hx (jobs[t]'(by simpa [verifiers] using h))
    rw [hn.notIn] at hin
    cases hin

/-- C104: any number of threads verify any fields with any number of shared `Validatory` objects, and body checks on one
stream exclude each other. Whatever the schedule, a thread that has finished got exactly the verdicts it would have got if it
had been the only one. -/
theorem C104_mutex (texts : Nat → Bytes) (types : Nat → ValidatorType) (vs : Nat → Validatory)
    (hv : ∀ i, Validatory.mk' { data := texts i } (types i) = .ok (vs i)) (jobs : List Verifier)
    (schedule : List Nat) (t : Nat) (rs : List (Except Err Unit))
    (h : ((verifiers E vs jobs).run true schedule).threads[t]? = some (.ret rs)) :
    ∃ j, jobs[t]? = some j ∧ rs = inTurn (fun v => v.verifyOne E j.now j.resolver) (vs j.on) j.errno j.fields := by
  obtain ⟨ns, hi⟩ := verifiers_inv (E := E) texts types vs hv jobs
  obtain ⟨ns', hi'⟩ := hi.after schedule
  have ht : t < jobs.length := by
    have := (List.getElem?_eq_some_iff.1 h).1
    rw [Thr.run_length] at this
    simpa [verifiers] using this
  refine ⟨jobs[t], List.getElem?_eq_getElem ht, ?_⟩
  exact hi'.result h (by rw [List.getElem?_map, List.getElem?_eq_getElem ht]; rfl)

/-- C104: and they all finish, with these verdicts, if everybody gets enough turns: there is no deadlock. -/
theorem C104_finish (texts : Nat → Bytes) (types : Nat → ValidatorType) (vs : Nat → Validatory)
    (hv : ∀ i, Validatory.mk' { data := texts i } (types i) = .ok (vs i)) (jobs : List Verifier) :
    ∃ N, ∀ schedule, Rounds jobs.length N schedule → ∀ (t : Nat) (j : Verifier), jobs[t]? = some j →
      ((verifiers E vs jobs).run true schedule).threads[t]? =
        some (.ret (inTurn (fun v => v.verifyOne E j.now j.resolver) (vs j.on) j.errno j.fields)) := by
  obtain ⟨ns, hi⟩ := verifiers_inv (E := E) texts types vs hv jobs
  refine ⟨ns.sum + 1, fun schedule hr t j hj => ?_⟩
  refine Thr.Inv.finish hr hi (by simp [verifiers]) (by omega) t _ ?_
  rw [List.getElem?_map, hj]
  rfl

/-- C104: threads that sign or verify messages read from streams of their own do not need any mutex: whatever the schedule and
whatever the others do, a thread that has finished has the outcome of the same task in a program with one thread, and it
finishes after a number of turns of its own that does not depend on the others. -/
theorem C104_own (tasks : List (Task E)) (mutex : Bool) :
    let w : Thr.World Outcome :=
      { files := fun i => { data := ((tasks[i]?).map Task.text).getD [] }, threads := tasks.mapIdx Task.prog }
    ∀ (t : Nat) (x : Task E), tasks[t]? = some x → ∃ r, x.alone = some r ∧
      (∀ schedule r', (w.run mutex schedule).threads[t]? = some (.ret r') → r' = r) ∧
      ∃ N, ∀ schedule, N ≤ schedule.count t → (w.run mutex schedule).threads[t]? = some (.ret r) := by
  intro w t x hx
  obtain ⟨r, hr, hrun⟩ := Thr.task_alone t x
  obtain ⟨n, f', hn⟩ := hrun w.files (by show ({ data := ((tasks[t]?).map Task.text).getD [] } : IStream) = _; rw [hx]; rfl)
  have ho : ∀ (t : Nat) (p : Thr.Prog Outcome), (tasks.mapIdx Task.prog)[t]? = some p → Thr.Only t p := by
    intro t p hp
    rw [List.getElem?_mapIdx] at hp
    cases hq : tasks[t]? with
    | none => rw [hq] at hp; cases hp
    | some y => rw [hq] at hp; cases hp; exact Thr.task_only t y
  have hp : (tasks.mapIdx Task.prog)[t]? = some (x.prog t) := by rw [List.getElem?_mapIdx, hx]; rfl
  have hrunw := fun s => (Thr.own_run mutex _ w.files ho s t _ hp).1
  refine ⟨r, hr, ?_, n, ?_⟩
  · intro schedule r' h'
    have h1 := (hrunw schedule).symm.trans h'
    rw [Option.some.injEq] at h1
    -- both have reached their end
    rcases Nat.le_total n (schedule.count t) with hle | hle
    · obtain ⟨d, hd⟩ := Nat.exists_eq_add_of_le hle
      rw [hd, Thr.alone_add, hn, Thr.alone_ret] at h1
      cases h1; rfl
    · obtain ⟨d, hd⟩ := Nat.exists_eq_add_of_le hle
      rw [hd, Thr.alone_add, h1, Thr.alone_ret] at hn
      cases hn; rfl
  · intro schedule hle
    rw [show (w.run mutex schedule).threads[t]? = _ from hrunw schedule]
    obtain ⟨d, hd⟩ := Nat.exists_eq_add_of_le hle
    rw [hd, Thr.alone_add, hn, Thr.alone_ret]

/-! ### Without the mutex -/

namespace Samples

/-- A message with an empty body, signed with relaxed body canonicalization. -/
def emptyBody : Bytes := signed { rsaOpts with canonBody := .relaxed } b!"From: a@b.c\r\nTo: x\r\n\r\n"

/-- The same with a body put in later. -/
def bodyAdded : Bytes := emptyBody ++ b!"Pay me\r\n"

/-- Two threads verify all signatures of one message with one `Validatory`. -/
def twoThreads (rec msg : Bytes) (mutex : Bool) (schedule : List Nat) : Option (List (Option (List (Except Err Unit)))) :=
  match Validatory.mk' { data := msg } .dkim with
  | .error _ => none
  | .ok v =>
    let j : Verifier := { on := 0, fields := v.sigs, now := 0, resolver := fun _ => (true, rec), errno := false }
    some (((verifiers toyEnv (fun _ => v) [j, j]).run mutex schedule).threads.map Thr.Prog.result)

end Samples

/-- C104: why the mutex is needed. The signature of a message with an empty body is bad once a body has been put in. Two threads
verify the changed message with one `Validatory`; the second one reads the body between the first one's `good()` and `read`.
The first thread accepts the message. -/
theorem C104_race_witness :
    Samples.verify Samples.rsaRec Samples.emptyBody = some (.ok ()) ∧
    Samples.verify Samples.rsaRec Samples.bodyAdded = some (.error (.perm .bodyHashMismatch .fail)) ∧
    Samples.twoThreads Samples.rsaRec Samples.bodyAdded false [0, 0, 0, 1, 1, 1, 1, 1, 0, 0] =
      some [some [.ok ()], some [.error (.perm .bodyHashMismatch .fail)]] := by
  decide +kernel

/-- With the mutex the same turns leave the second thread waiting, and both verdicts are right in the end. -/
example : Samples.twoThreads Samples.rsaRec Samples.bodyAdded true [0, 0, 0, 1, 1, 1, 1, 1, 0, 0, 1, 1, 1, 1, 1] =
    some [some [.error (.perm .bodyHashMismatch .fail)], some [.error (.perm .bodyHashMismatch .fail)]] := by
  decide +kernel

/-- The hypotheses of `C104_mutex` are met, with a thread that has finished. -/
example : ∃ v, Validatory.mk' { data := Samples.bodyAdded } .dkim = .ok v ∧ v.sigs.length = 1 ∧
    Samples.twoThreads Samples.rsaRec Samples.bodyAdded true [0, 1, 0, 1, 0, 0, 1, 0] =
      some [some [.error (.perm .bodyHashMismatch .fail)], none] := by
  cases h : Validatory.mk' { data := Samples.bodyAdded } .dkim with
  | error e =>
    have : (match Validatory.mk' { data := Samples.bodyAdded } .dkim with | .ok _ => true | .error _ => false) = true := by
      decide +kernel
    rw [h] at this
    cases this
  | ok v =>
    have : (match Validatory.mk' { data := Samples.bodyAdded } .dkim with
      | .ok v => decide (v.sigs.length = 1) | .error _ => false) = true := by decide +kernel
    rw [h] at this
    exact ⟨v, rfl, of_decide_eq_true this, by decide +kernel⟩

/-- A signer and a verifier on streams of their own, turn by turn without a mutex. -/
example :
    let sign : Task toyEnv := .sign Samples.message Samples.rsaOpts (fun _ => 0)
    let verify : Task toyEnv := .verify Samples.emptyBody .dkim 0 (fun _ => (true, Samples.rsaRec)) false
    let w : Thr.World Outcome :=
      { files := fun i => { data := (([sign, verify][i]?).map Task.text).getD [] }, threads := [sign, verify].mapIdx Task.prog }
    ((w.run false (List.flatten (List.replicate 20 [0, 1]))).threads.map (fun p =>
      match p.result with
      | some (.signature r) => decide (r = Samples.sign Samples.rsaOpts Samples.message)
      | some (.verdicts rs) => decide (rs = [.ok ()])
      | none => false)) = [true, true] := by
  decide +kernel

end Dkim

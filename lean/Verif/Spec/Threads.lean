import Verif.Model.Threads
/-!
# Specification: verifying fields one after the other, and schedules that leave nobody out
-/

namespace Dkim

variable {E : Env}

/-- The verdicts on a list of fields, one after the other, in one thread (one errno) with one `Validatory`. -/
def Spec.inTurn (one : Validatory → Header → Bool → Except Err Unit × SigSt × PublicKey E × Validatory) :
    Validatory → Bool → List Header → List (Except Err Unit)
  | _, _, [] => []
  | v, e, h :: hs =>
    match one v h e with
    | (r, st, _, v') => r :: Spec.inTurn one v' st.erange hs

/-- A schedule of `n` rounds (any order, any repetitions) in each of which every one of `k` threads has a turn. -/
inductive Spec.Rounds (k : Nat) : Nat → List Nat → Prop
  | none : Spec.Rounds k 0 []
  | round (n : Nat) (r rest : List Nat) : (∀ t, t < k → t ∈ r) → Spec.Rounds k n rest → Spec.Rounds k (n + 1) (r ++ rest)

/-- A thread that verifies fields of the message of one of the `Validatory` objects. -/
structure Spec.Verifier where
  /-- which `Validatory` -/
  on : Nat
  fields : List Header
  now : Int
  resolver : Bytes → Bool × Bytes
  errno : Bool

/-- The program of such a thread: the verdicts on its fields, one after the other. -/
def Spec.Verifier.prog (E : Env) (vs : Nat → Validatory) (j : Spec.Verifier) : Thr.Prog (List (Except Err Unit)) :=
  Thr.verifyAll E j.now j.resolver j.on (vs j.on).msg j.errno j.fields .ret

/-- What the thread would get if it were alone. -/
def Spec.Verifier.verdicts (E : Env) (vs : Nat → Validatory) (j : Spec.Verifier) : List (Except Err Unit) :=
  Spec.inTurn (fun v => v.verifyOne E j.now j.resolver) (vs j.on) j.errno j.fields

/-- What a thread does with a message of its own: sign it or verify all its signatures. -/
inductive Spec.Task (E : Env)
  | sign (text : Bytes) (o : Options E) (clock : Nat → Int)
  | verify (text : Bytes) (type : ValidatorType) (now : Int) (resolver : Bytes → Bool × Bytes) (errno : Bool)

inductive Spec.Outcome
  | signature (r : Except Err Bytes)
  | verdicts (rs : List (Except Err Unit))

def Spec.Task.text : Spec.Task E → Bytes
  | .sign d _ _ => d
  | .verify d _ _ _ _ => d

/-- The task as a thread on stream `i`. -/
def Spec.Task.prog (i : Nat) : Spec.Task E → Thr.Prog Spec.Outcome
  | .sign _ o clock => Thr.createSignature E o clock i {} (fun r _ => .ret (.signature r))
  | .verify _ type now resolver errno =>
    Thr.newValidatory i type (fun m sigs => Thr.verifyAll E now resolver i m errno sigs (fun rs => .ret (.verdicts rs)))

/-- The same task in a program with one thread. -/
def Spec.Task.alone : Spec.Task E → Option Spec.Outcome
  | .sign d o clock => some (.signature (Signatory.createSignature E o clock { file := { data := d } }).1)
  | .verify d type now resolver errno =>
    match Validatory.mk' { data := d } type with
    | .error _ => none
    | .ok v => some (.verdicts (Spec.inTurn (fun v => v.verifyOne E now resolver) v errno v.sigs))

end Dkim

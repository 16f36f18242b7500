import Verif.Model.Signatory
import Verif.Model.Validatory
/-!
# Threads

Calls of several threads, interleaved between any two accesses to the input streams. What a call does between two accesses
touches only its own variables, its own arguments and things that nobody changes while calls are running (the parsed message
of a `Validatory`, a `const SignatoryOptions`); `errno` is per thread; the library has no other global state that is written.
So a schedule that says whose next access comes next covers all interleavings. A single access is taken as atomic; without a
mutex that is more than C++ promises (a data race is undefined behaviour), so what goes wrong here goes wrong there.
-/

namespace Dkim.Thr

/-- Arguments of `CanonicalizationBody`, src/Canonicalization.hpp. -/
structure BodyArgs where
  mode : CanonMode
  off : Int
  limit : Bool
  size : Nat
  deriving DecidableEq, Repr

/-- What a thread still has to do. Every constructor but `ret` stands before one access to stream number `i`; `k` is what
follows the loop it belongs to. -/
inductive Prog (α : Type)
  /-- finished with result `a` -/
  | ret (a : α)
  /-- before `std::getline` in `Message::ParseLine`, src/MailParser.cpp:88 -/
  | line (i : Nat) (m : Message) (k : Message → Prog α)
  /-- before `tellg`, src/MailParser.cpp:108 -/
  | tell (i : Nat) (m : Message) (k : Message → Prog α)
  /-- before `clear`, src/Canonicalization.cpp:131 -/
  | clear (i : Nat) (b : BodyArgs) (k : List Bytes × Bool → Prog α)
  /-- before `seekg`, src/Canonicalization.cpp:132 -/
  | seek (i : Nat) (b : BodyArgs) (k : List Bytes × Bool → Prog α)
  /-- before `good()`, src/Canonicalization.cpp:136 -/
  | test (i : Nat) (b : BodyArgs) (a : BodyAcc) (k : List Bytes × Bool → Prog α)
  /-- before `read` and `gcount`, src/Canonicalization.cpp:141-143 -/
  | read (i : Nat) (b : BodyArgs) (a : BodyAcc) (k : List Bytes × Bool → Prog α)

/-- The end of `CanonicalizationBody`, src/Canonicalization.cpp:201-217. -/
def finish (b : BodyArgs) (a : BodyAcc) : List Bytes × Bool :=
  let a' := if a.empty = false ∨ b.mode ≠ .relaxed then a.emit b.limit CRLF else a
  (a'.calls, !(b.limit && a'.size > 0))

/-- One block, src/Canonicalization.cpp:143-198. -/
def feed (b : BodyArgs) (a : BodyAcc) (block : Bytes) : BodyAcc :=
  let (st', buf) := bodyBlock b.mode a.st block
  let a1 := ({ a with st := st' }).emit b.limit buf
  { a1 with empty := a1.empty && buf.isEmpty }

/-- The loop condition of the header loop, src/Validatory.cpp:50, src/Signatory.cpp:57. -/
def again (i : Nat) (ok : Bool) (m : Message) (k : Message → Prog α) : Prog α :=
  if ok && !m.done then .line i m k else k m

/-- The next access of a thread, to the stream `s` it addresses. -/
def Prog.step : Prog α → IStream → Prog α × IStream
  | .ret a, s => (.ret a, s)
  | .line i m k, s =>
    -- src/MailParser.cpp:85-126
    match s.getline with
    | (none, s1) => (again i false { m with headers := m.pushTmp, bodyOffset := -1, done := true } k, s1)
    | (some line0, s1) =>
      match chopCR line0 with
      | [] => (.tell i { m with tmp := none, headers := m.pushTmp } k, s1)
      | c :: cs =>
        let m1 : Message :=
          if c ≠ TAB ∧ c ≠ SP then { m with headers := m.pushTmp, tmp := some {} } else m
        let h := m1.tmp.getD {}
        (again i true { m1 with tmp := some (h.parseLine (c :: cs)) } k, s1)
  | .tell i m k, s => (again i true { m with bodyOffset := s.tellg.1, done := true } k, s.tellg.2)
  | .clear i b k, s => if b.off ≠ -1 then (.seek i b k, s.clear) else (k (finish b { size := b.size }), s)
  | .seek i b k, s => (.test i b { size := b.size } k, s.seekg b.off)
  | .test i b a k, s =>
    if !s.good then (k (finish b a), s)
    else if b.limit ∧ a.size = 0 then (k (finish b a), s)
    else (.read i b a k, s)
  | .read i b a k, s => (.test i b (feed b a (s.read 8096).1) k, (s.read 8096).2)

/-- The stream a thread accesses next.
For the accesses at src/MailParser.cpp:88,108, src/Canonicalization.cpp:131-141. -/
def Prog.stream : Prog α → Option Nat
  | .ret _ => none
  | .line i _ _ | .tell i _ _ | .clear i _ _ | .seek i _ _ | .test i _ _ _ | .read i _ _ _ => some i

/-- The stream on which a thread is in the middle of `CanonicalizationBody`.
src/Validatory.cpp:80-85,131-165, src/Canonicalization.cpp:131-141. -/
def Prog.inBody : Prog α → Option Nat
  | .seek i _ _ | .test i _ _ _ | .read i _ _ _ => some i
  | _ => none

/-- The stream on which a thread is about to enter `CanonicalizationBody`.
src/Validatory.cpp:80-85,131-165, src/Canonicalization.cpp:131-141. -/
def Prog.atBody : Prog α → Option Nat
  | .clear i _ _ => some i
  | _ => none

/-- What a thread that has finished returned.
For the accesses at src/MailParser.cpp:88,108, src/Canonicalization.cpp:131-141. -/
def Prog.result : Prog α → Option α
  | .ret a => some a
  | _ => none

/-- All streams and all threads. For the accesses at src/MailParser.cpp:88,108, src/Canonicalization.cpp:131-141. -/
structure World (α : Type) where
  files : Nat → IStream
  threads : List (Prog α)

/-- Another stream in one place. For the accesses at src/MailParser.cpp:88,108, src/Canonicalization.cpp:131-141. -/
def put (f : Nat → IStream) (i : Nat) (s : IStream) : Nat → IStream := fun j => if j = i then s else f j

/-- A thread on its own: one access. For the accesses at src/MailParser.cpp:88,108, src/Canonicalization.cpp:131-141. -/
def Prog.go (p : Prog α) (f : Nat → IStream) : Prog α × (Nat → IStream) :=
  match p.stream with
  | none => (p, f)
  | some i => ((p.step (f i)).1, put f i (p.step (f i)).2)

/-- A thread on its own: `n` accesses.
For the accesses at src/MailParser.cpp:88,108, src/Canonicalization.cpp:131-141. -/
def Prog.alone : Nat → Prog α → (Nat → IStream) → Prog α × (Nat → IStream)
  | 0, p, f => (p, f)
  | n + 1, p, f => Prog.alone n (p.go f).1 (p.go f).2

/-- Thread `t` has its turn. With `mutex` the program holds one mutex per stream around every body check (`GetSignature`,
`CheckBodyHash`): a thread that wants to enter waits while another one is inside.
src/Validatory.cpp:80-85,131-165, src/Canonicalization.cpp:131-141. -/
def World.turn (mutex : Bool) (w : World α) (t : Nat) : World α :=
  match w.threads[t]? with
  | none => w
  | some p =>
    if mutex ∧ p.atBody.isSome ∧ w.threads.any (fun q => decide (q.inBody = p.atBody)) then w
    else { files := (p.go w.files).2, threads := w.threads.set t (p.go w.files).1 }

/-- A schedule. For the accesses at src/MailParser.cpp:88,108, src/Canonicalization.cpp:131-141. -/
def World.run (mutex : Bool) (w : World α) (schedule : List Nat) : World α := schedule.foldl (World.turn mutex) w

/-! ## The calls -/

/-- `CheckBodyHash`, src/Validatory.cpp:131-165, on a `Validatory` with message `msg` over stream `i`. -/
def checkBodyHash (E : Env) (i : Nat) (msg : Message) (sig : Signature) (k : Except Err Unit → Prog α) : Prog α :=
  .clear i ⟨sig.canonBody, msg.bodyOffset, sig.bodySizeLimit, sig.bodySize⟩ (fun r =>
    k (if sig.bh = E.hash sig.digest r.1.flatten then .ok () else .error (.perm .bodyHashMismatch .fail)))

/-- `GetSignature`, src/Validatory.cpp:80-85. -/
def getSignature (E : Env) (now : Int) (i : Nat) (msg : Message) (h : Header) (st : SigSt) (k : Except Err Unit → SigSt → Prog α) :
    Prog α :=
  match Signature.parse E now h st with
  | .error e st' => k (.error e) st'
  | .ok () st' => checkBodyHash E i msg st'.sig (fun r => k r st')

/-- The whole verification of one field, see `Dkim.Validatory.verifyOne`. tools/src/main.cpp:178-183. -/
def verifyOne (E : Env) (now : Int) (resolver : Bytes → Bool × Bytes) (i : Nat) (msg : Message) (h : Header) (erange : Bool)
    (k : Except Err Unit → SigSt → PublicKey E → Prog α) : Prog α :=
  getSignature E now i msg h { erange := erange } (fun r st =>
    match r with
    | .error e => k (.error e) st {}
    | .ok () =>
      match getPublicKey resolver st.sig ({} : PublicKey E) with
      | .error e pub => k (.error e) st pub
      | .ok () pub => k (checkSignature E msg h st.sig pub) st pub)

/-- A thread that verifies fields one after the other (as tools/src/main.cpp:174-196 does), with its own errno: the list of
verdicts is passed on. -/
def verifyAll (E : Env) (now : Int) (resolver : Bytes → Bool × Bytes) (i : Nat) (msg : Message) :
    Bool → List Header → (List (Except Err Unit) → Prog α) → Prog α
  | _, [], k => k []
  | e, h :: hs, k =>
    verifyOne E now resolver i msg h e (fun r st _ =>
      verifyAll E now resolver i msg st.erange hs (fun rs => k (r :: rs)))

/-- The constructor of `Validatory`, src/Validatory.cpp:46-69. -/
def newValidatory (i : Nat) (type : ValidatorType) (k : Message → List Header → Prog α) : Prog α :=
  .line i {} (fun m => k m (m.headers.filter (isSigHeader type)))

/-- `CreateSignature`, src/Signatory.cpp:55-267, on a `Signatory` with message `m` over stream `i`. -/
def createSignature (E : Env) (o : Options E) (clock : Nat → Int) (i : Nat) (m : Message) (k : Except Err Bytes → Message → Prog α) :
    Prog α :=
  .line i m (fun msg =>
    .clear i ⟨o.canonBody, msg.bodyOffset, o.bodySignLength, o.bodyLength⟩ (fun r =>
      if !r.2 then k (.error (.p .bodyLimitExceeded)) msg
      else
        match signLoop o.canonHead o.headers msg.headers.reverse with
        | .error e => k (.error e) msg
        | .ok (hashed, names) =>
          k (allSignatures E o clock hashed (names ++ o.oversign.map lower) (E.hash o.digest r.1.flatten) 0 []
            o.signatures.reverse) msg))

end Dkim.Thr

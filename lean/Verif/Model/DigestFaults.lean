import Verif.Model.Signatory
import Verif.Model.Validatory
/-!
# Digest functions that fail

`EVP_MD_CTX_create`, `EVP_DigestInit_ex`, `EVP_DigestUpdate`, `EVP_DigestFinal_ex` and `EVP_MD_CTX_copy` report failure (no
memory, a digest that the installation does not offer) by their return value. The library looks at none of these values. The
functions of the library that compute digests are modelled again with calls that may fail.

What a call that failed leaves behind: creation, a null pointer, and giving it to another digest function is undefined
behaviour; initialization and copying, a context without a digest, on which every other call fails; an update, the context as
it was; the final call, `md` and `md_len` unwritten, and using them, as the callers do at once, is undefined behaviour.
Simplification: objects other than the digest contexts are created without failure.
-/

namespace Dkim

/-- Which calls succeed: of each function, if it is the k-th call of a digest function.
For the calls at src/Validatory.cpp:133-158,192-256, src/Signatory.cpp:60-84,89-130,196-201. -/
structure DigestLib where
  create : Nat → Bool := fun _ => true
  init : Nat → Bool := fun _ => true
  update : Nat → Bool := fun _ => true
  copy : Nat → Bool := fun _ => true
  final : Nat → Bool := fun _ => true

/-- What an `EVP_MD_CTX*` points to. src/Validatory.cpp:133,192, src/Signatory.cpp:60,89,196. -/
inductive DigestCtx
  | null
  /-- a context without a digest -/
  | blank
  /-- a context that has been fed these bytes -/
  | ready (da : DigestAlg) (fed : Bytes)
  deriving DecidableEq, Repr

/-- Computations that call digest functions; the state is the number of calls so far.
For the calls at src/Validatory.cpp:133-158,192-256, src/Signatory.cpp:60-84,89-130,196-201. -/
abbrev DigM := EStateM Err Nat

namespace Dig

/-- Does this call succeed?
For the calls at src/Validatory.cpp:133-158,192-256, src/Signatory.cpp:60-84,89-130,196-201. -/
def ask (f : Nat → Bool) : DigM Bool := fun k => .ok (f k) (k + 1)

/-- `EVP_MD_CTX_create()`, `EVP_MD_CTX_new()`. src/Validatory.cpp:133,192, src/Signatory.cpp:60,89,196. -/
def create (L : DigestLib) : DigM DigestCtx := do
  if ← ask L.create then return .blank else return .null

/-- `EVP_DigestInit_ex(ctx, md, nullptr)`. src/Validatory.cpp:136-144,194-203, src/Signatory.cpp:61-69,91-100. -/
def init (L : DigestLib) (c : DigestCtx) (da : DigestAlg) : DigM DigestCtx :=
  match c with
  | .null => throw .ub
  | _ => do if ← ask L.init then return .ready da [] else return .blank

/-- `EVP_DigestUpdate(ctx, data, size)`.
src/Canonicalization.hpp:38, src/Validatory.cpp:237,252, src/Signatory.cpp:130,199,204. -/
def update (L : DigestLib) (c : DigestCtx) (d : Bytes) : DigM DigestCtx :=
  match c with
  | .null => throw .ub
  | .blank => do
    let _ ← ask L.update
    return .blank
  | .ready da fed => do if ← ask L.update then return .ready da (fed ++ d) else return .ready da fed

/-- `EVP_DigestFinal_ex(ctx, md, &md_len)` and the use of `md` and `md_len`.
src/Validatory.cpp:158,256, src/Signatory.cpp:84,200. -/
def final (E : Env) (L : DigestLib) (c : DigestCtx) : DigM Bytes :=
  match c with
  | .null => throw .ub
  | .blank => do
    let _ ← ask L.final
    throw .ub
  | .ready da fed => do if ← ask L.final then return E.hash da fed else throw .ub

/-- `EVP_MD_CTX_copy(ctx2, ctx)`; the result is what `ctx2` is afterwards. src/Signatory.cpp:196-198. -/
def copy (L : DigestLib) (dst src : DigestCtx) : DigM DigestCtx :=
  match dst, src with
  | .null, _ => throw .ub
  | _, .null => throw .ub
  | _, .blank => do
    let _ ← ask L.copy
    return .blank
  | _, .ready da fed => do if ← ask L.copy then return .ready da fed else return .blank

/-- A new context for `da`: src/Validatory.cpp:133-144 and 192-204, src/Signatory.cpp:60-69 and 89-101. -/
def start (L : DigestLib) (da : DigestAlg) : DigM DigestCtx := do
  let c ← create L
  init L c da

/-- The calls of `EVPDigest::update`, src/Canonicalization.hpp:33-40. -/
def feed (L : DigestLib) : DigestCtx → List Bytes → DigM DigestCtx
  | c, [] => return c
  | c, d :: ds => do
    let c ← update L c d
    feed L c ds

/-- Steps that call no digest function. For src/Validatory.cpp:206-248, src/Signatory.cpp:119-194. -/
def liftX (r : Except Err α) : DigM α := fun k =>
  match r with
  | .ok a => .ok a k
  | .error e => .error e k

/-- `CheckBodyHash`, src/Validatory.cpp:131-165, when `k` digest functions have been called before. -/
def checkBodyHash (E : Env) (L : DigestLib) (v : Validatory) (sig : Signature) (k : Nat) :
    Except Err Unit × Validatory :=
  match start L sig.digest k with
  | .error e _ => (.error e, v)
  | .ok c k =>
    match canonBody v.file sig.canonBody v.msg.bodyOffset sig.bodySizeLimit sig.bodySize with
    | .error e => (.error e, v)
    | .ok ((calls, _), s') =>
      let v' := { v with file := s' }
      match (do final E L (← feed L c calls) : DigM Bytes) k with
      | .error e _ => (.error e, v')
      | .ok md _ => if sig.bh = md then (.ok (), v') else (.error (.perm .bodyHashMismatch .fail), v')

/-- `GetSignature`, src/Validatory.cpp:80-85. -/
def getSignature (E : Env) (L : DigestLib) (now : Int) (v : Validatory) (h : Header) (st : SigSt) (k : Nat) :
    Except Err Unit × SigSt × Validatory :=
  match Signature.parse E now h st with
  | .error e st' => (.error e, st', v)
  | .ok () st' =>
    match checkBodyHash E L v st'.sig k with
    | (r, v') => (r, st', v')

/-- The loop over the signed header names, src/Validatory.cpp:218-238. -/
def headLoop (L : DigestLib) (mode : CanonMode) : DigestCtx → HeaderCache → List Bytes → DigM DigestCtx
  | c, _, [] => return c
  | c, cache, name :: names =>
    let k := lower name
    match (cache k).getLast? with
    | none => headLoop L mode c cache names
    | some h => do
      let t ← liftX (filterHeader mode h.header)
      let c ← update L c (t ++ CRLF)
      headLoop L mode c (cache.put k (cache k).dropLast) names

/-- `CheckSignature`, src/Validatory.cpp:172-283. -/
def checkSignature (E : Env) (L : DigestLib) (msg : Message) (h : Header) (sig : Signature) (pub : PublicKey E) :
    DigM Unit := do
  liftX (sanityCheck sig pub)
  let c ← start L sig.digest
  let c ← headLoop L sig.canonHeader c (HeaderCache.fill msg.headers) sig.headers
  let t ← liftX (stripB h sig)
  let t ← liftX (filterHeader sig.canonHeader t)
  let c ← update L c t
  let md ← final E L c
  liftX (verifyDigest E sig pub md)

/-- The loop over the headers from the bottom up, src/Signatory.cpp:119-134. -/
def signLoop (L : DigestLib) (mode : CanonMode) (sel : List Bytes) : DigestCtx → List Header → DigM (DigestCtx × List Bytes)
  | c, [] => return (c, [])
  | c, h :: hs =>
    if isSelected sel h then do
      let t ← liftX (filterHeader mode h.header)
      let c ← update L c (t ++ CRLF)
      let (c, names) ← signLoop L mode sel c hs
      return (c, lower h.name :: names)
    else signLoop L mode sel c hs

/-- One generated signature header, src/Signatory.cpp:143-260; `head` is the context over the message headers. -/
def oneSignature (E : Env) (L : DigestLib) (o : Options E) (s : SigOpts E) (now : Int) (head : DigestCtx)
    (names : List Bytes) (bh : Bytes) : DigM Bytes := do
  let text ← liftX (sigHeaderText o s now names bh)
  let c ← create L
  let c ← copy L c head
  let t2 ← liftX (filterHeader o.canonHead text)
  let c ← update L c t2
  let md ← final E L c
  let sg ← liftX (signDigest E s o.digest md)
  let b ← liftX (foldB ((b64Encode sg).length + 1) 3 (b64Encode sg))
  return text ++ b

/-- The loop over the signatures, src/Signatory.cpp:141-265. -/
def allSignatures (E : Env) (L : DigestLib) (o : Options E) (clock : Nat → Int) (head : DigestCtx)
    (names : List Bytes) (bh : Bytes) : Nat → Bytes → List (SigOpts E) → DigM Bytes
  | _, acc, [] => return acc
  | j, acc, s :: ss => do
    let h ← oneSignature E L o s (clock j) head names bh
    allSignatures E L o clock head names bh (j + 1) ((if acc.isEmpty then acc else acc ++ CRLF) ++ h) ss

/-- `CreateSignature`, src/Signatory.cpp:55-267. -/
def createSignature (E : Env) (L : DigestLib) (o : Options E) (clock : Nat → Int) (sg : Signatory) (k : Nat) :
    Except Err Bytes × Signatory :=
  match sg.msg.parseAll sg.file with
  | .error e => (.error e, sg)
  | .ok (msg, s1) =>
    match start L o.digest k with
    | .error e _ => (.error e, { file := s1, msg := msg })
    | .ok body k =>
      match canonBody s1 o.canonBody msg.bodyOffset o.bodySignLength o.bodyLength with
      | .error e => (.error e, { file := s1, msg := msg })
      | .ok ((calls, ok), s2) =>
        let sg' : Signatory := { file := s2, msg := msg }
        match (do
          let body ← feed L body calls
          liftX (if !ok then .error (.p .bodyLimitExceeded) else .ok ())
          let bh ← final E L body
          let head ← start L o.digest
          let (head, names) ← signLoop L o.canonHead o.headers head msg.headers.reverse
          allSignatures E L o clock head (names ++ o.oversign.map lower) bh 0 [] o.signatures.reverse : DigM Bytes) k with
        | .error e _ => (.error e, sg')
        | .ok t _ => (.ok t, sg')

end Dig
end Dkim

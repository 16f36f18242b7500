import Verif.Model.Signatory
import Verif.Model.Validatory
/-!
# Temporary objects: digest contexts, BIOs, `EVP_PKEY`s and buffers

The functions of the library that create and free objects of OpenSSL (other than the RSA keys that
options and public keys hold, see `Model/Ownership`) or raw buffers, with these objects made
explicit: every creation, use and release is a step on the set of live objects. What the functions
compute otherwise is written with the definitions of the other model files.

Simplifications: creation does not fail; `std::string`s and containers, which free themselves, are
left out.
-/

namespace Dkim

/-- What is created and has to be freed.
src/Base64.cpp:31-44,51-67, src/SignatoryOptions.cpp:98-119, src/PublicKey.cpp:122-138, src/Validatory.cpp:133,192, src/Signatory.cpp:60,89,196-249. -/
inductive TmpKind
  /-- `EVP_MD_CTX` -/
  | digestCtx
  /-- `BIO` -/
  | bio
  /-- `EVP_PKEY` -/
  | pkey
  /-- `new unsigned char[]` -/
  | buffer
  deriving DecidableEq, Repr

/-- The temporary objects of the program.
src/Base64.cpp:31-44,51-67, src/SignatoryOptions.cpp:98-119, src/PublicKey.cpp:122-138, src/Validatory.cpp:133,192, src/Signatory.cpp:60,89,196-249. -/
structure TmpObjects where
  /-- number of objects created so far; the n-th has number n -/
  next : Nat := 0
  /-- created and not yet freed -/
  live : List (Nat × TmpKind) := []
  /-- objects that were used or freed when they were not alive -/
  misused : List Nat := []
  deriving DecidableEq, Repr

/-- Is the object alive?
src/Base64.cpp:31-44,51-67, src/SignatoryOptions.cpp:98-119, src/PublicKey.cpp:122-138, src/Validatory.cpp:133,192, src/Signatory.cpp:60,89,196-249. -/
def TmpObjects.alive (h : TmpObjects) (i : Nat) : Bool := h.live.any (fun p => p.1 = i)

/-- Computations of the library that keep an object `σ` and work with temporary objects.
For src/Signature.cpp:72-300, src/PublicKey.cpp:53-180, src/Validatory.cpp:131-283, src/Signatory.cpp:55-267. -/
abbrev TmpM (σ : Type) := EStateM Err (σ × TmpObjects)

namespace Tmp

/-- `EVP_MD_CTX_create()`, `EVP_MD_CTX_new()`, `BIO_new()`, `new unsigned char[]`.
src/Base64.cpp:31-44,51-67, src/SignatoryOptions.cpp:98-119, src/PublicKey.cpp:122-138, src/Validatory.cpp:133,192, src/Signatory.cpp:60,89,196-249. -/
def new (k : TmpKind) : TmpM σ Nat := fun (st, h) =>
  .ok h.next (st, { h with next := h.next + 1, live := (h.next, k) :: h.live })

/-- An access to object `i`.
For src/Signature.cpp:72-300, src/PublicKey.cpp:53-180, src/Validatory.cpp:131-283, src/Signatory.cpp:55-267. -/
def use (i : Nat) : TmpM σ Unit := fun (st, h) =>
  .ok () (st, if h.alive i then h else { h with misused := i :: h.misused })

/-- `EVP_MD_CTX_destroy()`, `EVP_MD_CTX_free()`, `BIO_free_all()`, `EVP_PKEY_free()`, `delete []`.
src/Base64.cpp:31-44,51-67, src/SignatoryOptions.cpp:98-119, src/PublicKey.cpp:122-138, src/Validatory.cpp:133,192, src/Signatory.cpp:60,89,196-249. -/
def free (i : Nat) : TmpM σ Unit := fun (st, h) =>
  .ok () (st, if h.alive i then { h with live := h.live.filter (fun p => p.1 ≠ i) }
    else { h with misused := i :: h.misused })

/-- `std::unique_ptr` with a deleter: the object lives to the end of the block, however the block is
left (src/Validatory.cpp:133,192, src/Signatory.cpp:60,89). -/
def guarded (k : TmpKind) (block : Nat → TmpM σ α) : TmpM σ α := do
  let i ← new k
  fun w => match block i w with
    | .ok a w' => match free i w' with
      | .ok () w'' => .ok a w''
      | .error e w'' => .error e w''
    | .error e w' => match free i w' with
      | .ok () w'' => .error e w''
      | .error e' w'' => .error e' w''

/-- Steps that do not touch temporary objects.
For src/Signature.cpp:72-300, src/PublicKey.cpp:53-180, src/Validatory.cpp:131-283, src/Signatory.cpp:55-267. -/
def lift (f : EStateM Err σ α) : TmpM σ α := fun (st, h) =>
  match f st with
  | .ok a st' => .ok a (st', h)
  | .error e st' => .error e (st', h)

/-- The same for a function without an object.
For src/Signature.cpp:72-300, src/PublicKey.cpp:53-180, src/Validatory.cpp:131-283, src/Signatory.cpp:55-267. -/
def liftX (r : Except Err α) : TmpM σ α := fun w =>
  match r with
  | .ok a => .ok a w
  | .error e => .error e w

/-- `Base64_Decode`, src/Base64.cpp:28-46: the filter `i` and the memory `o` are chained, and
`BIO_free_all` frees the chain. -/
def decode64 (E : Env) (d : Bytes) : TmpM σ Bytes := do
  let i ← new .bio
  let o ← new .bio
  use o
  use i
  free i
  free o
  return E.b64dec d

/-- `Base64_Encode`, src/Base64.cpp:48-69. -/
def encode64 (d : Bytes) : TmpM σ Bytes := do
  let i ← new .bio
  let o ← new .bio
  use i
  use o
  free i
  free o
  return b64Encode d

/-! ### src/Signature.cpp -/

/-- b=, src/Signature.cpp:133-139. -/
def sigB (E : Env) : TmpM SigSt Unit := do
  let b ← lift (needTag b!"b" .missingB)
  if b.value.isEmpty then lift (throw (.p .missingB))
  let d ← decode64 E (stripSpace b.value)
  lift (setSig ({ · with b := d }))

/-- bh=, src/Signature.cpp:142-147. -/
def sigBH (E : Env) : TmpM SigSt Unit := do
  let bh ← lift (needTag b!"bh" .missingBH)
  let d ← decode64 E (stripSpace bh.value)
  lift (setSig ({ · with bh := d }))

/-- `Signature::Parse`, src/Signature.cpp:72-300. -/
def parseSignature (E : Env) (now : Int) (h : Header) : TmpM SigSt Unit := do
  lift (do
    sigTagList (h.header.drop h.valueOffset)
    sigArc h.name
    sigD
    sigV
    sigA)
  sigB E
  sigBH E
  lift (do
    sigC
    sigH
    sigI
    sigL
    sigQ
    sigS
    sigX now)

/-! ### src/PublicKey.cpp -/

/-- p=, src/PublicKey.cpp:106-149. -/
def keyP (E : Env) : TmpM (PublicKey E) Unit := do
  match ← lift (keyTag b!"p") with
  | none => lift (throw (.p .keyMissingP))
  | some p =>
    if p.value.isEmpty then lift (throw (.p .keyRevoked))
    match (← lift get).alg with
    | .rsa => do
      let dat ← decode64 E (stripSpace p.value)
      match E.d2iPubkey dat with
      | none => lift (throw (.p .keyBadDER))
      | some none =>
        let pk ← new .pkey
        use pk
        free pk
        lift (throw (.p .keyNotRSA))
      | some (some key) =>
        let pk ← new .pkey
        use pk
        lift (modify ({ · with rsa := some key }))
        free pk
    | .ed25519 => do
      let dat ← decode64 E (stripSpace p.value)
      if dat.length ≠ 32 then lift (throw (.p .keyBadEd))
      lift (modify ({ · with ed := dat }))

/-- `PublicKey::Parse`, src/PublicKey.cpp:53-180. -/
def parseKey (E : Env) (txt : Bytes) : TmpM (PublicKey E) Unit := do
  lift (do
    keyTagList txt
    keyV
    keyH
    keyK)
  keyP E
  lift (do
    keyS
    keyT)

/-- `GetPublicKey`, src/Validatory.cpp:92-124. -/
def getPublicKey (E : Env) (resolver : Bytes → Bool × Bytes) (sig : Signature) :
    TmpM (PublicKey E) Unit :=
  let (ok, txt) := resolver (keyQuery sig)
  if ok then
    if txt.isEmpty then lift (throw (.p (.noKey sig.selector sig.domain))) else parseKey E txt
  else lift (throw (.temp (.dnsFailed sig.selector sig.domain) .temperror))

/-! ### src/SignatoryOptions.cpp -/

/-- `SetPrivateKey`, src/SignatoryOptions.cpp:90-160 and (identical) 320-390. -/
def setPrivateKey (E : Env) (k : Bytes) : TmpM (SigOpts E) Unit := do
  match (← lift get).alg with
  | .rsa =>
    if k.take 5 = b!"-----" then
      let o ← new .bio
      use o
      match E.pemPriv k with
      | none =>
        free o
        lift (throw (.p .badPem))
      | some none =>
        let pk ← new .pkey
        free o
        use pk
        free pk
        lift (throw (.p .privNotRSA))
      | some (some r) =>
        let pk ← new .pkey
        free o
        use pk
        lift (modify ({ · with rsa := some r }))
        free pk
    else
      let t ← decode64 E k
      let r := E.derPriv t
      lift (modify ({ · with rsa := r }))
      if r.isNone then lift (throw (.p .badDer))
  | .ed25519 =>
    if k.length = 64 then lift (modify ({ · with ed := k }))
    else if k.length = 32 then lift (modify ({ · with ed := (E.edSeed k) }))
    else
      let t ← decode64 E k
      if t.length = 64 then lift (modify ({ · with ed := t }))
      else if t.length = 32 then lift (modify ({ · with ed := (E.edSeed t) }))
      else lift (throw (.p .badEdKey))

/-! ### src/Validatory.cpp -/

/-- `CheckBodyHash`, src/Validatory.cpp:131-165. -/
def checkBodyHash (E : Env) (sig : Signature) : TmpM Validatory Unit :=
  guarded .digestCtx fun ctx => do
    let v ← lift get
    let ((calls, _), s') ←
      liftX (canonBody v.file sig.canonBody v.msg.bodyOffset sig.bodySizeLimit sig.bodySize)
    lift (set { v with file := s' })
    use ctx
    if sig.bh ≠ E.hash sig.digest calls.flatten then lift (throw (.perm .bodyHashMismatch .fail))

/-- `CheckSignature`, src/Validatory.cpp:172-283. -/
def checkSignature (E : Env) (msg : Message) (h : Header) (sig : Signature) (pub : PublicKey E) :
    TmpM σ Unit := do
  liftX (sanityCheck sig pub)
  guarded .digestCtx fun ctx => do
    let input ← liftX (headerHashInput msg h sig)
    use ctx
    liftX (verifyDigest E sig pub (E.hash sig.digest input))

/-! ### src/Signatory.cpp -/

/-- The signing switch, src/Signatory.cpp:209-249. -/
def signDigest (E : Env) (s : SigOpts E) (da : DigestAlg) (md : Bytes) : TmpM σ Bytes :=
  match s.alg with
  | .rsa =>
    match s.rsa with
    | none => liftX (.error (.p .noRsaKey))
    | some key => do
      let sig ← new .buffer
      use sig
      match E.rsaSign key da md with
      | none =>
        free sig
        liftX (.error (.p .signFailed))
      | some sg =>
        use sig
        free sig
        return sg
  | .ed25519 => liftX (Dkim.signDigest E s da md)

/-- One generated signature header, src/Signatory.cpp:143-260. `evpmdhead2` (line 196) is a plain
pointer: when `FilterHeader` throws in line 198, line 201, which frees it, is not reached. `head` is
the context over the message headers, which is copied. -/
def oneSignature (E : Env) (o : Options E) (s : SigOpts E) (now : Int) (head : Nat) (hashed : Bytes)
    (names : List Bytes) (bh : Bytes) : TmpM σ Bytes := do
  let text ← liftX (sigHeaderText o s now names bh)
  let _ ← encode64 bh
  let ctx2 ← new .digestCtx
  use head
  let t2 ← liftX (filterHeader o.canonHead text)
  use ctx2
  free ctx2
  let sg ← signDigest E s o.digest (E.hash o.digest (hashed ++ t2))
  let split ← encode64 sg
  let b ← liftX (foldB (split.length + 1) 3 split)
  return text ++ b

/-- The loop over the signatures, src/Signatory.cpp:141-265. -/
def allSignatures (E : Env) (o : Options E) (clock : Nat → Int) (head : Nat) (hashed : Bytes)
    (names : List Bytes) (bh : Bytes) : Nat → Bytes → List (SigOpts E) → TmpM σ Bytes
  | _, acc, [] => return acc
  | k, acc, s :: ss => do
    let h ← oneSignature E o s (clock k) head hashed names bh
    allSignatures E o clock head hashed names bh (k + 1)
      ((if acc.isEmpty then acc else acc ++ CRLF) ++ h) ss

/-- `CreateSignature`, src/Signatory.cpp:55-267. -/
def createSignature (E : Env) (o : Options E) (clock : Nat → Int) : TmpM Signatory Bytes := do
  let sg ← lift get
  let (msg, s1) ← liftX (sg.msg.parseAll sg.file)
  lift (set ({ file := s1, msg := msg } : Signatory))
  guarded .digestCtx fun body => do
    let ((calls, ok), s2) ←
      liftX (canonBody s1 o.canonBody msg.bodyOffset o.bodySignLength o.bodyLength)
    lift (set ({ file := s2, msg := msg } : Signatory))
    use body
    if !ok then lift (throw (.p .bodyLimitExceeded))
    let bh := E.hash o.digest calls.flatten
    guarded .digestCtx fun head => do
      let (hashed, names) ← liftX (signLoop o.canonHead o.headers msg.headers.reverse)
      use head
      allSignatures E o clock head hashed (names ++ o.oversign.map lower) bh 0 []
        o.signatures.reverse

end Tmp
end Dkim

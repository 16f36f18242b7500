import Verif.Model.Validatory
import Verif.Model.Signatory
/-!
# Platforms where `long` has another size

`Signature::Parse` reads l=, x= and i= with `strtoul`/`strtol` into `long`s, and `CreateSignature` writes times, lengths
and instance numbers with `%lu`. The rest of the model has 64-bit `long`s; here `long` has `w` bits (32 on Windows and on
32-bit Unix systems). `time_t` stays 64 bits wide, as it is on these platforms today (on 32-bit glibc with
`_TIME_BITS=64`). Only the definitions below depend on `w`; everything else is shared with the 64-bit model.
-/

namespace Dkim.Word

/-- `strtoul(s, &ptr, 10)` with `w`-bit `unsigned long`, see `Dkim.strtoul`. src/Signature.cpp:210,256. -/
def strtoul (w : Nat) (s : Bytes) : Nat × Bytes × Bool :=
  match scanNum s with
  | none => (0, s, false)
  | some (neg, v, rest) =>
    if v ≥ 2 ^ w then (2 ^ w - 1, rest, true)
    else ((if neg then (2 ^ w - v) % 2 ^ w else v), rest, false)

/-- `strtol(s, nullptr, 10)` with `w`-bit `long`, see `Dkim.strtol`. src/Signature.cpp:295. -/
def strtol (w : Nat) (s : Bytes) : Int × Bool :=
  match scanNum s with
  | none => (0, false)
  | some (false, v, _) => if v ≥ 2 ^ (w - 1) then (2 ^ (w - 1) - 1, true) else (v, false)
  | some (true, v, _) => if v > 2 ^ (w - 1) then (-(2 ^ (w - 1)), true) else (-(v : Int), false)

/-- i= of an ARC-Message-Signature, src/Signature.cpp:205-213. -/
def sigIArc (w : Nat) : SigM Unit := do
  let i ← needTag b!"i" .missingI
  let (v, _, e) := strtoul w (cstr i.value)
  raiseErange e
  setSig ({ · with arcInstance := v })
  if v < 1 ∨ v > 50 then throw (.p .badARC)

/-- src/Signature.cpp:205-246; i= of a DKIM-Signature is no number. -/
def sigI (w : Nat) : SigM Unit := do if (← get).sig.arc then sigIArc w else sigIDkim

/-- l=, src/Signature.cpp:249-265; `(signed long)bs < 0` for the upper half of the values. -/
def sigL (w : Nat) : SigM Unit := do
  match ← sigTag b!"l" with
  | none => pure ()
  | some l =>
    if l.value.length > 76 then throw (.p .lTooLong)
    let (bs, rest, e) := strtoul w (cstr l.value)
    raiseErange e
    if (← get).erange then throw (.p .lRange)
    if bs ≥ 2 ^ (w - 1) then throw (.p .lNegative)
    if !rest.isEmpty then throw (.p .lGarbage)
    setSig ({ · with bodySize := bs, bodySizeLimit := true })

/-- x=, src/Signature.cpp:292-297: a `long` compared with a `time_t`. -/
def sigX (w : Nat) (now : Int) : SigM Unit := do
  match ← sigTag b!"x" with
  | none => pure ()
  | some x =>
    let (v, e) := strtol w (cstr x.value)
    raiseErange e
    if v < now then throw (.p .expired)

/-- `Signature::Parse`, src/Signature.cpp:72-300. -/
def parse (w : Nat) (E : Env) (now : Int) (h : Header) : SigM Unit := do
  sigTagList (h.header.drop h.valueOffset)
  sigArc h.name
  sigD
  sigV
  sigA
  sigB E
  sigBH E
  sigC
  sigH
  sigI w
  sigL w
  sigQ
  sigS
  sigX w now

/-- `GetSignature`, src/Validatory.cpp:80-85. -/
def getSignature (w : Nat) (E : Env) (now : Int) (v : Validatory) (h : Header) (st : SigSt) :
    Except Err Unit × SigSt × Validatory :=
  match parse w E now h st with
  | .error e st' => (.error e, st', v)
  | .ok () st' =>
    match v.checkBodyHash E st'.sig with
    | (r, v') => (r, st', v')

/-- Verification of one field, see `Dkim.Validatory.verifyOne`. tools/src/main.cpp:178-183. -/
def verifyOne (w : Nat) (E : Env) (now : Int) (resolver : Bytes → Bool × Bytes) (v : Validatory)
    (h : Header) (erange : Bool) :
    Except Err Unit × SigSt × PublicKey E × Validatory :=
  match getSignature w E now v h { erange := erange } with
  | (.error e, st, v') => (.error e, st, {}, v')
  | (.ok (), st, v') =>
    match getPublicKey resolver st.sig ({} : PublicKey E) with
    | .error e pub => (.error e, st, pub, v')
    | .ok () pub => (checkSignature E v'.msg h st.sig pub, st, pub, v')

/-- `StringFormat("%lu", v)`: `printf` reads a `w`-bit argument; of a wider `time_t` these are the low
bits (little-endian argument passing, as on x86 and ARM; formally a type mismatch). src/Signatory.cpp:147,159,164,171. -/
def fmtLu (w : Nat) (v : Int) : Bytes := natDec (v % 2 ^ w).toNat

/-- The first line up to c=, src/Signatory.cpp:145-151. -/
def sigPrefix (w : Nat) {E : Env} (o : Options E) : Bytes :=
  (if o.arcInstance ≠ 0 then
    b!"ARC-Message-Signature: i=" ++ fmtLu w o.arcInstance ++ b!"; a="
   else b!"DKIM-Signature: v=1; a=") ++
  algText o.first.alg o.digest ++ b!"; c=" ++ o.canonHead.text ++ b!"/" ++ o.canonBody.text ++ b!";"

/-- t= and x=, src/Signatory.cpp:153-165. -/
def sigTimes (w : Nat) {E : Env} (o : Options E) (now : Int) : Except Err Bytes :=
  let t := if o.timestampSign then b!" t=" ++ fmtLu w (sigTimestamp o now) ++ b!";" else []
  if o.expirationSign then
    match sigExpiration o now with
    | .error e => .error e
    | .ok x => .ok (t ++ b!" x=" ++ fmtLu w x ++ b!";")
  else .ok t

/-- The d=/s=/i=/l= line, src/Signatory.cpp:169-177. -/
def sigDomainLine (w : Nat) {E : Env} (o : Options E) (s : SigOpts E) : Bytes :=
  b!"\td=" ++ s.domain ++ b!"; s=" ++ s.selector ++
  (if o.identity.isEmpty then [] else b!"; i=" ++ cstr (qpEncode o.identity)) ++
  (if o.bodySignLength then b!"; l=" ++ fmtLu w o.bodyLength else []) ++ b!";\r\n"

/-- `dkimHeader` up to and including "b=", src/Signatory.cpp:144-194. -/
def sigHeaderText (w : Nat) {E : Env} (o : Options E) (s : SigOpts E) (now : Int) (names : List Bytes)
    (bh : Bytes) : Except Err Bytes :=
  match sigTimes w o now with
  | .error e => .error e
  | .ok times =>
    .ok (sigPrefix w o ++ times ++ CRLF ++ sigDomainLine w o s ++ sigHLines names ++
      b!"\tbh=" ++ b64Encode bh ++ b!";\r\n" ++ b!"\tb=")

/-- One signature, src/Signatory.cpp:141-262. -/
def oneSignature (w : Nat) (E : Env) (o : Options E) (s : SigOpts E) (now : Int) (hashed : Bytes)
    (names : List Bytes) (bh : Bytes) : Except Err Bytes :=
  match sigHeaderText w o s now names bh with
  | .error e => .error e
  | .ok text =>
    match filterHeader o.canonHead text with
    | .error e => .error e
    | .ok t2 =>
      match signDigest E s o.digest (E.hash o.digest (hashed ++ t2)) with
      | .error e => .error e
      | .ok sg =>
        match foldB ((b64Encode sg).length + 1) 3 (b64Encode sg) with
        | .error e => .error e
        | .ok b => .ok (text ++ b)

/-- The loop over the signatures, src/Signatory.cpp:141-265. -/
def allSignatures (w : Nat) (E : Env) (o : Options E) (clock : Nat → Int) (hashed : Bytes)
    (names : List Bytes) (bh : Bytes) : Nat → Bytes → List (SigOpts E) → Except Err Bytes
  | _, acc, [] => .ok acc
  | k, acc, s :: ss =>
    match oneSignature w E o s (clock k) hashed names bh with
    | .error e => .error e
    | .ok h =>
      allSignatures w E o clock hashed names bh (k + 1)
        ((if acc.isEmpty then acc else acc ++ CRLF) ++ h) ss

/-- `CreateSignature`, src/Signatory.cpp:55-267. The settings are the values after conversion to
`unsigned long`, so below 2^w. -/
def createSignature (w : Nat) (E : Env) (o : Options E) (clock : Nat → Int) (sg : Signatory) :
    Except Err Bytes × Signatory :=
  match sg.msg.parseAll sg.file with
  | .error e => (.error e, sg)
  | .ok (msg, s1) =>
    match canonBody s1 o.canonBody msg.bodyOffset o.bodySignLength o.bodyLength with
    | .error e => (.error e, { file := s1, msg := msg })
    | .ok ((calls, ok), s2) =>
      let sg' : Signatory := { file := s2, msg := msg }
      if !ok then (.error (.p .bodyLimitExceeded), sg')
      else
        let bh := E.hash o.digest calls.flatten
        match signLoop o.canonHead o.headers msg.headers.reverse with
        | .error e => (.error e, sg')
        | .ok (hashed, names) =>
          (allSignatures w E o clock hashed (names ++ o.oversign.map lower) bh 0 []
            o.signatures.reverse, sg')

end Dkim.Word

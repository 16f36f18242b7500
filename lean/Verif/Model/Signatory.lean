import Verif.Model.SignatoryOptions
import Verif.Model.Canonicalization
import Verif.Model.MailParser
import Verif.Model.QuotedPrintable
import Verif.Model.Validatory
/-!
# `src/Signatory.cpp`
-/

namespace Dkim

/-- `class Signatory`, src/Signatory.hpp:38-48: stream and message survive calls. -/
structure Signatory where
  file : IStream
  msg : Message := {}
  deriving DecidableEq, Repr

/-- Selection of a header for signing, src/Signatory.cpp:121-126. -/
def isSelected (headers : List Bytes) (h : Header) : Bool :=
  !(lower h.name).isEmpty && (headers.isEmpty || (headers.map lower).contains (lower h.name))

/-- The loop over the headers from the bottom up, src/Signatory.cpp:119-134: the argument is the
reversed header list; result: bytes hashed and the names signed. (`tmp` ends in CRLF and is never
empty, line 128.) -/
def signLoop (mode : CanonMode) (sel : List Bytes) : List Header → Except Err (Bytes × List Bytes)
  | [] => .ok ([], [])
  | h :: hs =>
    if isSelected sel h then
      match filterHeader mode h.header with
      | .error e => .error e
      | .ok t =>
        match signLoop mode sel hs with
        | .error e => .error e
        | .ok (bytes, names) => .ok (t ++ CRLF ++ bytes, lower h.name :: names)
    else signLoop mode sel hs

/-- The first line up to c=, src/Signatory.cpp:145-151. -/
def sigPrefix {E : Env} (o : Options E) : Bytes :=
  (if o.arcInstance ≠ 0 then
    b!"ARC-Message-Signature: i=" ++ fmtLu o.arcInstance ++ b!"; a="
   else b!"DKIM-Signature: v=1; a=") ++
  algText o.first.alg o.digest ++ b!"; c=" ++ o.canonHead.text ++ b!"/" ++ o.canonBody.text ++ b!";"

/-- `timestamp` after src/Signatory.cpp:153-158. -/
def sigTimestamp {E : Env} (o : Options E) (now : Int) : Int :=
  if o.timestampSign then (if o.timestamp = -1 then now else o.timestamp) else -1

/-- `expiration`, src/Signatory.cpp:163; signed overflow of `time_t` is undefined behaviour. -/
def sigExpiration {E : Env} (o : Options E) (now : Int) : Except Err Int :=
  let base := if o.expirationAbsolute then 0 else
    (if sigTimestamp o now = -1 then now else sigTimestamp o now)
  let x := base + o.expiration
  if -(2 ^ 63) ≤ x ∧ x < 2 ^ 63 then .ok x else .error .ub

/-- t= and x=, src/Signatory.cpp:153-165. -/
def sigTimes {E : Env} (o : Options E) (now : Int) : Except Err Bytes :=
  let t := if o.timestampSign then b!" t=" ++ fmtLu (sigTimestamp o now) ++ b!";" else []
  if o.expirationSign then
    match sigExpiration o now with
    | .error e => .error e
    | .ok x => .ok (t ++ b!" x=" ++ fmtLu x ++ b!";")
  else .ok t

/-- The d=/s=/i=/l= line, src/Signatory.cpp:169-177. `%s` stops at a NUL, which the
quoted-printable encoding never contains (`cstr` kept for fidelity). -/
def sigDomainLine {E : Env} (o : Options E) (s : SigOpts E) : Bytes :=
  b!"\td=" ++ s.domain ++ b!"; s=" ++ s.selector ++
  (if o.identity.isEmpty then [] else b!"; i=" ++ cstr (qpEncode o.identity)) ++
  (if o.bodySignLength then b!"; l=" ++ fmtLu o.bodyLength else []) ++ b!";\r\n"

/-- The loop folding the h= list, src/Signatory.cpp:180-191: (text already moved to `dkimHeader`,
`headerlist`). `first` = `i == signedHeaders.begin()`. -/
def foldH : Bool → Bytes → List Bytes → Bytes × Bytes
  | _, line, [] => ([], line)
  | first, line, n :: ns =>
    let colon : Bytes := if first then [] else [COLON]
    if line.length + n.length + colon.length > 80 then
      ((line ++ colon ++ CRLF) ++ (foldH false (b!"\t " ++ n) ns).1, (foldH false (b!"\t " ++ n) ns).2)
    else foldH false (line ++ colon ++ n) ns

/-- The h= lines, src/Signatory.cpp:179-192. -/
def sigHLines (names : List Bytes) : Bytes :=
  (foldH true b!"\th=" names).1 ++ (foldH true b!"\th=" names).2 ++ b!";\r\n"

/-- `dkimHeader` up to and including "b=", src/Signatory.cpp:144-194. -/
def sigHeaderText {E : Env} (o : Options E) (s : SigOpts E) (now : Int) (names : List Bytes)
    (bh : Bytes) : Except Err Bytes :=
  match sigTimes o now with
  | .error e => .error e
  | .ok times =>
    .ok (sigPrefix o ++ times ++ CRLF ++ sigDomainLine o s ++ sigHLines names ++
      b!"\tbh=" ++ b64Encode bh ++ b!";\r\n" ++ b!"\tb=")

/-- The signing switch, src/Signatory.cpp:209-249. -/
def signDigest (E : Env) (s : SigOpts E) (da : DigestAlg) (md : Bytes) : Except Err Bytes :=
  match s.alg with
  | .rsa =>
    match s.rsa with
    | none => .error (.p .noRsaKey)
    | some key =>
      match E.rsaSign key da md with
      | none => .error (.p .signFailed)
      | some sg => .ok sg
  | .ed25519 =>
    match readBuf s.ed 64 with
    | .error e => .error e
    | .ok key =>
      match E.edSign key md with
      | none => .error (.p .signFailed)
      | some sg => .ok sg

/-- The loop splitting the base64 signature, src/Signatory.cpp:253-260. -/
def foldB : Nat → Nat → Bytes → Except Err Bytes
  | 0, _, _ => .error .hang
  | n + 1, offset, split =>
    if split.isEmpty then .ok []
    else
      let rest := split.drop (80 - offset)
      match foldB n 2 rest with
      | .error e => .error e
      | .ok t => .ok (split.take (80 - offset) ++ (if rest.isEmpty then [] else b!"\r\n\t ") ++ t)

/-- One generated signature header, src/Signatory.cpp:143-260; `hashed` is the content of the
digest context over the message headers. -/
def oneSignature (E : Env) (o : Options E) (s : SigOpts E) (now : Int) (hashed : Bytes)
    (names : List Bytes) (bh : Bytes) : Except Err Bytes :=
  match sigHeaderText o s now names bh with
  | .error e => .error e
  | .ok text =>
    match filterHeader o.canonHead text with
    | .error e => .error e
    | .ok t2 =>
      match signDigest E s o.digest (E.hash o.digest (hashed ++ t2)) with
      | .error e => .error e
      | .ok sg =>
        match foldB ((b64Encode sg).length + 1) 3 (b64Encode sg) with
        | .error e => .error e
        | .ok b => .ok (text ++ b)

/-- The loop over the signatures (already reversed), src/Signatory.cpp:141-265; `clock k` is
`time(nullptr)` in the k-th iteration; `acc` is `dkimHeaders`. -/
def allSignatures (E : Env) (o : Options E) (clock : Nat → Int) (hashed : Bytes)
    (names : List Bytes) (bh : Bytes) : Nat → Bytes → List (SigOpts E) → Except Err Bytes
  | _, acc, [] => .ok acc
  | k, acc, s :: ss =>
    match oneSignature E o s (clock k) hashed names bh with
    | .error e => .error e
    | .ok h =>
      allSignatures E o clock hashed names bh (k + 1)
        ((if acc.isEmpty then acc else acc ++ CRLF) ++ h) ss

/-- `CreateSignature`, src/Signatory.cpp:55-267: result and the object afterwards. -/
def Signatory.createSignature (E : Env) (o : Options E) (clock : Nat → Int) (sg : Signatory) :
    Except Err Bytes × Signatory :=
  match sg.msg.parseAll sg.file with
  | .error e => (.error e, sg)
  | .ok (msg, s1) =>
    match canonBody s1 o.canonBody msg.bodyOffset o.bodySignLength o.bodyLength with
    | .error e => (.error e, { file := s1, msg := msg })
    | .ok ((calls, ok), s2) =>
      let sg' : Signatory := { file := s2, msg := msg }
      if !ok then (.error (.p .bodyLimitExceeded), sg')
      else
        let bh := E.hash o.digest calls.flatten
        match signLoop o.canonHead o.headers msg.headers.reverse with
        | .error e => (.error e, sg')
        | .ok (hashed, names) =>
          (allSignatures E o clock hashed (names ++ o.oversign.map lower) bh 0 []
            o.signatures.reverse, sg')

end Dkim

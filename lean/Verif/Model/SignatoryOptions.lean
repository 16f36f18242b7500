import Verif.Model.Env
import Verif.Model.Util
/-!
# `src/SignatoryOptions.cpp`, `src/SignatoryOptions.hpp`
-/

namespace Dkim

/-- `class AdditionalSignaturesOptions`, src/SignatoryOptions.hpp:39-69; defaults
src/SignatoryOptions.cpp:276-281. -/
structure SigOpts (E : Env) where
  rsa : Option E.RsaPriv := none
  ed : Bytes := []
  alg : SigAlg := .rsa
  domain : Bytes := []
  selector : Bytes := []

/-- The default header selection, src/SignatoryOptions.cpp:43-73. -/
def defaultHeaders : List Bytes :=
  [b!"from", b!"sender", b!"reply-to", b!"subject", b!"date", b!"message-id", b!"to", b!"cc",
   b!"mime-version", b!"content-type", b!"content-transfer-encoding", b!"content-id",
   b!"content-description", b!"resent-date", b!"resent-from", b!"resent-sender", b!"resent-to",
   b!"resent-cc", b!"resent-message-id", b!"in-reply-to", b!"references", b!"list-id", b!"list-help",
   b!"list-unsubscribe", b!"list-unsubscribe-post", b!"list-subscribe", b!"list-post", b!"list-owner",
   b!"list-archive", b!"cfbl-address", b!"cfbl-feedback-id"]

/-- `class SignatoryOptions`, src/SignatoryOptions.hpp:135-165; constructor
src/SignatoryOptions.cpp:28-84. The six pointer members alias the first entry of `m_signatures`,
here `first`; `more` are the entries added by `AddAdditionalSignature`. The ownership flag
`m_privateKeyRSAFree` is not modelled. -/
structure Options (E : Env) where
  first : SigOpts E := {}
  more : List (SigOpts E) := []
  digest : DigestAlg := .sha256
  headers : List Bytes := defaultHeaders
  oversign : List Bytes := []
  bodyLength : Nat := 0
  bodySignLength : Bool := false
  arcInstance : Nat := 0
  canonHead : CanonMode := .simple
  canonBody : CanonMode := .simple
  timestampSign : Bool := false
  timestamp : Int := -1
  expirationSign : Bool := false
  expirationAbsolute : Bool := true
  expiration : Int := -1
  identity : Bytes := []

/-- `GetAdditionalSignatures()`: all signatures, in list order, src/SignatoryOptions.hpp:94-95,164. -/
def Options.signatures {E : Env} (o : Options E) : List (SigOpts E) := o.first :: o.more

/-- `SetPrivateKey`, src/SignatoryOptions.cpp:90-160 and (identical) 320-390. A failed DER load
stores the null pointer before throwing (line 127). `BIO_new` failure is not modelled. -/
def SigOpts.setPrivateKey {E : Env} (k : Bytes) : EStateM Err (SigOpts E) Unit := do
  match (← get).alg with
  | .rsa =>
    if k.take 5 = b!"-----" then
      match E.pemPriv k with
      | none => throw (.p .badPem)
      | some none => throw (.p .privNotRSA)
      | some (some r) => modify ({ · with rsa := some r })
    else
      let r := E.derPriv (E.b64dec k)
      modify ({ · with rsa := r })
      if r.isNone then throw (.p .badDer)
  | .ed25519 =>
    if k.length = 64 then modify ({ · with ed := k })
    else if k.length = 32 then modify ({ · with ed := (E.edSeed k) })
    else
      let t := E.b64dec k
      if t.length = 64 then modify ({ · with ed := t })
      else if t.length = 32 then modify ({ · with ed := (E.edSeed t) })
      else throw (.p .badEdKey)

/-- `SetRSAPrivateKey`, src/SignatoryOptions.cpp:162-167, 289-294 (`none` = null pointer). -/
def SigOpts.setRSAPrivateKey {E : Env} (r : Option E.RsaPriv) : EStateM Err (SigOpts E) Unit :=
  modify ({ · with rsa := r })

/-- `SetSelector`, src/SignatoryOptions.cpp:169-176, 296-303. -/
def SigOpts.setSelector {E : Env} (s : Bytes) : EStateM Err (SigOpts E) Unit := do
  if !validateDomain s then throw (.p .badSelector)
  modify ({ · with selector := s })

/-- `SetDomain`, src/SignatoryOptions.cpp:178-185, 305-312. -/
def SigOpts.setDomain {E : Env} (s : Bytes) : EStateM Err (SigOpts E) Unit := do
  if !validateDomain s then throw (.p .badDomain)
  modify ({ · with domain := s })

/-- `SetSignatureAlgorithm`, src/SignatoryOptions.cpp:193-197, 314-318. -/
def SigOpts.setAlg {E : Env} (a : SigAlg) : EStateM Err (SigOpts E) Unit := modify ({ · with alg := a })

/-- The setters that act on one signature. src/SignatoryOptions.hpp:45-49,76-81. -/
inductive SigOp (E : Env)
  | privateKey (k : Bytes)
  | rsaPrivateKey (r : Option E.RsaPriv)
  | selector (s : Bytes)
  | domain (s : Bytes)
  | alg (a : SigAlg)

/-- Dispatch of a per-signature setter. src/SignatoryOptions.hpp:45-49,76-81. -/
def SigOp.run {E : Env} : SigOp E → EStateM Err (SigOpts E) Unit
  | .privateKey k => SigOpts.setPrivateKey k
  | .rsaPrivateKey r => SigOpts.setRSAPrivateKey r
  | .selector s => SigOpts.setSelector s
  | .domain s => SigOpts.setDomain s
  | .alg a => SigOpts.setAlg a

/-- All public setters of `SignatoryOptions`; `sig none` acts on the options object itself (its
first signature), `sig (some i)` on the reference returned by the i-th `AddAdditionalSignature`.
src/SignatoryOptions.hpp:76-93. -/
inductive OptOp (E : Env)
  | sig (i : Option Nat) (op : SigOp E)
  | addSignature
  | digest (a : DigestAlg)
  | setHeaders (l : List Bytes)
  | addHeaders (l : List Bytes)
  | delHeaders (l : List Bytes)
  | oversign (l : List Bytes)
  | bodyLength (n : Nat)
  | arcInstance (n : Nat)
  | canonHead (m : CanonMode)
  | canonBody (m : CanonMode)
  | timestamp (t : Int)
  | expiration (t : Int) (absolute : Bool)
  | identity (s : Bytes)

/-- `DelHeaders`, src/SignatoryOptions.cpp:211-216: `m_headers.remove(header)` for each. -/
def removeHeaders (hs : List Bytes) (l : List Bytes) : List Bytes :=
  l.foldl (fun acc h => acc.filter (fun x => x != h)) hs

/-- Apply a per-signature setter to a list entry (entries that do not exist cannot be addressed).
src/SignatoryOptions.hpp:76-93. -/
def runAt {E : Env} (op : SigOp E) : Nat → List (SigOpts E) → Option Err × List (SigOpts E)
  | _, [] => (none, [])
  | 0, s :: ss =>
    match op.run s with
    | .ok () s' => (none, s' :: ss)
    | .error e s' => (some e, s' :: ss)
  | i + 1, s :: ss => ((runAt op i ss).1, s :: (runAt op i ss).2)

/-- Apply a per-signature setter to the options object itself. src/SignatoryOptions.hpp:76-93. -/
def runFirst {E : Env} (op : SigOp E) (o : Options E) : Option Err × Options E :=
  match op.run o.first with
  | .ok () s => (none, { o with first := s })
  | .error e s => (some e, { o with first := s })

/-- One setter call: exception if any, and the options afterwards.
src/SignatoryOptions.cpp:90-274. -/
def OptOp.run {E : Env} (o : Options E) : OptOp E → Option Err × Options E
  | .sig none op => runFirst op o
  | .sig (some i) op => ((runAt op i o.more).1, { o with more := (runAt op i o.more).2 })
  | .addSignature => (none, { o with more := o.more ++ [{}] })
  | .digest a => (none, { o with digest := a })
  | .setHeaders l => (none, { o with headers := l })
  | .addHeaders l => (none, { o with headers := o.headers ++ l })
  | .delHeaders l => (none, { o with headers := removeHeaders o.headers l })
  | .oversign l => (none, { o with oversign := l })
  | .bodyLength n => (none, { o with bodyLength := n, bodySignLength := true })
  | .arcInstance n => (none, { o with arcInstance := n })
  | .canonHead m => (none, { o with canonHead := m })
  | .canonBody m => (none, { o with canonBody := m })
  | .timestamp t => (none, { o with timestamp := t, timestampSign := true })
  | .expiration t a => (none, { o with expiration := t, expirationAbsolute := a, expirationSign := true })
  | .identity s => (none, { o with identity := s })

/-- The options after a history of setter calls (exceptions caught by the caller). src/SignatoryOptions.hpp:73-93. -/
def Options.history {E : Env} (o : Options E) (ops : List (OptOp E)) : Options E :=
  ops.foldl (fun o op => (op.run o).2) o

end Dkim

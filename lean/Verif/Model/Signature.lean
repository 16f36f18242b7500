import Verif.Model.TagList
import Verif.Model.QuotedPrintable
import Verif.Model.MailParser
import Verif.Model.CLib
import Verif.Model.Env
/-!
# `src/Signature.cpp`, `src/Signature.hpp`
-/

namespace Dkim

/-- `class Signature`, src/Signature.hpp:103-123, with the values `Reset` (src/Signature.cpp:39-70)
assigns as defaults. `m_queryType` has only one value (DKIM_Q_DNSTXT) and is omitted. -/
structure Signature where
  tags : TagList := []
  arc : Bool := false
  digest : DigestAlg := .sha256
  alg : SigAlg := .rsa
  b : Bytes := []
  bh : Bytes := []
  canonHeader : CanonMode := .simple
  canonBody : CanonMode := .simple
  domain : Bytes := []
  headers : List Bytes := []
  mailLocal : Bytes := []
  mailDomain : Bytes := []
  bodySize : Nat := 0
  bodySizeLimit : Bool := false
  selector : Bytes := []
  arcInstance : Nat := 0
  deriving DecidableEq, Repr

/-- The signature object and whether the thread's `errno` equals ERANGE. `errno`: src/Signature.cpp:257. -/
structure SigSt where
  sig : Signature := {}
  erange : Bool := false
  deriving DecidableEq, Repr

/-- Computations on a `Signature` object; the object keeps its partial state on an exception.
For src/Signature.cpp:72-300. -/
abbrev SigM := EStateM Err SigSt

/-- Update the signature object. For src/Signature.cpp:72-300. -/
def setSig (f : Signature → Signature) : SigM Unit := modify (fun s => { s with sig := f s.sig })

/-- `m_tagList.GetTag`. src/Signature.cpp:151,217,250,269,288,293. -/
def sigTag (name : Bytes) : SigM (Option TagEntry) := return (← get).sig.tags.getTag name

/-- `GetTag` or throw. src/Signature.cpp:87,96,108,143,188,208,282. -/
def needTag (name : Bytes) (r : Reason) : SigM TagEntry := do
  match ← sigTag name with
  | none => throw (.p r)
  | some t => return t

/-- Lift a pure computation. For src/Signature.cpp:72-300. -/
def liftE {σ α} (x : Except Err α) : EStateM Err σ α :=
  match x with
  | .ok a => pure a
  | .error e => throw e

/-- A library call that may set errno to ERANGE. src/Signature.cpp:210,256,295. -/
def raiseErange (e : Bool) : SigM Unit := modify (fun s => { s with erange := s.erange || e })

/-- `remove_if(..., isspace)`, src/Signature.cpp:138,146, src/PublicKey.cpp:114. -/
def stripSpace (s : Bytes) : Bytes := s.filter (fun c => !isSpace c)

/-- Parse the tag list into the object, src/Signature.cpp:74. -/
def sigTagList (value : Bytes) : SigM Unit := fun s =>
  match TagList.parse value s.sig.tags with
  | .ok () m => .ok () { s with sig := { s.sig with tags := m } }
  | .error e m => .error e { s with sig := { s.sig with tags := m } }

/-- ARC detection, src/Signature.cpp:76-79. -/
def sigArc (name : Bytes) : SigM Unit := do
  if lower name = b!"arc-message-signature" then setSig ({ · with arc := true })

/-- d=, src/Signature.cpp:86-90. -/
def sigD : SigM Unit := do
  let d ← needTag b!"d" .missingD
  setSig ({ · with domain := lower d.value })

/-- v=, src/Signature.cpp:93-104. -/
def sigV : SigM Unit := do
  if !(← get).sig.arc then
    let v ← needTag b!"v" .missingV
    if v.value ≠ b!"1" then throw (.p (.badV v.value))

/-- a=, src/Signature.cpp:107-130. -/
def sigA : SigM Unit := do
  let a ← needTag b!"a" .missingA
  if a.value = b!"rsa-sha256" then setSig ({ · with digest := .sha256, alg := .rsa })
  else if a.value = b!"rsa-sha1" then setSig ({ · with digest := .sha1, alg := .rsa })
  else if a.value = b!"ed25519-sha256" then setSig ({ · with digest := .sha256, alg := .ed25519 })
  else throw (.p (.badA a.value))

/-- b=, src/Signature.cpp:133-139. -/
def sigB (E : Env) : SigM Unit := do
  let b ← needTag b!"b" .missingB
  if b.value.isEmpty then throw (.p .missingB)
  setSig ({ · with b := E.b64dec (stripSpace b.value) })

/-- bh=, src/Signature.cpp:142-147. -/
def sigBH (E : Env) : SigM Unit := do
  let bh ← needTag b!"bh" .missingBH
  setSig ({ · with bh := E.b64dec (stripSpace bh.value) })

/-- One canonicalization name, src/Signature.cpp:165-173 and 175-183. -/
def canonOf (s : Bytes) : Option CanonMode :=
  if s = b!"relaxed" then some .relaxed else if s = b!"simple" then some .simple else none

/-- Splitting c= at the first '/', src/Signature.cpp:155-163: (header, body). -/
def splitC (v : Bytes) : Bytes × Bytes :=
  match v.findIdx? (· == 47) with
  | none => (v, b!"simple")
  | some k => (v.take k, v.drop (k + 1))

/-- c=, src/Signature.cpp:150-184. -/
def sigC : SigM Unit := do
  match ← sigTag b!"c" with
  | none => pure ()
  | some c =>
    match canonOf (splitC c.value).1 with
    | none => throw (.p (.badC (splitC c.value).1))
    | some m => setSig ({ · with canonHeader := m })
    match canonOf (splitC c.value).2 with
    | none => throw (.p (.badC (splitC c.value).2))
    | some m => setSig ({ · with canonBody := m })

/-- h= and the From check (`strcasecmp` on C strings), src/Signature.cpp:187-202. -/
def sigH : SigM Unit := do
  let h ← needTag b!"h" .missingH
  let hs ← liftE (valueList h.value)
  setSig ({ · with headers := hs })
  if !hs.any (fun n => lower (cstr n) = b!"from") then throw (.p .noFrom)

/-- i= of an ARC-Message-Signature, src/Signature.cpp:205-213. -/
def sigIArc : SigM Unit := do
  let i ← needTag b!"i" .missingI
  let (v, _, e) := strtoul (cstr i.value)
  raiseErange e
  setSig ({ · with arcInstance := v })
  if v < 1 ∨ v > 50 then throw (.p .badARC)

/-- Subtraction of `size_t`. src/Signature.cpp:236. -/
def sizeSub (a b : Nat) : Nat := if b ≤ a then a - b else 2 ^ 64 - (b - a)

/-- `std::string::substr(pos)`: `std::out_of_range` if pos is after the end. src/Signature.cpp:74,231,236. -/
def substrFrom (s : Bytes) (pos : Nat) : Except Err Bytes := if pos > s.length then .error .outOfRange else .ok (s.drop pos)

/-- The (sub)domain test, src/Signature.cpp:234-237:
`"." + m_domain == m_mailDomain.substr(m_mailDomain.size() - m_domain.size() - 1)`. -/
def isSubdomainOf (mail dom : Bytes) : Except Err Bool :=
  if mail = dom then .ok true
  else if mail.length > dom.length then
    match substrFrom mail (sizeSub (sizeSub mail.length dom.length) 1) with
    | .error e => .error e
    | .ok t => .ok (decide (46 :: dom = t))
  else .ok false

/-- i= of a DKIM-Signature, src/Signature.cpp:214-246. -/
def sigIDkim : SigM Unit := do
  match ← sigTag b!"i" with
  | none => setSig (fun s => { s with mailLocal := [], mailDomain := s.domain })
  | some i =>
    let mail ← liftE (qpDecode i.value)
    match mail.findIdx? (· == 64) with
    | none => throw (.p .noAtI)
    | some k =>
      setSig ({ · with mailLocal := mail.take k, mailDomain := lower (mail.drop (k + 1)) })
      let s := (← get).sig
      if !(← liftE (isSubdomainOf s.mailDomain s.domain)) then throw (.p (.badI s.mailDomain s.domain))

/-- src/Signature.cpp:205-246. -/
def sigI : SigM Unit := do if (← get).sig.arc then sigIArc else sigIDkim

/-- l=, src/Signature.cpp:249-265. `errno` is tested without having been cleared. -/
def sigL : SigM Unit := do
  match ← sigTag b!"l" with
  | none => pure ()
  | some l =>
    if l.value.length > 76 then throw (.p .lTooLong)
    let (bs, rest, e) := strtoul (cstr l.value)
    raiseErange e
    if (← get).erange then throw (.p .lRange)
    if bs ≥ 2 ^ 63 then throw (.p .lNegative)
    if !rest.isEmpty then throw (.p .lGarbage)
    setSig ({ · with bodySize := bs, bodySizeLimit := true })

/-- q=, src/Signature.cpp:268-278. -/
def sigQ : SigM Unit := do
  match ← sigTag b!"q" with
  | none => pure ()
  | some q => if q.value ≠ b!"dns/txt" then throw (.p (.badQ q.value))

/-- s=, src/Signature.cpp:281-284. -/
def sigS : SigM Unit := do
  let s ← needTag b!"s" .missingS
  setSig ({ · with selector := s.value })

/-- x=, src/Signature.cpp:292-297; `now` is `time(nullptr)`. -/
def sigX (now : Int) : SigM Unit := do
  match ← sigTag b!"x" with
  | none => pure ()
  | some x =>
    let (v, e) := strtol (cstr x.value)
    raiseErange e
    if v < now then throw (.p .expired)

/-- `Signature::Parse`, src/Signature.cpp:72-300. -/
def Signature.parse (E : Env) (now : Int) (h : Header) : SigM Unit := do
  sigTagList (h.header.drop h.valueOffset)
  sigArc h.name
  sigD
  sigV
  sigA
  sigB E
  sigBH E
  sigC
  sigH
  sigI
  sigL
  sigQ
  sigS
  sigX now

/-- `Signature::Reset`, src/Signature.cpp:39-70. -/
def Signature.reset : SigM Unit := fun st =>
  match TagList.reset st.sig.tags with
  | .error e m => .error e { st with sig := { st.sig with tags := m } }
  | .ok () m => .ok () { st with sig := { st.sig with
      tags := m
      arc := false
      digest := .sha256
      alg := .rsa
      b := []
      bh := []
      canonHeader := .simple
      canonBody := .simple
      domain := []
      headers := []
      mailLocal := []
      mailDomain := []
      bodySize := 0
      bodySizeLimit := false
      selector := []
      arcInstance := 0 } }

end Dkim

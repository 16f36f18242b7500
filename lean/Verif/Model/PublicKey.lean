import Verif.Model.TagList
import Verif.Model.Signature
import Verif.Model.Env
/-!
# `src/PublicKey.cpp`, `src/PublicKey.hpp`
-/

namespace Dkim

/-- `class PublicKey`, src/PublicKey.hpp:76-87; defaults as assigned by `Reset`,
src/PublicKey.cpp:36-51. -/
structure PublicKey (E : Env) where
  tags : TagList := []
  digests : List DigestAlg := []
  rsa : Option E.RsaPub := none
  ed : Bytes := []
  alg : SigAlg := .rsa
  /-- number of DKIM_S_EMAIL entries in `m_serviceType` (its only enumerator) -/
  serviceEmail : Nat := 0
  flags : List Bytes := []

/-- For src/PublicKey.cpp:53-180. -/
abbrev KeyM (E : Env) := EStateM Err (PublicKey E)

/-- `m_tagList.GetTag`. src/PublicKey.cpp:63,74,92,107,153,174. -/
def keyTag {E : Env} (name : Bytes) : KeyM E (Option TagEntry) := return (← get).tags.getTag name

/-- `m_tagList.Parse(signature)`, src/PublicKey.cpp:55. -/
def keyTagList {E : Env} (txt : Bytes) : KeyM E Unit := fun k =>
  match TagList.parse txt k.tags with
  | .ok () m => .ok () { k with tags := m }
  | .error e m => .error e { k with tags := m }

/-- v=, src/PublicKey.cpp:62-70. -/
def keyV {E : Env} : KeyM E Unit := do
  match ← keyTag b!"v" with
  | none => pure ()
  | some v => if v.value ≠ b!"DKIM1" then throw (.p (.keyBadV v.value))

/-- Recognised hash names, src/PublicKey.cpp:83-86; others are skipped. -/
def digestOf (s : Bytes) : Option DigestAlg :=
  if s = b!"sha256" then some .sha256 else if s = b!"sha1" then some .sha1 else none

/-- h=, src/PublicKey.cpp:73-88. -/
def keyH {E : Env} : KeyM E Unit := do
  match ← keyTag b!"h" with
  | none => pure ()
  | some h =>
    if h.value.isEmpty then throw (.p .keyEmptyH)
    let algo ← liftE (valueList h.value)
    modify (fun k => { k with digests := k.digests ++ algo.filterMap digestOf })

/-- k=, src/PublicKey.cpp:91-103. -/
def keyK {E : Env} : KeyM E Unit := do
  match ← keyTag b!"k" with
  | none => pure ()
  | some k =>
    if k.value = b!"rsa" then modify ({ · with alg := .rsa })
    else if k.value = b!"ed25519" then modify ({ · with alg := .ed25519 })
    else throw (.p (.keyBadK k.value))

/-- p=, src/PublicKey.cpp:106-149. -/
def keyP {E : Env} : KeyM E Unit := do
  match ← keyTag b!"p" with
  | none => throw (.p .keyMissingP)
  | some p =>
    if p.value.isEmpty then throw (.p .keyRevoked)
    let dat := E.b64dec (stripSpace p.value)
    match (← get).alg with
    | .rsa =>
      match E.d2iPubkey dat with
      | none => throw (.p .keyBadDER)
      | some none => throw (.p .keyNotRSA)
      | some (some key) => modify ({ · with rsa := some key })
    | .ed25519 =>
      if dat.length ≠ 32 then throw (.p .keyBadEd)
      modify ({ · with ed := dat })

/-- The loop over service types, src/PublicKey.cpp:159-168: new count of e-mail entries. -/
def serviceLoop : Nat → List Bytes → Nat
  | n, [] => n
  | n, t :: ts =>
    if t = b!"email" then serviceLoop (n + 1) ts
    else if t = b!"*" then 0
    else serviceLoop n ts

/-- s=, src/PublicKey.cpp:152-170. -/
def keyS {E : Env} : KeyM E Unit := do
  match ← keyTag b!"s" with
  | none => pure ()
  | some s =>
    if s.value.isEmpty then throw (.p .keyEmptyS)
    let types ← liftE (valueList s.value)
    modify (fun k => { k with serviceEmail := serviceLoop k.serviceEmail types })

/-- t=, src/PublicKey.cpp:173-177. -/
def keyT {E : Env} : KeyM E Unit := do
  match ← keyTag b!"t" with
  | none => pure ()
  | some t =>
    let fl ← liftE (valueList t.value)
    modify ({ · with flags := fl })

/-- `PublicKey::Parse`, src/PublicKey.cpp:53-180. -/
def PublicKey.parse {E : Env} (txt : Bytes) : KeyM E Unit := do
  keyTagList txt
  keyV
  keyH
  keyK
  keyP
  keyS
  keyT

/-- `PublicKey::Reset`, src/PublicKey.cpp:36-51. -/
def PublicKey.reset {E : Env} : KeyM E Unit := fun k =>
  match TagList.reset k.tags with
  | .error e m => .error e { k with tags := m }
  | .ok () m => .ok () { k with
      tags := m
      digests := []
      rsa := none
      ed := []
      alg := .rsa
      serviceEmail := 0
      flags := [] }

/-- `PublicKey::SoftFail`, src/PublicKey.hpp:70-75. -/
def PublicKey.softFail {E : Env} (k : PublicKey E) : Bool := k.flags.contains b!"y"

end Dkim

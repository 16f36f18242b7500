import Verif.Model.Validatory
import Verif.Model.Signatory
/-!
# The library under another locale

`tolower`, `isspace`, `strcasecmp`, `strtoul` and `strtol` depend on the locale the program has chosen
(`setlocale(LC_CTYPE, …)`). The other models use their behaviour in the "C" locale; here the functions of the
library that call them take the locale as a parameter. Functions that call none of them are those of the other
models. (`%lu` has no locale-dependent form without the `'` flag; a narrow `std::stringstream` converts nothing.)
-/

namespace Dkim

/-- What the locale decides: `tolower` and `isspace`, as tables over `char` (glibc accepts negative values;
`strcasecmp` compares with `tolower`, `strtoul` and `strtol` skip what `isspace` accepts). Simplification: the
answer for a byte does not depend on its neighbours, which is true of these functions.
For `tolower`, e.g. src/Signature.cpp:77, and `isspace`, src/Signature.cpp:138. -/
structure Locale where
  lower : Byte → Byte
  space : Byte → Bool

/-- The "C" locale, in force unless the program calls `setlocale`.
For `tolower`, e.g. src/Signature.cpp:77, and `isspace`, src/Signature.cpp:138. -/
def Locale.c : Locale := { lower := toLower, space := isSpace }

namespace Loc

/-- `transform(…, tolower)`, src/Validatory.cpp:60,213,221, src/Canonicalization.cpp:66, src/Signatory.cpp:108,122,137,
src/Signature.cpp:77,90,232. -/
def lower (L : Locale) (s : Bytes) : Bytes := s.map L.lower

/-- `remove_if(…, isspace)`, src/Signature.cpp:138,146, src/PublicKey.cpp:114. -/
def stripSpace (L : Locale) (s : Bytes) : Bytes := s.filter (fun c => !L.space c)

/-- The scanner of `strtoul` and `strtol`, see `Dkim.scanNum`. src/Signature.cpp:210,256. -/
def scanNum (L : Locale) (s : Bytes) : Option (Bool × Nat × Bytes) :=
  let s1 := s.dropWhile L.space
  let neg := s1.head? = some 45
  let s2 := if s1.head? = some 45 ∨ s1.head? = some 43 then s1.tail else s1
  let ds := s2.takeWhile isDigit
  if ds.isEmpty then none else some (neg, decVal ds, s2.dropWhile isDigit)

/-- `strtoul(s, &ptr, 10)`, see `Dkim.strtoul`. src/Signature.cpp:210,256. -/
def strtoul (L : Locale) (s : Bytes) : Nat × Bytes × Bool :=
  match scanNum L s with
  | none => (0, s, false)
  | some (neg, v, rest) =>
    if v ≥ 2 ^ 64 then (2 ^ 64 - 1, rest, true)
    else ((if neg then (2 ^ 64 - v) % 2 ^ 64 else v), rest, false)

/-- `strtol(s, nullptr, 10)`, see `Dkim.strtol`. src/Signature.cpp:295. -/
def strtol (L : Locale) (s : Bytes) : Int × Bool :=
  match scanNum L s with
  | none => (0, false)
  | some (false, v, _) => if v ≥ 2 ^ 63 then (2 ^ 63 - 1, true) else (v, false)
  | some (true, v, _) => if v > 2 ^ 63 then (-(2 ^ 63), true) else (-(v : Int), false)

/-- `CanonicalizationHeader::FilterHeader`, src/Canonicalization.cpp:44-122 (`tolower` in line 66). -/
def filterHeader (L : Locale) (mode : CanonMode) (input : Bytes) : Except Err Bytes :=
  match mode with
  | .simple => .ok input
  | .relaxed =>
    match input.findIdx? (· == COLON) with
    | none => .error (.p (.missingColon input))
    | some k =>
      let output := lower L (input.take k) ++ input.drop k
      match collapse (output.length + 1) output with
      | .error e => .error e
      | .ok x => colonTrim input x

/-! ## `Signature::Parse` -/

/-- src/Signature.cpp:76-79. -/
def sigArc (L : Locale) (name : Bytes) : SigM Unit := do
  if lower L name = b!"arc-message-signature" then setSig ({ · with arc := true })

/-- src/Signature.cpp:86-90. -/
def sigD (L : Locale) : SigM Unit := do
  let d ← needTag b!"d" .missingD
  setSig ({ · with domain := lower L d.value })

/-- src/Signature.cpp:133-139. -/
def sigB (L : Locale) (E : Env) : SigM Unit := do
  let b ← needTag b!"b" .missingB
  if b.value.isEmpty then throw (.p .missingB)
  setSig ({ · with b := E.b64dec (stripSpace L b.value) })

/-- src/Signature.cpp:142-147. -/
def sigBH (L : Locale) (E : Env) : SigM Unit := do
  let bh ← needTag b!"bh" .missingBH
  setSig ({ · with bh := E.b64dec (stripSpace L bh.value) })

/-- src/Signature.cpp:187-202; `strcasecmp` in line 195. -/
def sigH (L : Locale) : SigM Unit := do
  let h ← needTag b!"h" .missingH
  let hs ← liftE (valueList h.value)
  setSig ({ · with headers := hs })
  if !hs.any (fun n => lower L (cstr n) = lower L b!"from") then throw (.p .noFrom)

/-- src/Signature.cpp:205-213. -/
def sigIArc (L : Locale) : SigM Unit := do
  let i ← needTag b!"i" .missingI
  let (v, _, e) := strtoul L (cstr i.value)
  raiseErange e
  setSig ({ · with arcInstance := v })
  if v < 1 ∨ v > 50 then throw (.p .badARC)

/-- src/Signature.cpp:214-246. -/
def sigIDkim (L : Locale) : SigM Unit := do
  match ← sigTag b!"i" with
  | none => setSig (fun s => { s with mailLocal := [], mailDomain := s.domain })
  | some i =>
    let mail ← liftE (qpDecode i.value)
    match mail.findIdx? (· == 64) with
    | none => throw (.p .noAtI)
    | some k =>
      setSig ({ · with mailLocal := mail.take k, mailDomain := lower L (mail.drop (k + 1)) })
      let s := (← get).sig
      if !(← liftE (isSubdomainOf s.mailDomain s.domain)) then throw (.p (.badI s.mailDomain s.domain))

/-- src/Signature.cpp:205-246. -/
def sigI (L : Locale) : SigM Unit := do if (← get).sig.arc then sigIArc L else sigIDkim L

/-- src/Signature.cpp:249-265. -/
def sigL (L : Locale) : SigM Unit := do
  match ← sigTag b!"l" with
  | none => pure ()
  | some l =>
    if l.value.length > 76 then throw (.p .lTooLong)
    let (bs, rest, e) := strtoul L (cstr l.value)
    raiseErange e
    if (← get).erange then throw (.p .lRange)
    if bs ≥ 2 ^ 63 then throw (.p .lNegative)
    if !rest.isEmpty then throw (.p .lGarbage)
    setSig ({ · with bodySize := bs, bodySizeLimit := true })

/-- src/Signature.cpp:292-297. -/
def sigX (L : Locale) (now : Int) : SigM Unit := do
  match ← sigTag b!"x" with
  | none => pure ()
  | some x =>
    let (v, e) := strtol L (cstr x.value)
    raiseErange e
    if v < now then throw (.p .expired)

/-- `Signature::Parse`, src/Signature.cpp:72-300. -/
def sigParse (L : Locale) (E : Env) (now : Int) (h : Header) : SigM Unit := do
  sigTagList (h.header.drop h.valueOffset)
  sigArc L h.name
  sigD L
  sigV
  sigA
  sigB L E
  sigBH L E
  sigC
  sigH L
  sigI L
  sigL L
  sigQ
  sigS
  sigX L now

/-! ## `PublicKey::Parse` -/

/-- src/PublicKey.cpp:106-149. -/
def keyP {E : Env} (L : Locale) : KeyM E Unit := do
  match ← keyTag b!"p" with
  | none => throw (.p .keyMissingP)
  | some p =>
    if p.value.isEmpty then throw (.p .keyRevoked)
    let dat := E.b64dec (stripSpace L p.value)
    match (← get).alg with
    | .rsa =>
      match E.d2iPubkey dat with
      | none => throw (.p .keyBadDER)
      | some none => throw (.p .keyNotRSA)
      | some (some key) => modify ({ · with rsa := some key })
    | .ed25519 =>
      if dat.length ≠ 32 then throw (.p .keyBadEd)
      modify ({ · with ed := dat })

/-- `PublicKey::Parse`, src/PublicKey.cpp:53-180. -/
def keyParse {E : Env} (L : Locale) (txt : Bytes) : KeyM E Unit := do
  keyTagList txt
  keyV
  keyH
  keyK
  keyP L
  keyS
  keyT

/-! ## `Validatory` -/

/-- src/Validatory.cpp:59-64. -/
def isSigHeader (L : Locale) (type : ValidatorType) (h : Header) : Bool :=
  match type with
  | .dkim => lower L h.name = b!"dkim-signature"
  | .arc => lower L h.name = b!"arc-message-signature"
  | .none => false

/-- The constructor, src/Validatory.cpp:46-69. -/
def validatory (L : Locale) (stream : IStream) (type : ValidatorType) : Except Err Validatory :=
  match ({} : Message).parseAll stream with
  | .error e => .error e
  | .ok (m, s) => .ok { file := s, msg := m, sigs := m.headers.filter (isSigHeader L type) }

/-- `GetSignature`, src/Validatory.cpp:80-85. -/
def getSignature (L : Locale) (E : Env) (now : Int) (v : Validatory) (h : Header) (st : SigSt) :
    Except Err Unit × SigSt × Validatory :=
  match sigParse L E now h st with
  | .error e st' => (.error e, st', v)
  | .ok () st' =>
    match v.checkBodyHash E st'.sig with
    | (r, v') => (r, st', v')

/-- `GetPublicKey`, src/Validatory.cpp:92-124. -/
def getPublicKey (L : Locale) {E : Env} (resolver : Bytes → Bool × Bytes) (sig : Signature) : KeyM E Unit :=
  let (ok, txt) := resolver (keyQuery sig)
  if ok then
    if txt.isEmpty then throw (.p (.noKey sig.selector sig.domain)) else keyParse L txt
  else throw (.temp (.dnsFailed sig.selector sig.domain) .temperror)

/-- src/Validatory.cpp:210-215. -/
def fill (L : Locale) (hs : List Header) : HeaderCache :=
  hs.foldl (fun c h => HeaderCache.put c (lower L h.name) (c (lower L h.name) ++ [h])) (fun _ => [])

/-- src/Validatory.cpp:218-238. -/
def headLoop (L : Locale) (mode : CanonMode) : HeaderCache → List Bytes → Except Err Bytes
  | _, [] => .ok []
  | cache, name :: names =>
    let k := lower L name
    match (cache k).getLast? with
    | none => headLoop L mode cache names
    | some h =>
      match filterHeader L mode h.header with
      | .error e => .error e
      | .ok t =>
        match headLoop L mode (cache.put k (cache k).dropLast) names with
        | .error e => .error e
        | .ok rest => .ok (t ++ CRLF ++ rest)

/-- src/Validatory.cpp:206-252. -/
def headerHashInput (L : Locale) (msg : Message) (h : Header) (sig : Signature) : Except Err Bytes :=
  match headLoop L sig.canonHeader (fill L msg.headers) sig.headers with
  | .error e => .error e
  | .ok a =>
    match stripB h sig with
    | .error e => .error e
    | .ok t =>
      match filterHeader L sig.canonHeader t with
      | .error e => .error e
      | .ok c => .ok (a ++ c)

/-- `CheckSignature`, src/Validatory.cpp:172-283. -/
def checkSignature (L : Locale) (E : Env) (msg : Message) (h : Header) (sig : Signature) (pub : PublicKey E) :
    Except Err Unit :=
  match sanityCheck sig pub with
  | .error e => .error e
  | .ok () =>
    match headerHashInput L msg h sig with
    | .error e => .error e
    | .ok input => verifyDigest E sig pub (E.hash sig.digest input)

/-- Verification of one signature field, tools/src/main.cpp:178-183, see `Validatory.verifyOne`. -/
def verifyOne (L : Locale) (E : Env) (now : Int) (resolver : Bytes → Bool × Bytes) (v : Validatory)
    (h : Header) (erange : Bool) :
    Except Err Unit × SigSt × PublicKey E × Validatory :=
  match getSignature L E now v h { erange := erange } with
  | (.error e, st, v') => (.error e, st, {}, v')
  | (.ok (), st, v') =>
    match getPublicKey L resolver st.sig ({} : PublicKey E) with
    | .error e pub => (.error e, st, pub, v')
    | .ok () pub => (checkSignature L E v'.msg h st.sig pub, st, pub, v')

/-! ## `Signatory` -/

/-- src/Signatory.cpp:105-126. -/
def isSelected (L : Locale) (headers : List Bytes) (h : Header) : Bool :=
  !(lower L h.name).isEmpty && (headers.isEmpty || (headers.map (lower L)).contains (lower L h.name))

/-- src/Signatory.cpp:119-134. -/
def signLoop (L : Locale) (mode : CanonMode) (sel : List Bytes) : List Header → Except Err (Bytes × List Bytes)
  | [] => .ok ([], [])
  | h :: hs =>
    if isSelected L sel h then
      match filterHeader L mode h.header with
      | .error e => .error e
      | .ok t =>
        match signLoop L mode sel hs with
        | .error e => .error e
        | .ok (bytes, names) => .ok (t ++ CRLF ++ bytes, lower L h.name :: names)
    else signLoop L mode sel hs

/-- src/Signatory.cpp:143-260. -/
def oneSignature (L : Locale) (E : Env) (o : Options E) (s : SigOpts E) (now : Int) (hashed : Bytes)
    (names : List Bytes) (bh : Bytes) : Except Err Bytes :=
  match sigHeaderText o s now names bh with
  | .error e => .error e
  | .ok text =>
    match filterHeader L o.canonHead text with
    | .error e => .error e
    | .ok t2 =>
      match signDigest E s o.digest (E.hash o.digest (hashed ++ t2)) with
      | .error e => .error e
      | .ok sg =>
        match foldB ((b64Encode sg).length + 1) 3 (b64Encode sg) with
        | .error e => .error e
        | .ok b => .ok (text ++ b)

/-- src/Signatory.cpp:141-265. -/
def allSignatures (L : Locale) (E : Env) (o : Options E) (clock : Nat → Int) (hashed : Bytes)
    (names : List Bytes) (bh : Bytes) : Nat → Bytes → List (SigOpts E) → Except Err Bytes
  | _, acc, [] => .ok acc
  | k, acc, s :: ss =>
    match oneSignature L E o s (clock k) hashed names bh with
    | .error e => .error e
    | .ok h =>
      allSignatures L E o clock hashed names bh (k + 1)
        ((if acc.isEmpty then acc else acc ++ CRLF) ++ h) ss

/-- `CreateSignature`, src/Signatory.cpp:55-267. -/
def createSignature (L : Locale) (E : Env) (o : Options E) (clock : Nat → Int) (sg : Signatory) :
    Except Err Bytes × Signatory :=
  match sg.msg.parseAll sg.file with
  | .error e => (.error e, sg)
  | .ok (msg, s1) =>
    match canonBody s1 o.canonBody msg.bodyOffset o.bodySignLength o.bodyLength with
    | .error e => (.error e, { file := s1, msg := msg })
    | .ok ((calls, ok), s2) =>
      let sg' : Signatory := { file := s2, msg := msg }
      if !ok then (.error (.p .bodyLimitExceeded), sg')
      else
        let bh := E.hash o.digest calls.flatten
        match signLoop L o.canonHead o.headers msg.headers.reverse with
        | .error e => (.error e, sg')
        | .ok (hashed, names) =>
          (allSignatures L E o clock hashed (names ++ o.oversign.map (lower L)) bh 0 []
            o.signatures.reverse, sg')

end Loc
end Dkim

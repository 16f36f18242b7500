import Verif.Model.Signatory
import Verif.Model.Validatory
/-!
# `tools/src/main.cpp`

The command line is represented by what `getopt_long` reports, option by option (library contract), the file system
by a function from names to contents. Messages printed are represented by their parts (the text of an exception by its
reason). Not modelled: write errors on stdout, the locale, `__progname`.
-/

namespace Dkim.Tool

/-- One option as reported by `getopt_long`, tools/src/main.cpp:72-82,87-118. `-A` takes an argument, but
`--arcinstance` is declared `no_argument`: then `optarg` is a null pointer (`none`). -/
inductive Cli
  | arc
  | arcInstance (optarg : Option Bytes)
  | validate
  | help
  | selector (optarg : Bytes)
  | domain (optarg : Bytes)
  | keyfile (optarg : Bytes)
  | keytype (optarg : Bytes)
  | unknown
  deriving DecidableEq

/-- The local variables of `main`, tools/src/main.cpp:59-65. -/
structure Config where
  validate : Bool := false
  selector : Bytes := []
  domain : Bytes := []
  keyfile : Bytes := []
  keytype : Bytes := b!"rsa"
  type : ValidatorType := .dkim
  arcInstance : Nat := 0

/-- How the process ends: exit status, or an uncaught exception / undefined behaviour. tools/src/main.cpp:126-199. -/
inductive Outcome
  | exit (status : Nat)
  | abort (e : Err)
  deriving DecidableEq

/-- The option switch, tools/src/main.cpp:88-118. -/
def Cli.apply (c : Config) : Cli → Except Outcome Config
  | .arc => .ok { c with type := .arc }
  | .arcInstance none => .error (.abort .ub)
  | .arcInstance (some a) => .ok { c with arcInstance := (strtoul (cstr a)).1 }
  | .validate => .ok { c with validate := true }
  | .help => .error (.exit 0)
  | .selector a => .ok { c with selector := a }
  | .domain a => .ok { c with domain := a }
  | .keyfile a => .ok { c with keyfile := a }
  | .keytype a => .ok { c with keytype := a }
  | .unknown => .error (.exit 2)

/-- The option loop, tools/src/main.cpp:87-119. -/
def configure : Config → List Cli → Except Outcome Config
  | c, [] => .ok c
  | c, o :: os =>
    match o.apply c with
    | .error e => .error e
    | .ok c' => configure c' os

/-- What a line of the validation report says, tools/src/main.cpp:184-196. -/
inductive Verdict
  | ok
  | temperr (ar : AR) (r : Reason)
  | soft (ar : AR) (r : Reason)
  | perm (ar : AR) (r : Reason)
  deriving DecidableEq

/-- A line of the validation report: file, domain, selector, verdict. tools/src/main.cpp:184-194. -/
structure Line where
  file : Bytes
  domain : Bytes
  selector : Bytes
  verdict : Verdict
  deriving DecidableEq

/-- The handlers around one verification, tools/src/main.cpp:180-197: the line printed, or an exception that is not
caught (`std::out_of_range`) or undefined behaviour. -/
def lineFor {E : Env} (file : Bytes) (r : Except Err Unit) (st : SigSt) (pub : PublicKey E) : Except Err Line :=
  let mk v : Line := { file := file, domain := cstr st.sig.domain, selector := cstr st.sig.selector, verdict := v }
  match r with
  | .ok () => .ok (mk .ok)
  | .error (.temp r a) => .ok (mk (.temperr a r))
  | .error (.perm r a) => .ok (mk (if pub.softFail then .soft a r else .perm a r))
  | .error e => .error e

/-- The loop over the signatures of one file, tools/src/main.cpp:174-196. `k` counts the verifications of the run,
`clock k` is the time of the k-th, and `noise k` what the calls since the previous one (resolver, stdio, opening files)
did to errno. -/
def validateSigs (E : Env) (clock : Nat → Int) (resolver : Bytes → Bool × Bytes) (noise : Nat → Bool → Bool) (file : Bytes) :
    Nat → Validatory → Bool → List Header → List Line × Option Err × Bool
  | _, _, er, [] => ([], none, er)
  | k, v, er, h :: hs =>
    match v.verifyOne E (clock k) resolver h (noise k er) with
    | (r, st, pub, v') =>
      match lineFor file r st pub with
      | .error e => ([], some e, st.erange)
      | .ok line =>
        match validateSigs E clock resolver noise file (k + 1) v' st.erange hs with
        | (ls, e, er') => (line :: ls, e, er')

/-- `std::ifstream fp(name)`: a file that cannot be opened gives a stream with failbit set.
tools/src/main.cpp:135,143,169. -/
def openFile (fs : Bytes → Option Bytes) (name : Bytes) : IStream :=
  match fs name with
  | some d => { data := d }
  | none => { data := [], fail := true }

/-- The loop over the files, tools/src/main.cpp:166-199. -/
def validateFiles (E : Env) (clock : Nat → Int) (resolver : Bytes → Bool × Bytes) (noise : Nat → Bool → Bool)
    (fs : Bytes → Option Bytes) (type : ValidatorType) : Nat → Bool → List Bytes → List Line × Outcome
  | _, _, [] => ([], .exit 0)
  | k, er, f :: files =>
    match Validatory.mk' (openFile fs f) type with
    | .error e => ([], .abort e)
    | .ok v =>
      match validateSigs E clock resolver noise f k v er v.sigs with
      | (ls, some e, _) => (ls, .abort e)
      | (ls, none, er') =>
        match validateFiles E clock resolver noise fs type (k + v.sigs.length) er' files with
        | (ls', o) => (ls ++ ls', o)

/-- A chain of setters, ended by the first exception. tools/src/main.cpp:147-156. -/
def setAll {E : Env} : Options E → List (OptOp E) → Except Err (Options E)
  | o, [] => .ok o
  | o, op :: ops =>
    match op.run o with
    | (some e, _) => .error e
    | (none, o') => setAll o' ops

/-- The setters called by the tool, in order, tools/src/main.cpp:147-156. -/
def setters {E : Env} (c : Config) (key : Bytes) : List (OptOp E) :=
  [.sig none (.alg (if c.keytype = b!"ed25519" then .ed25519 else .rsa)), .sig none (.privateKey key),
   .sig none (.domain c.domain), .sig none (.selector c.selector), .arcInstance c.arcInstance,
   .canonHead .relaxed, .canonBody .relaxed, .timestamp (-1), .expiration 1 false]

/-- `catch (std::runtime_error&)`, tools/src/main.cpp:158-161: PermanentError and TemporaryError are caught. -/
def caught : Err → Outcome
  | .perm _ _ => .exit 1
  | .temp _ _ => .exit 1
  | e => .abort e

/-- Signing, tools/src/main.cpp:128-164: bytes written to stdout and exit status. -/
def sign (E : Env) (clock : Nat → Int) (fs : Bytes → Option Bytes) (c : Config) (file : Bytes) : Bytes × Outcome :=
  match fs c.keyfile with
  | none => ([], .exit 1)
  | some key =>
    match setAll ({} : Options E) (setters c key) with
    | .error e => ([], caught e)
    | .ok o =>
      match (Signatory.createSignature E o clock { file := openFile fs file }).1 with
      | .error e => ([], caught e)
      | .ok H => (cstr H ++ CRLF, .exit 0)

/-- What a run of the tool shows. tools/src/main.cpp:126-199. -/
structure Output where
  signed : Bytes := []
  lines : List Line := []
  outcome : Outcome

/-- `main`, tools/src/main.cpp:55-200; `er` is errno at the start (ERANGE or not). -/
def main (E : Env) (clock : Nat → Int) (resolver : Bytes → Bool × Bytes) (noise : Nat → Bool → Bool)
    (fs : Bytes → Option Bytes) (er : Bool) (opts : List Cli) (args : List Bytes) : Output :=
  if opts = [] ∧ args = [] then { outcome := .exit 2 }
  else
    match configure {} opts with
    | .error o => { outcome := o }
    | .ok c =>
      match args with
      | [] => { outcome := .exit 2 }
      | file :: files =>
        if c.validate then
          match validateFiles E clock resolver noise fs c.type 0 er (file :: files) with
          | (ls, o) => { lines := ls, outcome := o }
        else if c.selector = [] ∨ c.domain = [] ∨ c.keyfile = [] then { outcome := .exit 2 }
        else
          match sign E clock fs c file with
          | (t, o) => { signed := t, outcome := o }

end Dkim.Tool

import Verif.Model.Tool
/-!
# The command line of the tool

`getopt_long` of the GNU C library (posix/getopt.c) as called in tools/src/main.cpp:72-123: options and file names may
come in any order, unless `POSIXLY_CORRECT` is set (`posix`). A word is a C string. Simplification: the tool ends at
the first error (`?`), so the words after it are not read.
-/

namespace Dkim.Tool

/-- Does an option take an argument? What glibc does in the call at tools/src/main.cpp:88. -/
inductive Takes
  | flag (o : Cli)
  | value (f : Bytes → Cli)

/-- The option string `"aA:hvs:d:k:K:"`, tools/src/main.cpp:88. -/
def shortOpt (c : Byte) : Option Takes :=
  if c = 97 then some (.flag .arc)
  else if c = 65 then some (.value (fun v => .arcInstance (some v)))
  else if c = 104 then some (.flag .help)
  else if c = 118 then some (.flag .validate)
  else if c = 115 then some (.value .selector)
  else if c = 100 then some (.value .domain)
  else if c = 107 then some (.value .keyfile)
  else if c = 75 then some (.value .keytype)
  else none

/-- `longopts`, tools/src/main.cpp:72-82. -/
def longOpts : List (Bytes × Takes) :=
  [(b!"arc", .flag .arc), (b!"arcinstance", .flag (.arcInstance none)), (b!"help", .flag .help), (b!"validate", .flag .validate),
   (b!"selector", .value .selector), (b!"domain", .value .domain), (b!"keyfile", .value .keyfile), (b!"keyformat", .value .keytype)]

/-- The option a long name stands for: an exact match, else the only name it is a beginning of (glibc, `process_long_option`).
What glibc does in the call at tools/src/main.cpp:88. -/
def longOpt (name : Bytes) : Option Takes :=
  match longOpts.find? (fun p => p.1 = name) with
  | some p => some p.2
  | none =>
    match longOpts.filter (fun p => name.isPrefixOf p.1) with
    | [p] => some p.2
    | _ => none

/-- What reading one word of options leaves to do. What glibc does in the call at tools/src/main.cpp:88. -/
inductive End
  | done
  /-- the argument is the next word -/
  | wants (f : Bytes → Cli)
  | bad

/-- A word of short options after its dash (glibc, `_getopt_internal_r`).
What glibc does in the call at tools/src/main.cpp:88. -/
def cluster : Bytes → List Cli × End
  | [] => ([], .done)
  | c :: cs =>
    match shortOpt c with
    | none => ([], .bad)
    | some (.flag o) =>
      match cluster cs with
      | (os, e) => (o :: os, e)
    | some (.value f) => if cs = [] then ([], .wants f) else ([f cs], .done)

/-- A word of one long option after its two dashes: the name ends at the first `=` (glibc, `process_long_option`).
What glibc does in the call at tools/src/main.cpp:88. -/
def long (w : Bytes) : List Cli × End :=
  match longOpt (w.takeWhile (· ≠ 61)), w.dropWhile (· ≠ 61) with
  | none, _ => ([], .bad)
  | some (.flag o), [] => ([o], .done)
  | some (.flag _), _ :: _ => ([], .bad)
  | some (.value f), [] => ([], .wants f)
  | some (.value f), _ :: v => ([f v], .done)

/-- A word that begins with a dash and is neither `-` nor `--`. What glibc does in the call at tools/src/main.cpp:88. -/
def optionWord : Bytes → List Cli × End
  | 45 :: 45 :: w => long w
  | w => cluster w.tail

/-- The option loop: the options reported, and the file names left in `argv` from `optind` on, tools/src/main.cpp:84-123. -/
def getopt (posix : Bool) : List Bytes → List Cli × List Bytes
  | [] => ([], [])
  | w :: ws =>
    if w = b!"--" then ([], ws)
    else if w.head? = some 45 ∧ w ≠ b!"-" then
      match optionWord w, ws with
      | (os, .bad), _ => (os ++ [.unknown], [])
      | (os, .done), ws => (os ++ (getopt posix ws).1, (getopt posix ws).2)
      | (os, .wants _), [] => (os ++ [.unknown], [])
      | (os, .wants f), v :: ws => (os ++ f v :: (getopt posix ws).1, (getopt posix ws).2)
    else if posix then ([], w :: ws)
    else ((getopt posix ws).1, w :: (getopt posix ws).2)

/-- `main` with its arguments (without the name of the program), tools/src/main.cpp:55-200. -/
def run (E : Env) (clock : Nat → Int) (resolver : Bytes → Bool × Bytes) (noise : Nat → Bool → Bool)
    (fs : Bytes → Option Bytes) (er : Bool) (posix : Bool) (argv : List Bytes) : Output :=
  main E clock resolver noise fs er (getopt posix argv).1 (getopt posix argv).2

end Dkim.Tool

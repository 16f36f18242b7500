import Verif.Model.Tool
/-!
# Specification: command lines

The usual conventions of GNU programs, as a grammar: which words may be written for a list of options and file names.
-/

namespace Dkim.Spec
open Tool (Cli)

/-- Options without argument: letter, long name. -/
inductive Flag : Option Byte → Bytes → Cli → Prop
  | arc : Flag (some 97) b!"arc" .arc
  | help : Flag (some 104) b!"help" .help
  | validate : Flag (some 118) b!"validate" .validate
  /-- the program declares it without argument -/
  | arcinstance : Flag none b!"arcinstance" (.arcInstance none)

/-- Options with argument. -/
inductive Valued : Byte → Option Bytes → (Bytes → Cli) → Prop
  | selector : Valued 115 (some b!"selector") .selector
  | domain : Valued 100 (some b!"domain") .domain
  | keyfile : Valued 107 (some b!"keyfile") .keyfile
  | keyformat : Valued 75 (some b!"keyformat") .keytype
  | arcinstance : Valued 65 none (fun v => .arcInstance (some v))

/-- The long names. -/
def LongName (n : Bytes) : Prop := (∃ c o, Flag c n o) ∨ ∃ c f, Valued c (some n) f

/-- `x` may be written for the long name `n`: it is `n`, or a beginning of `n` and of no other long name. -/
def Abbreviates (x n : Bytes) : Prop := LongName n ∧ (x = n ∨ (x <+: n ∧ ∀ m, LongName m → x <+: m → m = n))

/-- Letters of options without argument, and the options they mean. -/
inductive Letters : Bytes → List Cli → Prop
  | nil : Letters [] []
  | cons {c : Byte} {o : Cli} {cs : Bytes} {os : List Cli} : (∃ n, Flag (some c) n o) → Letters cs os → Letters (c :: cs) (o :: os)

/-- One or more words that spell some options. -/
inductive OptionWords : List Bytes → List Cli → Prop
  /-- `-av` -/
  | letters {cs : Bytes} {os : List Cli} : cs ≠ [] → Letters cs os → OptionWords [45 :: cs] os
  /-- `-avsVALUE` -/
  | attached {cs : Bytes} {os : List Cli} {c : Byte} {n f} {v : Bytes} : Letters cs os → Valued c n f →
      v ≠ [] → OptionWords [45 :: cs ++ c :: v] (os ++ [f v])
  /-- `-avs VALUE` -/
  | separate {cs : Bytes} {os : List Cli} {c : Byte} {n f} {v : Bytes} : Letters cs os → Valued c n f →
      OptionWords [45 :: cs ++ [c], v] (os ++ [f v])
  /-- `--validate` -/
  | long {x n : Bytes} {c o} : Abbreviates x n → Flag c n o → OptionWords [45 :: 45 :: x] [o]
  /-- `--selector=VALUE` -/
  | longEq {x n : Bytes} {c f} {v : Bytes} : Abbreviates x n → Valued c (some n) f → OptionWords [45 :: 45 :: x ++ 61 :: v] [f v]
  /-- `--selector VALUE` -/
  | longNext {x n : Bytes} {c f} {v : Bytes} : Abbreviates x n → Valued c (some n) f → OptionWords [45 :: 45 :: x, v] [f v]

/-- A word that is a file name wherever it is: it does not begin with a dash, or is a dash. -/
def PlainWord (w : Bytes) : Prop := w.head? ≠ some 45 ∨ w = b!"-"

/-- The words `argv` spell the options `opts` and the file names `files`. -/
inductive Spelled (posix : Bool) : List Bytes → List Cli → List Bytes → Prop
  | nil : Spelled posix [] [] []
  /-- after `--` there are only file names -/
  | rest (ws : List Bytes) : Spelled posix (b!"--" :: ws) [] ws
  /-- and with POSIXLY_CORRECT also from the first file name on -/
  | stop {w : Bytes} {ws : List Bytes} : posix = true → PlainWord w → Spelled posix (w :: ws) [] (w :: ws)
  | file {w : Bytes} {ws : List Bytes} {os files} : posix = false → PlainWord w → Spelled posix ws os files →
      Spelled posix (w :: ws) os (w :: files)
  | options {us ws : List Bytes} {os os' files} : OptionWords us os → Spelled posix ws os' files → Spelled posix (us ++ ws) (os ++ os') files

end Dkim.Spec

import Verif.Model.Tool
import Verif.Props.Message
/-!
# Specification: the report of the command line tool
-/

namespace Dkim.Spec

/-- One signature field to be reported on: the name of the file it is in, the text of the file, the field. -/
structure Job where
  file : Bytes
  text : Bytes
  field : Header

/-- The signature fields the library lists for a text (see C41). -/
def sigFields (type : ValidatorType) (d : Bytes) : List Header :=
  match Validatory.mk' (freshStream d) type with
  | .ok v => v.sigs
  | .error _ => []

/-- The signature fields of all files that can be opened, in the order of the command line and of the message. -/
def jobs (type : ValidatorType) (fs : Bytes → Option Bytes) (files : List Bytes) : List Job :=
  files.flatMap (fun f =>
    match fs f with
    | none => []
    | some d => (sigFields type d).map (fun h => ⟨f, d, h⟩))

/-- What the word in the report means: result of the verification, testing flag of the key. -/
inductive Says : Except Err Unit → Bool → Tool.Verdict → Prop
  | ok (y) : Says (.ok ()) y .ok
  | temperr (r a y) : Says (.error (.temp r a)) y (.temperr a r)
  | soft (r a) : Says (.error (.perm r a)) true (.soft a r)
  | perm (r a) : Says (.error (.perm r a)) false (.perm a r)

end Dkim.Spec

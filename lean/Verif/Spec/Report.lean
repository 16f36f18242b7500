import Verif.Model.Tool
/-!
# Specification: what a reader of the tool's report can tell
-/

namespace Dkim.Spec

/-- The kinds of lines. -/
inductive Kind
  | ok
  | temperr (ar : AR)
  | soft (ar : AR)
  | perm (ar : AR)
  deriving DecidableEq

/-- The kind of a verdict. -/
def kind : Tool.Verdict → Kind
  | .ok => .ok
  | .temperr a _ => .temperr a
  | .soft a _ => .soft a
  | .perm a _ => .perm a

/-- What a line says, apart from the explanation: file, domain, selector, kind. -/
def says (l : Tool.Line) : Bytes × Bytes × Bytes × Kind := (l.file, l.domain, l.selector, kind l.verdict)

/-- A name that contains neither a closing bracket nor a line feed. -/
def CleanName (x : Bytes) : Prop := (93 : Byte) ∉ x ∧ (10 : Byte) ∉ x

end Dkim.Spec

import Verif.Spec.Ascii
import Verif.Model.TagList
/-!
# Specification: tag=value lists (RFC 6376, 3.2, as accepted by the library)

Differences to the RFC grammar, all on the lenient side: white space is any mix of SP, TAB, CR and
LF, and a tag name may start with a digit or an underscore.
-/

namespace Dkim.Spec

/-- Only SP, TAB, CR, LF. -/
def AllLoose (s : Bytes) : Prop := ∀ c ∈ s, isLoose c = true

/-- One `name = value` item with its white space. -/
structure TagItem where
  pre : Bytes
  name : Bytes
  gap1 : Bytes
  gap2 : Bytes
  value : Bytes
  post : Bytes

/-- Everything before the value. -/
def TagItem.lead (i : TagItem) : Bytes := i.pre ++ i.name ++ i.gap1 ++ [EQ] ++ i.gap2
/-- The item's text. -/
def TagItem.text (i : TagItem) : Bytes := i.lead ++ i.value ++ i.post

/-- A tag name: one or more of `[A-Za-z0-9_]`. -/
def IsTagName (n : Bytes) : Prop := n ≠ [] ∧ ∀ c ∈ n, isAlnum c = true ∨ c = 95

/-- A printable byte other than SP and `;`. -/
def IsValByte (c : Byte) : Prop := 0x21 ≤ c ∧ c ≤ 0x7E ∧ c ≠ SEMI

/-- A tag value: empty, or printable bytes other than `;` with white space only inside. -/
def IsTagValue (v : Bytes) : Prop :=
  (∀ c ∈ v, IsValByte c ∨ isLoose c = true) ∧
  (∀ c ∈ v.head?, IsValByte c) ∧ (∀ c ∈ v.getLast?, IsValByte c)

/-- A well-formed item (after an empty value all white space is counted as `gap2`). -/
def TagItem.WF (i : TagItem) : Prop :=
  AllLoose i.pre ∧ IsTagName i.name ∧ AllLoose i.gap1 ∧ AllLoose i.gap2 ∧ IsTagValue i.value ∧
  AllLoose i.post ∧ (i.value = [] → i.post = [])

/-- `TagText pos s es`: the text `s`, which starts at position `pos` of the whole tag list, is a
sequence of items separated (or terminated) by `;`, and `es` are the names with values and value
positions, in order. (An empty value at the very end has no position: -1.) -/
inductive TagText : Nat → Bytes → List (Bytes × TagEntry) → Prop
  | done (pos s) : AllLoose s → TagText pos s []
  | last (pos) (i : TagItem) : i.WF →
      TagText pos i.text [(i.name,
        { value := i.value, offset := if i.value = [] then -1 else ((pos + i.lead.length : Nat) : Int) })]
  | cons (pos) (i : TagItem) (s es) : i.WF → TagText (pos + i.text.length + 1) s es →
      TagText pos (i.text ++ SEMI :: s)
        ((i.name, { value := i.value, offset := (pos + i.lead.length : Nat) }) :: es)

end Dkim.Spec

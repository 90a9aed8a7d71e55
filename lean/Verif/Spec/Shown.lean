import Verif.Spec.Encode
/-
Specification of the fields that a struct is written with.
-/
namespace Verif.Spec
open Verif

/-- A field with value `v` is written: it is exported, its key is not `-`, and it is not a zero value with the option
`omitempty`. -/
def Shown (W : World) (f : Field) (v : GV) : Prop :=
  f.exported = true ∧ ∃ key om str, TagMeaning W f key om str ∧ key ≠ [45] ∧ ¬ (om ∧ ZeroGV v)

/-- Bools and integers as text. -/
def optText : GV → Option Bytes
  | .bool true => some [116, 114, 117, 101]
  | .bool false => some [102, 97, 108, 115, 101]
  | .int i => some (intText i)
  | .uint n => some (natText n)
  | _ => none

end Verif.Spec

import Verif.Model.Types
/-
Values of the wrong kind: which values a type can hold, by the letter they begin with, and how each decoder words its refusal of the others.
-/
namespace Verif

/-- The kinds of PHP values by the letter that begins them, with the names used in type errors (string.go:55-64). -/
def valueKind : List (Byte × String) :=
  [(98, "bool"), (105, "number"), (100, "float"), (115, "string"), (97, "array"), (79, "object")]

/-- The letters of the values that a type (seen through its name) takes, apart from null. `none`: the type decides otherwise. -/
def takes (W : World) : Ty → Option (List Byte)
  | .bool => some [98]
  | .int _ | .uint _ => some [105]
  | .f32 | .f64 => some [100]
  | .str => some [115]
  | .slice e => some (if W.resolve e = .uint .u8 then [97, 115] else [97])
  | .array _ _ => some [97]
  | .map _ _ | .struct _ => some [97, 79]
  | .any => some [98, 105, 100, 115, 97, 79]
  | _ => none

/-- The refusal of a value that begins with `x` at position `n`, by what it is read into. -/
def refusal (W : World) (t : Ty) (x : Byte) (n : Nat) : Err :=
  let text := if x = 98 then .typeError "bool" n else if x = 100 then .typeError "float" n else if x = 105 then .typeError "number" n else .beginValue x n
  match t with
  | .bool => .unexpectedEnd "bool" n
  | .int _ | .uint _ => .unexpected "'i' to start an integer" n x
  | .f32 | .f64 => .unexpected "float start with 'd' or 'N'" n x
  | .str => text
  | .slice e =>
    if W.resolve e = .uint .u8 then text
    else if x = 45 ∨ (48 ≤ x ∧ x ≤ 57) then .typeError "number" n else .unexpectedEnd "slice" n
  | .array _ _ => .unexpectedEnd "array" n
  | .map _ _ => .unexpectedStart "map" n x
  | _ => .beginValue x n

/-- `e` says that the kind `kind` was found at position `n`: an `UnmarshalTypeError` (error.go:33-39) with these fields. -/
def Mismatch (kind : String) (n : Nat) (e : Err) : Prop := e = .typeError kind n

end Verif

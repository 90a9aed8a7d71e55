import Verif.Model.Types
/-
Model of /repo/internal/runtime/struct_field.go.
-/
namespace Verif

/-- `strings.Split(s, ",")` as used at struct_field.go:69. -/
def splitComma : Bytes → List Bytes
  | [] => [[]]
  | c :: cs =>
    if c = 44 then [] :: splitComma cs
    else match splitComma cs with
      | [] => [[c]]
      | w :: ws => (c :: w) :: ws

/-- The characters of the string literal at struct_field.go:54: `!#$%&()*+-./:<=>?@[]^_{|}~ `. -/
def tagPunct : Bytes :=
  [33, 35, 36, 37, 38, 40, 41, 42, 43, 45, 46, 47, 58, 60, 61, 62, 63, 64, 91, 93, 94, 95, 123, 124, 125, 126, 32]

/-- An ASCII byte admitted by the loop body of `isValidTag`, struct_field.go:53-60: listed punctuation, letter or digit. -/
def tagByteOk (c : Byte) : Bool :=
  tagPunct.contains c || decide (48 ≤ c ∧ c ≤ 57) || decide (65 ≤ c ∧ c ≤ 90) || decide (97 ≤ c ∧ c ≤ 122)

/-- `isValidTag`, struct_field.go:48-63. The Unicode classification of non-ASCII runes is delegated to the
environment (`World.wideOk`). -/
def isValidTag (W : World) (s : Bytes) : Bool :=
  !s.isEmpty && s.all (fun c => decide (128 ≤ c) || tagByteOk c) && (s.all (fun c => decide (c < 128)) || W.wideOk s)

/-- `StructTag`, struct_field.go:23-28 (without the field itself). -/
structure StructTag where
  key : Bytes
  omitEmpty : Bool
  isString : Bool
deriving DecidableEq, Repr

/-- ASCII of "omitempty" (struct_field.go:80). -/
def omitemptyOpt : Bytes := [111, 109, 105, 116, 101, 109, 112, 116, 121]

/-- ASCII of "string" (struct_field.go:82). -/
def stringOpt : Bytes := [115, 116, 114, 105, 110, 103]

/-- The option loop of `StructTagFromField`, struct_field.go:77-85. -/
def applyOpts (st : StructTag) : List Bytes → StructTag
  | [] => st
  | o :: os =>
    if o = omitemptyOpt then applyOpts { st with omitEmpty := true } os
    else if o = stringOpt then applyOpts { st with isString := true } os
    else applyOpts st os

/-- `StructTagFromField`, struct_field.go:65-87. -/
def structTag (W : World) (f : Field) : StructTag :=
  match splitComma f.tag with
  | [] => { key := f.name, omitEmpty := false, isString := false }
  | o :: os =>
    let key := if !o.isEmpty && isValidTag W o then o else f.name
    applyOpts { key := key, omitEmpty := false, isString := false } os

/-- `IsIgnoredStructField`, struct_field.go:13-21. -/
def isIgnored (f : Field) : Bool := !f.exported || decide (f.tag = [45])

end Verif

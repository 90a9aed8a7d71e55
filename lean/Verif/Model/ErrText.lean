import Verif.Model.EncText
/-
The texts that `Error` methods make of errors: /repo/internal/errors/error.go.
-/
namespace Verif

/-- What the `Error` methods need of Go's libraries, error.go:11-139. Texts of errors whose contents the model drops (types that cannot be prepared,
invalid destinations, recursive values, errors of user code) are `other`. -/
structure Fmt where
  /-- `%s` of a `reflect.Type`, error.go:17, 44, 48; `none` is a type the model does not know -/
  typ : Option Ty → Bytes
  /-- `Kind().String()`, int.go:144, uint.go:72, float.go:70 -/
  kind : Ty → Bytes
  /-- `strconv.Quote`, which `NumError.Error` calls (float.go:66, wrapped_string.go:81) -/
  quote : Bytes → Bytes
  /-- `%v` of a float64, error.go:138 -/
  float : UInt64 → Bytes
  /-- the text of the error inside a `NumError` of the function for the argument -/
  reason : String → Bytes → Bytes
  other : Err → Bytes

/-- The bytes of a string constant: Go source is UTF-8. -/
def lit (s : String) : Bytes := s.toList.flatMap String.utf8EncodeChar

/-- `%c` of a byte, error.go:75-120, unmarshal.go:60: the character with that number, in UTF-8. -/
def charText (c : Byte) : Bytes := String.utf8EncodeChar (Char.ofNat c.toNat)

/-- `%d` of an int64, error.go:44, 48, 95. -/
def decText (i : Int) : Bytes := appendInt [] i

/-- `%v` of the value of an `overflowError`, error.go:138. -/
def Over.text (F : Fmt) : Over → Bytes
  | .int i => decText i
  | .uint n => appendUint [] n
  | .float x => F.float x

/-- What an error speaks of: fixed words, the `Value` "number %s" of int.go:28 and uint.go:29, the text of a `strconv.NumError`. -/
def What.text (F : Fmt) : What → Bytes
  | .lit s => Verif.lit s
  | .number t => Verif.lit "number " ++ t
  | .strconv fn t => Verif.lit "strconv." ++ Verif.lit fn ++ Verif.lit ": parsing " ++ F.quote t ++ Verif.lit ": " ++ F.reason fn t

/-- `UnmarshalTypeError.Error`, error.go:41-49. -/
def typeErrorText (F : Fmt) (w : What) (o : Int) (x : Blame) : Bytes :=
  if x.names.strct ≠ [] ∨ x.names.field ≠ [] then
    lit "php-serialize: cannot unmarshal " ++ w.text F ++ lit " into Go struct field " ++ x.names.strct ++ lit "." ++ x.names.field ++
      lit " of type " ++ F.typ x.type ++ lit " (offset " ++ decText o ++ lit ")"
  else lit "php-serialize: cannot unmarshal " ++ w.text F ++ lit " into Go value of type " ++ F.typ x.type ++ lit " (offset: " ++ decText o ++ lit ")"

/-- The text of an error: the functions of error.go:69-123 that make a `SyntaxError`, whose text is its message (31); `UnmarshalTypeError`
(41-49); `overflowError` (137-139); unmarshal.go:22-24 and 59-62. The messages of `ErrSyntax` written out in context.go and int.go begin with
"php-serialize: ". -/
def errText (F : Fmt) : Err → Bytes
  | .syntaxErr (.lit m) _ => lit "php-serialize: " ++ lit m
  | .syntaxErr w _ => w.text F
  | .maxDepth c _ => lit "php-serialize: invalid character \"" ++ charText c ++ lit "\" exceeded max depth"
  | .unexpectedStart w _ c => lit "php-serialize: unexpected " ++ charText c ++ lit " at beginning of " ++ lit w
  | .unexpectedEnd w _ => lit "php-serialize: " ++ lit w ++ lit " unexpected end of input"
  | .unexpected w o c => lit "php-serialize: expecting " ++ lit w ++ lit ", get char '" ++ charText c ++ lit "' instead at offset: " ++ decText o
  | .invalidChar c w _ =>
    if c = 0 then lit "php-serialize: invalid character as " ++ lit w
    else lit "php-serialize: invalid character " ++ charText c ++ lit " as " ++ lit w
  | .beginValue c _ => lit "php-serialize: invalid character '" ++ charText c ++ lit "' looking for beginning of value"
  | .beginArray c _ => lit "php-serialize: invalid character '" ++ charText c ++ lit "' looking for beginning of array"
  | .trailing c _ => lit "invalid character '" ++ charText c ++ lit "' after top-level value"
  | .overflow v t => lit "php-serialize: " ++ v.text F ++ lit " overflow type " ++ F.kind t
  | .typeError w o x => typeErrorText F w o (x.getD ⟨⟨[], []⟩, none⟩)
  | .emptyInput => lit "empty bytes"
  | e => F.other e

end Verif

import Verif.Model.Base
/-
What an error value tells its reader: /repo/internal/errors/error.go. Three Go types matter: `SyntaxError` with a message
and an `Offset` (23-31), `UnmarshalTypeError` with an `Offset` (33-39), and errors without a position.
-/
namespace Verif

/-- The `Offset` field, for errors that have one. -/
def offsetOf : Err → Option Int
  | .syntaxErr _ o | .maxDepth _ o | .unexpectedStart _ o _ | .unexpectedEnd _ o | .unexpected _ o _ | .invalidChar _ _ o
  | .beginValue _ o | .beginArray _ o | .trailing _ o | .typeError _ o _ => some o
  | .overflow _ _ | .invalidUnmarshal | .unsupported _ | .emptyInput | .recursive | .user _ => none

/-- The message of a `SyntaxError`: which constructor function of error.go:69-123 wrote it, what it speaks of and the byte
it shows. `none` for the other errors. -/
def message : Err → Option (String × What × Option Byte)
  | .syntaxErr m _ => some ("syntax", m, none)
  | .maxDepth b _ => some ("exceeded max depth", "", some b)
  | .unexpectedStart w _ b => some ("unexpected start", w, some b)
  | .unexpectedEnd w _ => some ("unexpected end", w, none)
  | .unexpected w _ b => some ("expected … but found", w, some b)
  | .invalidChar b w _ => some ("invalid character as", w, some b)
  | .beginValue b _ => some ("invalid beginning of value", "", some b)
  | .beginArray b _ => some ("invalid beginning of array", "", some b)
  | .trailing b _ => some ("invalid character after top-level value", "", some b)
  | .typeError _ _ _ | .overflow _ _ | .invalidUnmarshal | .unsupported _ | .emptyInput | .recursive | .user _ => none

/-- The byte shown in a message, if there is one. -/
def shownByte (e : Err) : Option Byte := (message e).bind fun m => m.2.2

/-- `e'` is `e` handed on from a part of the input that starts at position `n`: a `SyntaxError` keeps its message and
gets the position of that part, any other error is the same. -/
def HandedOn (n : Nat) (e e' : Err) : Prop :=
  match message e with
  | some m => message e' = some m ∧ offsetOf e' = some (n : Int)
  | none => e' = e

/-- The position in `e`, if it has one, lies within the input or at its end. -/
def Located (data : Bytes) (e : Err) : Prop := ∀ o, offsetOf e = some o → 0 ≤ o ∧ o ≤ data.length

/-- The byte shown in `e`, if there is one, is the byte at the position in `e`. -/
def Shows (data : Bytes) (e : Err) : Prop :=
  ∀ x, shownByte e = some x → ∃ n : Nat, offsetOf e = some (n : Int) ∧ data[n]? = some x

/-- `e` says that the input ended too early: `ErrUnexpectedEnd`, the complaint about missing digits at the very end of the
input, or the one about empty input. -/
def RanOut (data : Bytes) : Err → Prop
  | .unexpectedEnd _ _ => True
  | .syntaxErr w o => o = data.length ∧ (w = "length requires at least one digit" ∨ w = "integer requires at least one digit")
  | .emptyInput => True
  | _ => False

end Verif

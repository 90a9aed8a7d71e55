import Verif.Model.ErrText
import Verif.Spec.Names
/-
What is asked of the text of an error: it can be shown to a reader.
-/
namespace Verif.Spec
open Verif

/-- Not a control character (Unicode category Cc). -/
def Showable (c : Char) : Prop := 32 ≤ c.toNat ∧ ¬ (127 ≤ c.toNat ∧ c.toNat < 160)

/-- A text in UTF-8 without control characters. -/
def Clean (t : Bytes) : Prop := ∃ cs : List Char, t = cs.flatMap String.utf8EncodeChar ∧ ∀ c ∈ cs, Showable c

/-- What the documentation of strconv, fmt and reflect says: `Quote` writes a text without control characters, at most four bytes for one and the
quotes; a float64 takes at most 24 bytes; the two reasons of a `NumError` are "invalid syntax" and "value out of range"; the names of kinds are
at most 14 bytes long. -/
structure Fmt.Doc (F : Fmt) : Prop where
  quote : ∀ t, Clean (F.quote t) ∧ (F.quote t).length ≤ 4 * t.length + 2
  float : ∀ x, Clean (F.float x) ∧ (F.float x).length ≤ 24
  reason : ∀ fn t, F.reason fn t = lit "invalid syntax" ∨ F.reason fn t = lit "value out of range"
  kind : ∀ t, Clean (F.kind t) ∧ (F.kind t).length ≤ 14

/-- The names in a type error: struct, field and type. -/
def namesIn (F : Fmt) : Err → List Bytes
  | .typeError _ _ x => match x.getD ⟨⟨[], []⟩, none⟩ with
    | ⟨⟨s, f⟩, t⟩ => [s, f, F.typ t]
  | _ => []

/-- The byte shown with `%c`, if there is one. -/
def charIn : Err → Option Byte
  | .maxDepth c _ | .unexpectedStart _ _ c | .unexpected _ _ c | .beginValue c _ | .beginArray c _ | .trailing c _ => some c
  | .invalidChar c _ _ => if c = 0 then none else some c
  | _ => none

/-- The part of the input that a text repeats as it is, if there is one: the digits of a number. -/
def rawIn : Err → Option Bytes
  | .typeError (.number t) _ _ => some t
  | _ => none

/-- The part of the input that a text repeats in quotes, if there is one. -/
def quotedIn : Err → Option Bytes
  | .syntaxErr (.strconv _ t) _ => some t
  | _ => none

/-- How many bytes of names a text has. -/
def namesLength (F : Fmt) (e : Err) : Nat := ((namesIn F e).map List.length).sum

/-- The errors whose texts are those of user code, or whose contents are types. -/
def OtherErr : Err → Prop
  | .invalidUnmarshal | .unsupported _ | .recursive | .user _ => True
  | _ => False

end Verif.Spec

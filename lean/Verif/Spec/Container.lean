import Verif.Spec.Decode
/-
Specification vocabulary for containers: indices, the values given for an index, and lookups in entry lists.
-/
namespace Verif.Spec
open Verif

/-- The number written by an integer text. -/
def intVal : Bytes → Int
  | 45 :: ds => -(digitsVal ds : Int)
  | ds => digitsVal ds

/-- The index an integer document stands for. -/
def docIndex : Doc → Option Int
  | .int txt => some (intVal txt)
  | _ => none

/-- A document usable as an index: a non-negative integer within the range of int64. -/
def IndexDoc (k : Doc) (i : Nat) : Prop := ∃ txt, k = .int txt ∧ IntText txt (i : Nat) ∧ i < 2 ^ 63

/-- The value documents given for index `i`, in order. -/
def docsAt (es : List (Doc × Doc)) (i : Nat) : List Doc := (es.filter fun p => docIndex p.1 == some (i : Int)).map (·.2)

/-- Go map lookup in a list of entries. -/
def lookup (k : Val) : List (Val × Val) → Option Val
  | [] => none
  | (k', v) :: es => if k'.goEq k then some v else lookup k es

/-- The value given last for a key in a list of pairs. -/
def lookupLast (k : Val) (kvs : List (Val × Val)) : Option Val := lookup k kvs.reverse

/-- The documents, decoded one after the other into the same variable, take it from `a` to `b`. -/
inductive Chain (dec : Doc → Val → Val → Prop) : List Doc → Val → Val → Prop
  | nil {a} : Chain dec [] a a
  | cons {d ds a b c} : dec d a b → Chain dec ds b c → Chain dec (d :: ds) a c

end Verif.Spec

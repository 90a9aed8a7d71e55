import Verif.Spec.Encode
/-
Specification vocabulary for values held in interfaces (C37).
-/
namespace Verif.Spec
open Verif

/-- A slice whose elements are not interfaces. -/
def ConcreteSlice (W : World) (t : Ty) : Prop := ∃ e, W.resolve t = .slice e ∧ W.isIface e = false

/-- The type is not an array, and if it is a slice or map of interfaces, these do not list the method MarshalPHP. -/
structure NoSpecial (W : World) (t : Ty) : Prop where
  array : ∀ n e, W.resolve t ≠ .array n e
  elems : ∀ e, (W.resolve t = .slice e ∨ ∃ k, W.resolve t = .map k e) → W.isIface e = true → ¬ HasMarshal W e

/-- Types whose values `Marshal` treats alike in variables and in interfaces: neither the type nor, if it is a pointer type, what it points to is
special as above; there is no method MarshalPHP, except that structs and slices of concrete elements may have one, and that what a
pointer points to may be such a slice. -/
structure AlikeHeld (W : World) (t : Ty) : Prop where
  here : NoSpecial W t
  own : HasMarshal W t → (∃ id, W.resolve t = .struct id) ∨ ConcreteSlice W t
  there : ∀ e, W.resolve t = .ptr e → NoSpecial W e ∧ (HasMarshal W e → ConcreteSlice W e)

/-- Maps met at the same place are iterated in the same order, whether the place is in a value or in a value that is the first element of a list. -/
def SameOrder (h : Heap) : Prop := ∀ k e p a, h.iter k e (p ++ [0]) a = h.iter k e p a

/-- The text of a PHP array with one entry. -/
def oneText (tx : Bytes) : Bytes := [97, 58, 49, 58, 123, 105, 58, 48, 59] ++ tx ++ [125]

end Verif.Spec

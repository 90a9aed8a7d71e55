import Verif.Spec.Obstacle
import Verif.Spec.Position
/-
What in a value keeps `Marshal` from writing it, at places that it gets to.
-/
namespace Verif.Spec
open Verif

/-- `Marshal` gets to the value `w` of type `u` at path `p`, in mode `m`. -/
abbrev GetsTo (W : World) (h : Heap) (t : Ty) (v : GV) (m : Mode) (p : Path) (u : Ty) (w : GV) : Prop := Steps W h .typed [] t v m p u w

/-- The types that are prepared on the way: that of the value, those of structs and of slices of other things than interfaces met in interfaces, and the
element types of such maps, if they are not empty. -/
inductive MadeFor (W : World) (h : Heap) (t : Ty) (v : GV) : Ty → Prop
  | top : MadeFor W h t v t
  | struct {p u w} : GetsTo W h t v .held p u w → W.isStruct u = true → MadeFor W h t v u
  | slice {p u w e} : GetsTo W h t v .held p u w → W.resolve u = .slice e → W.isIface e = false → MadeFor W h t v u
  | map {p u k e a x y} : GetsTo W h t v .held p u (.map a) → W.resolve u = .map k e → W.isIface e = false → (x, y) ∈ h.iter k e p a → MadeFor W h t v e

/-- Something keeps `Marshal` from writing the value, recursion apart. -/
inductive Barred (W : World) (h : Heap) (t : Ty) (v : GV) : Prop
  -- a type that is prepared has a fault
  | type {r u x} : MadeFor W h t v r → EncOpens W r u → EncFault W u x → Barred W h t v
  -- an interface holds an array, a uintptr, a channel and the like
  | held {p u w} : GetsTo W h t v .held p u w → W.isPtr u = false → W.isIface u = false → ¬ HeldKind W u → Barred W h t v
  -- an interface holds a map with keys other than strings and integers
  | key {p u w k e} : GetsTo W h t v .held p u w → W.resolve u = .map k e → ¬ EncKeyKind W k → Barred W h t v
  -- an interface in a field with the option `string` holds something that is not of a predeclared type
  | string {p u w u' w'} : GetsTo W h t v (.field true) p u w → W.isIface u = true → Deref W h u w (some (u', w')) → ¬ Predeclared u' → Barred W h t v
  | stringPtr {p u e a u' w'} : GetsTo W h t v (.field true) p u (.ptr a) → W.resolve u = .ptr e → W.isIface e = true →
      Deref W h e (h.deref e a) (some (u', w')) → ¬ Predeclared u' → Barred W h t v
  -- a method that is called returns no bytes, but an error, or panics
  | method {m p u w} : GetsTo W h t v m p u w → HasMarshal W u → Honours W m u → (∀ raw, ¬ Marshaled W h u w raw) → Barred W h t v

end Verif.Spec

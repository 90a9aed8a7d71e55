import Verif.Spec.Fault
import Verif.Spec.Loops
/-
What in a value keeps `Marshal` from writing it, recursion apart.
-/
namespace Verif.Spec
open Verif

/-- The value `w`, of type `u`, is held in an interface within `v`, possibly behind pointers and further interfaces. -/
def HeldIn (W : World) (h : Heap) (t : Ty) (v : GV) (u : Ty) (w : GV) : Prop :=
  ∃ ti dt dv, W.isIface ti = true ∧ Within W h t v ti (.iface dt dv) ∧ Leads W h dt dv u w

/-- The types that are prepared for a value: its own, those of structs and of slices of other things than interfaces held in interfaces, and the element
types of such maps, if they are not empty. -/
inductive Root (W : World) (h : Heap) (t : Ty) (v : GV) : Ty → Prop
  | top : Root W h t v t
  | struct {u w} : HeldIn W h t v u w → W.isStruct u = true → Root W h t v u
  | slice {u w e} : HeldIn W h t v u w → W.resolve u = .slice e → W.isIface e = false → Root W h t v u
  | map {u k e p a x y} : HeldIn W h t v u (.map a) → W.resolve u = .map k e → W.isIface e = false → (x, y) ∈ h.iter k e p a → Root W h t v e

/-- What interfaces may hold: scalars but uintptr, slices, maps and structs. -/
def HeldKind (W : World) (t : Ty) : Prop :=
  EncKeyKind W t ∨ W.resolve t = .bool ∨ W.resolve t = .f32 ∨ W.resolve t = .f64 ∨ (∃ e, W.resolve t = .slice e) ∨ (∃ k e, W.resolve t = .map k e) ∨
  ∃ id, W.resolve t = .struct id

/-- The predeclared types that interfaces in fields with the option `string` may hold: no strings, and no declared types. -/
def Predeclared (t : Ty) : Prop := t = .bool ∨ (∃ k, t = .int k) ∨ (∃ k, t = .uint k ∧ k ≠ .uptr) ∨ t = .f32 ∨ t = .f64

/-- The field of a struct within `v` has the option `string`, and its value `w` of type `u` is written. -/
def StringField (W : World) (h : Heap) (t : Ty) (v : GV) (u : Ty) (w : GV) : Prop :=
  ∃ s id vs f, ∃ i : Nat, Within W h t v s (.struct vs) ∧ W.resolve s = .struct id ∧ (W.fields id)[i]? = some f ∧ vs[i]? = some w ∧ Shown W f w ∧
    HasString W f ∧ u = f.ty

/-- `Obstacle W h t v e`: something in `v` for which `Marshal` returns the error `e`. -/
inductive Obstacle (W : World) (h : Heap) (t : Ty) (v : GV) : Err → Prop
  -- the type of the value, or one held in an interface, has a fault
  | type {r u x} (s : String) : Root W h t v r → EncOpens W r u → EncFault W u x → Obstacle W h t v (.unsupported s)
  -- an interface holds an array, a uintptr, a channel and the like
  | held {u w} : HeldIn W h t v u w → W.isPtr u = false → W.isIface u = false → ¬ HeldKind W u → Obstacle W h t v (.unsupported "interface value")
  -- an interface holds a map with keys other than strings and integers
  | key {u w k e} : HeldIn W h t v u w → W.resolve u = .map k e → ¬ EncKeyKind W k → Obstacle W h t v (.unsupported "map key")
  -- an interface in a field with the option `string` holds something that is not of a predeclared type
  | string {u w u' w'} : StringField W h t v u w → W.isIface u = true → Deref W h u w (some (u', w')) → ¬ Predeclared u' →
      Obstacle W h t v (.unsupported "as string")
  | stringPtr {u e a u' w'} : StringField W h t v u (.ptr a) → W.resolve u = .ptr e → W.isIface e = true → Deref W h e (h.deref e a) (some (u', w')) →
      ¬ Predeclared u' → Obstacle W h t v (.unsupported "as string")
  -- a method returns the error
  | method {u w e} : Within W h t v u w → HasMarshal W u → (h.marshal u w = .err e ∨ ∃ dt dv, w = .iface dt dv ∧ h.marshal dt dv = .err e) →
      Obstacle W h t v e

end Verif.Spec

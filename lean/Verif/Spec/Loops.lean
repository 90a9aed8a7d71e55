import Verif.Spec.Recursion
/-
Specification vocabulary for cyclic values: which ways through a value no recursion check of the encoder guards.
-/
namespace Verif.Spec
open Verif

/-- `v'` is met when pointers and interfaces are followed from `v` (zero steps allowed). -/
inductive Leads (W : World) (h : Heap) : Ty → GV → Ty → GV → Prop
  | refl {t v} : Leads W h t v t v
  | ptr {t e a t' v'} : W.resolve t = .ptr e → Leads W h e (h.deref e a) t' v' → Leads W h t (.ptr a) t' v'
  | iface {t dt v t' v'} : W.isIface t = true → Leads W h dt v t' v' → Leads W h t (.iface dt v) t' v'

/-- Ways from a value into it on which the encoder remembers nothing: fields, array elements, pointers to other things than structs,
and from an interface to everything that its contents lead to over pointers and interfaces. (Not: elements of slices and maps, and
pointers to structs outside of interfaces.) -/
inductive Unguarded (W : World) (h : Heap) : Ty → GV → Ty → GV → Prop
  | field {t id vs f v} {i : Nat} : W.resolve t = .struct id → (W.fields id)[i]? = some f → vs[i]? = some v →
      f.exported = true → ¬ HasKey W f [45] → Unguarded W h t (.struct vs) f.ty v
  | array {t n e vs v} : W.resolve t = .array n e → v ∈ vs → Unguarded W h t (.arr vs) e v
  | ptr {t e a} : W.resolve t = .ptr e → W.isStruct e = false → Unguarded W h t (.ptr a) e (h.deref e a)
  | iface {t dt v t' v'} : W.isIface t = true → Leads W h dt v t' v' → Unguarded W h t (.iface dt v) t' v'

/-- One or more such ways after each other. -/
inductive UnguardedPath (W : World) (h : Heap) : Ty → GV → Ty → GV → Prop
  | one {t v t' v'} : Unguarded W h t v t' v' → UnguardedPath W h t v t' v'
  | step {t v t' v' t'' v''} : Unguarded W h t v t' v' → UnguardedPath W h t' v' t'' v'' → UnguardedPath W h t v t'' v''

/-- Every cycle in the value is guarded: on it there is an element of a slice or map, or a pointer to a struct that is not held in an
interface. -/
def Guarded (W : World) (h : Heap) (t : Ty) (v : GV) : Prop := ∀ t' v', Within W h t v t' v' → ¬ UnguardedPath W h t' v' t' v'

/-- Finitely many values lie within. -/
def FiniteValue (W : World) (h : Heap) (t : Ty) (v : GV) : Prop := ∃ l : List (Ty × GV), ∀ t' v', Within W h t v t' v' → (t', v') ∈ l

/-- The entries delivered for a map do not depend on where in a value the map is met. -/
def SteadyMaps (h : Heap) : Prop := ∀ k e p q a x y, (x, y) ∈ h.iter k e p a → (x, y) ∈ h.iter k e q a

/-- A value lies inside itself somewhere. -/
def Cyclic (W : World) (h : Heap) (t : Ty) (v : GV) : Prop := ∃ t' v', Within W h t v t' v' ∧ Inside W h t' v' t' v'

/-- As `Within`, over values whose types have no method MarshalPHP: what a method writes is its own affair. -/
inductive OpenWithin (W : World) (h : Heap) : Ty → GV → Ty → GV → Prop
  | refl {t v} : OpenWithin W h t v t v
  | step {t v t' v' t'' v''} : Part W h t v t' v' → ¬ HasMarshal W t → OpenWithin W h t' v' t'' v'' → OpenWithin W h t v t'' v''

/-- As `Inside`, likewise. -/
def OpenInside (W : World) (h : Heap) (t : Ty) (v : GV) (t'' : Ty) (v'' : GV) : Prop :=
  ∃ t' v', Part W h t v t' v' ∧ ¬ HasMarshal W t ∧ OpenWithin W h t' v' t'' v''

/-- A value lies inside itself somewhere, and no method is called on the way. -/
def OpenCyclic (W : World) (h : Heap) (t : Ty) (v : GV) : Prop := ∃ t' v', OpenWithin W h t v t' v' ∧ OpenInside W h t' v' t' v'

end Verif.Spec

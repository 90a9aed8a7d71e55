import Verif.Spec.Encode
/-
Specification vocabulary for values in memory: their parts.
-/
namespace Verif.Spec
open Verif

/-- `Part W h t v t' v'`: `v'`, of type `t'`, is a direct part of `v`, of type `t`: what a pointer points to, an element, the
value of a map entry, a field that takes part in serialization, the contents of an interface. -/
inductive Part (W : World) (h : Heap) : Ty → GV → Ty → GV → Prop
  | ptr {t e a} : W.resolve t = .ptr e → Part W h t (.ptr a) e (h.deref e a)
  | slice {t e a n v} : W.resolve t = .slice e → v ∈ h.elems e a n → Part W h t (.slice a n) e v
  | array {t n e vs v} : W.resolve t = .array n e → v ∈ vs → Part W h t (.arr vs) e v
  | map {t k e p a x y} : W.resolve t = .map k e → (x, y) ∈ h.iter k e p a → Part W h t (.map a) e y
  | field {t id vs f v} {i : Nat} : W.resolve t = .struct id → (W.fields id)[i]? = some f → vs[i]? = some v →
      f.exported = true → ¬ HasKey W f [45] → Part W h t (.struct vs) f.ty v
  | iface {t dt v} : W.isIface t = true → Part W h t (.iface dt v) dt v

/-- `v'`, of type `t'`, is the value `v` itself or lies within it. -/
inductive Within (W : World) (h : Heap) : Ty → GV → Ty → GV → Prop
  | refl {t v} : Within W h t v t v
  | step {t v t' v' t'' v''} : Part W h t v t' v' → Within W h t' v' t'' v'' → Within W h t v t'' v''

end Verif.Spec

import Verif.Spec.Rewrite
import Verif.Spec.Ieee
/-
When the text of a value tells what the value is.
-/
namespace Verif.Spec
open Verif

/-- How strconv writes what is not a finite number: `+Inf`, `-Inf`, `NaN`. -/
structure SpecialTexts (W : World) : Prop where
  inf64 : ∀ e, W.fmtF64 e 0x7FF0000000000000 = [43, 73, 110, 102]
  negInf64 : ∀ e, W.fmtF64 e 0xFFF0000000000000 = [45, 73, 110, 102]
  nan64 : ∀ e x, NaN64 x → W.fmtF64 e x = [78, 97, 78]
  inf32 : ∀ e, W.fmtF32 e 0x7F800000 = [43, 73, 110, 102]
  negInf32 : ∀ e, W.fmtF32 e 0xFF800000 = [45, 73, 110, 102]
  nan32 : ∀ e x, NaN32 x → W.fmtF32 e x = [78, 97, 78]

/-- `Seen W h m t v t' v'`: `v'` is `v` or lies within it, not inside a value that a MarshalPHP method writes. `m` says whether the method of `t`
is called if there is one; that of what a pointer leads to sometimes is not. -/
inductive Seen (W : World) (h : Heap) : Bool → Ty → GV → Ty → GV → Prop
  | refl {m t v} : Seen W h m t v t v
  | step {m t v t1 v1 t' v'} : (m = true → W.marOf t = false) → Part W h t v t1 v1 → Seen W h true t1 v1 t' v' → Seen W h m t v t' v'
  | pointee {m t e a t' v'} : W.resolve t = .ptr e → Seen W h false e (h.deref e a) t' v' → Seen W h m t (.ptr a) t' v'

/-- What is asked of a value of type `t` itself, not of its parts: it is no interface and no pointer to one; a pointer does not lead to nil; of the fields of a
struct that may be written no two have the same key; what a method returns is a well-formed text other than null. -/
structure Clear (W : World) (h : Heap) (t : Ty) (v : GV) : Prop where
  iface : W.isIface t = false
  toIface : ∀ e, W.resolve t = .ptr e → W.isIface e = false
  ptr : ∀ e a, W.resolve t = .ptr e → v = .ptr a → (h.deref e a = .sliceNil → e = .slice (.uint .u8)) ∧ h.deref e a ≠ .mapNil ∧ h.deref e a ≠ .ptrNil
  keys : ∀ id, W.resolve t = .struct id → ∀ (i j : Nat) (f g : Field) (k : Bytes), (W.fields id)[i]? = some f → (W.fields id)[j]? = some g →
    f.exported = true → g.exported = true → HasKey W f k → HasKey W g k → k ≠ [45] → i = j
  method : W.marOf t = true → ∀ raw, Marshaled W h t v raw → ∃ d n, Strict n d ∧ raw = d.text ∧ d ≠ .null

/-- Methods return different texts for different values. -/
def MethodsTell (W : World) (h h' : Heap) (T : Ty) (V V' : GV) : Prop :=
  ∀ t v v' raw, Seen W h true T V t v → Seen W h' true T V' t v' → W.marOf t = true → Marshaled W h t v raw → Marshaled W h' t v' raw →
    SameIn W h h' t v v'

end Verif.Spec

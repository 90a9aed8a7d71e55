import Verif.Spec.Decode
/-
Specification of what decoding may change: fields that do not take part in serialization keep their value.
-/
namespace Verif.Spec
open Verif

/-- `Frame W t a a'`: in going from `a` to `a'`, no field that is unexported or tagged `-` was written, in the value
itself or in the structs it contains. Structs stored by value keep such fields as they were; a struct that is new (behind a
pointer, in a slice, array or map) has them as in the zero value of its type. Values of Unmarshaler types and interfaces
are in the hands of user code and not restricted. -/
inductive Frame (W : World) : Ty → Val → Val → Prop
  | same {t a} : Frame W t a a
  | struct {t id vs vs'} : Plain W t (.struct id) → vs'.length = vs.length →
      (∀ (i : Nat) (f : Field), (W.fields id)[i]? = some f → ¬ Visible f → vs'[i]? = vs[i]?) →
      (∀ (i : Nat) (f : Field) (a a' : Val), (W.fields id)[i]? = some f → Visible f → vs[i]? = some a → vs'[i]? = some a' → Frame W f.ty a a') →
      Frame W t (.struct vs) (.struct vs')
  | ptrNil {t e a} : Plain W t (.ptr e) → Frame W t a .ptrNil
  | ptrNew {t e a v} : Plain W t (.ptr e) → Frame W e (W.zero e) v → Frame W t a (.ptr v)
  | ptrOld {t e v v'} : Plain W t (.ptr e) → Frame W e v v' → Frame W t (.ptr v) (.ptr v')
  | sliceNil {t e a} : Plain W t (.slice e) → Frame W t a .sliceNil
  | slice {t e a vs} : Plain W t (.slice e) → (∀ v ∈ vs, Frame W e (W.zero e) v) → Frame W t a (.slice vs)
  | array {t n e a vs} : Plain W t (.array n e) → (∀ v ∈ vs, Frame W e (W.zero e) v) → Frame W t a (.arr vs)
  | mapNil {t k v a} : Plain W t (.map k v) → Frame W t a .mapNil
  | mapNew {t k v a es} : Plain W t (.map k v) → (∀ p ∈ es, Frame W v (W.zero v) p.2) → Frame W t a (.map es)
  | mapOld {t k v es es'} : Plain W t (.map k v) → (∀ p ∈ es', p ∉ es → Frame W v (W.zero v) p.2) → Frame W t (.map es) (.map es')
  | free {t a a'} : (∀ id, ¬ Plain W t (.struct id)) → (∀ e, ¬ Plain W t (.ptr e)) → (∀ e, ¬ Plain W t (.slice e)) →
      (∀ n e, ¬ Plain W t (.array n e)) → (∀ k v, ¬ Plain W t (.map k v)) → Frame W t a a'

end Verif.Spec

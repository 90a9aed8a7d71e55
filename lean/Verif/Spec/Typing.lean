import Verif.Spec.Decode
/-
Specification of "a valid value of its Go type", of the documented dynamic types, and of which run-time panics the
destination type exposes a caller to.
-/
namespace Verif.Spec
open Verif

/-- The dynamic types that decoding may put into an `any`, according to the documentation. -/
def Documented (t : Ty) : Prop :=
  t = .bool ∨ t = .int .i64 ∨ t = .f64 ∨ t = .str ∨ t = .map .any .any ∨ t = .map .str .any

/-- `v` is a valid value of type `t`: integers in the range of their kind, arrays of their fixed length, structs with
all their fields, and interfaces without methods holding only dynamic types in `D`. -/
inductive HasTy (W : World) (D : Ty → Prop) : Ty → Val → Prop
  | bool {t b} : W.resolve t = .bool → HasTy W D t (.bool b)
  | int {t k i} : W.resolve t = .int k → InRange k i → HasTy W D t (.int i)
  | uint {t k n} : W.resolve t = .uint k → InURange k n → HasTy W D t (.uint n)
  | f32 {t x} : W.resolve t = .f32 → HasTy W D t (.f32 x)
  | f64 {t x} : W.resolve t = .f64 → HasTy W D t (.f64 x)
  | str {t s} : W.resolve t = .str → HasTy W D t (.str s)
  | sliceNil {t e} : W.resolve t = .slice e → HasTy W D t .sliceNil
  | slice {t e vs} : W.resolve t = .slice e → (∀ v ∈ vs, HasTy W D e v) → HasTy W D t (.slice vs)
  | arr {t n e vs} : W.resolve t = .array n e → vs.length = n → (∀ v ∈ vs, HasTy W D e v) → HasTy W D t (.arr vs)
  | mapNil {t k v} : W.resolve t = .map k v → HasTy W D t .mapNil
  | map {t k v es} : W.resolve t = .map k v → (∀ a b, (a, b) ∈ es → HasTy W D k a) → (∀ a b, (a, b) ∈ es → HasTy W D v b) →
      HasTy W D t (.map es)
  | ptrNil {t e} : W.resolve t = .ptr e → HasTy W D t .ptrNil
  | ptr {t e v} : W.resolve t = .ptr e → HasTy W D e v → HasTy W D t (.ptr v)
  | struct {t id vs} : W.resolve t = .struct id → vs.length = (W.fields id).length →
      (∀ (i : Nat) (f : Field) (v : Val), (W.fields id)[i]? = some f → vs[i]? = some v → HasTy W D f.ty v) →
      HasTy W D t (.struct vs)
  | anyNil {t} : W.resolve t = .any → HasTy W D t .ifaceNil
  | any {t dt v} : W.resolve t = .any → D dt → HasTy W D dt v → HasTy W D t (.iface dt v)
  | ifaceNil {t i} : W.resolve t = .iface i → HasTy W D t .ifaceNil
  | iface {t i dt v} : W.resolve t = .iface i → HasTy W D dt v → HasTy W D t (.iface dt v)
  | other {t} : W.resolve t = .other → HasTy W D t .other

/-- The environment behaves: Go's rule about underlying types, zero values are valid, and user methods produce valid
values of their types. -/
structure WorldOk (W : World) (D : Ty → Prop) : Prop where
  namedOk : W.NamedOk
  structZero : ∀ id, HasTy W D (.struct id) (W.structZero id)
  namedZero : ∀ id, HasTy W D (.named id) (W.namedZero id)
  ifaceZero : ∀ id i, (W.named id).under = .iface i → W.namedZero id = .ifaceNil
  unmarshal : ∀ id s v, W.unmarshal id s = .ok v → HasTy W D (.named id) v
  unmarshalDyn : ∀ t v s, HasTy W D t v → HasTy W D t (W.unmarshalDyn t v s).1

/-- The call returned, or panicked with one of the panics in `P`. -/
def Safe {α : Type} (P : Panic → Prop) : Res α → Prop
  | .ok _ => True
  | .err _ => True
  | .panic p => P p
  | .diverge => False

/-- The input contains, as a run of digits, a number that is too large for allocating that many elements of size
`size` (one more is counted because an index `n` needs `n + 1` elements). -/
def Oversized (size : Nat) (data : Bytes) : Prop :=
  ∃ ds, IsDigits ds ∧ ds <:+: data ∧ (2 ^ 48 < size * (digitsVal ds + 1) ∨ 2 ^ 63 ≤ digitsVal ds + 1)

/-- `T` is a set of types closed under components, and `P` contains every panic that decoding `data` into them can raise:
`makeSlice` if there is a slice and an oversized number in the input (allocation of attacker-chosen size), `unhashable` if there is a map whose keys are
interfaces or user types, `reflectKind` if there is a map keyed by pointers, and whatever panics user methods raise. -/
structure Hazards (W : World) (data : Bytes) (P : Panic → Prop) (T : Ty → Prop) : Prop where
  ptr : ∀ t e, T t → W.unmOf t = none → W.resolve t = .ptr e → T e
  slice : ∀ t e, T t → W.unmOf t = none → W.resolve t = .slice e → T e ∧ (Oversized (esize W e) data → P .makeSlice)
  array : ∀ t n e, T t → W.unmOf t = none → W.resolve t = .array n e → T e
  mapVal : ∀ t k v, T t → W.unmOf t = none → W.resolve t = .map k v → T v
  mapAny : ∀ t k v, T t → W.unmOf t = none → W.resolve t = .map k v →
    (W.resolve k = .any ∨ ∃ p i, W.resolve k = .ptr p ∧ (W.resolve p = .any ∨ W.resolve p = .iface i)) → T .any ∧ P .unhashable
  mapUnm : ∀ t k v id, T t → W.unmOf t = none → W.resolve t = .map k v → W.unmOf k = some id →
    P .unhashable ∧ ∀ s, Safe P (W.unmarshal id s)
  mapPtr : ∀ t k v p, T t → W.unmOf t = none → W.resolve t = .map k v → W.resolve k = .ptr p → P .reflectKind
  struct : ∀ t id f, T t → W.unmOf t = none → W.resolve t = .struct id → f ∈ W.fields id → T f.ty
  any : ∀ t, T t → W.unmOf t = none → W.resolve t = .any → T .any
  unm : ∀ t id, T t → W.unmOf t = some id → ∀ s, Safe P (W.unmarshal id s)
  iface : ∀ t i, T t → W.unmOf t = none → W.resolve t = .iface i → ∀ dt v s, Safe P (W.unmarshalDyn dt v s).2

end Verif.Spec

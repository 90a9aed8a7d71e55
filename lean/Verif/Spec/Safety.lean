import Verif.Spec.Typing
import Verif.Spec.Compile
/-
Specification vocabulary for safety properties: what user methods are assumed to do, what counts as a valid value, and
the circumstances under which a run-time panic may happen.
-/
namespace Verif.Spec
open Verif

/-- User-supplied UnmarshalPHP methods return a result or an error: they neither panic nor run forever. -/
structure UserReturns (W : World) : Prop where
  unmarshal : ∀ id s, (W.unmarshal id s).Returns
  dyn : ∀ t v s, (W.unmarshalDyn t v s).2.Returns

/-- The circumstances under which decoding `data` into a variable of type `t` may panic, and with what. -/
inductive PanicCause (W : World) (t : Ty) (data : Bytes) : Panic → Prop
  /-- a slice somewhere in the type, and a number in the input too large for its elements -/
  | slice {t' e} : Reach W t t' → Plain W t' (.slice e) → Oversized (esize W e) data → PanicCause W t data .makeSlice
  /-- a map keyed by `any`, by a pointer or by an Unmarshaler type -/
  | key {t' k v} : Reach W t t' → Plain W t' (.map k v) → (W.resolve k = .any ∨ (∃ p, W.resolve k = .ptr p) ∨ W.unmOf k ≠ none) →
      PanicCause W t data .unhashable
  /-- a map keyed by a pointer -/
  | ptrKey {t' k v p} : Reach W t t' → Plain W t' (.map k v) → W.resolve k = .ptr p → PanicCause W t data .reflectKind

/-- The type contains no map keyed by `any`, by a pointer or by an Unmarshaler type. -/
def SafeKeys (W : World) (t : Ty) : Prop :=
  ∀ t' k v, Reach W t t' → Plain W t' (.map k v) → W.resolve k ≠ .any ∧ (∀ p, W.resolve k ≠ .ptr p) ∧ W.unmOf k = none

/-- The type contains no slice, map, interface or Unmarshaler type. -/
def FixedShape (W : World) (t : Ty) : Prop :=
  ∀ t', Reach W t t' → W.unmOf t' = none ∧ (∀ e, W.resolve t' ≠ .slice e) ∧ (∀ k v, W.resolve t' ≠ .map k v) ∧
    W.resolve t' ≠ .any ∧ ∀ i, W.resolve t' ≠ .iface i

end Verif.Spec

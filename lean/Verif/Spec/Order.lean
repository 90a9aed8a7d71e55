import Verif.Spec.Back
/-
Specification of equality of decoded values up to the order of map entries.
-/
namespace Verif.Spec
open Verif

/-- The same value, where the entries of maps may be listed in different orders. -/
inductive Alike : Val → Val → Prop
  | bool {b} : Alike (.bool b) (.bool b)
  | int {i} : Alike (.int i) (.int i)
  | uint {n} : Alike (.uint n) (.uint n)
  | f32 {x y} : SameF32 x y → Alike (.f32 x) (.f32 y)
  | f64 {x y} : SameF64 x y → Alike (.f64 x) (.f64 y)
  | str {s} : Alike (.str s) (.str s)
  | sliceNil : Alike .sliceNil .sliceNil
  | slice {xs ys} : xs.length = ys.length → (∀ (i : Nat) (x y : Val), xs[i]? = some x → ys[i]? = some y → Alike x y) → Alike (.slice xs) (.slice ys)
  | arr {xs ys} : xs.length = ys.length → (∀ (i : Nat) (x y : Val), xs[i]? = some x → ys[i]? = some y → Alike x y) → Alike (.arr xs) (.arr ys)
  | mapNil : Alike .mapNil .mapNil
  | map {xs xs' ys} : xs.Perm xs' → xs'.length = ys.length →
      (∀ (i : Nat) (x y : Val × Val), xs'[i]? = some x → ys[i]? = some y → Alike x.1 y.1) →
      (∀ (i : Nat) (x y : Val × Val), xs'[i]? = some x → ys[i]? = some y → Alike x.2 y.2) → Alike (.map xs) (.map ys)
  | ptrNil : Alike .ptrNil .ptrNil
  | ptr {x y} : Alike x y → Alike (.ptr x) (.ptr y)
  | struct {xs ys} : xs.length = ys.length → (∀ (i : Nat) (x y : Val), xs[i]? = some x → ys[i]? = some y → Alike x y) → Alike (.struct xs) (.struct ys)
  | refl {x} : Alike x x

/-- `h'` is the memory `h` in which maps are iterated in other orders. -/
structure Reordered (h h' : Heap) : Prop where
  deref : h'.deref = h.deref
  elems : h'.elems = h.elems
  iter : ∀ k e p p' a, (h.iter k e p a).Perm (h'.iter k e p' a)

end Verif.Spec

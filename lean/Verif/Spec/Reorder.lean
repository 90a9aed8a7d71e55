import Verif.Spec.Rearrange
import Verif.Spec.Decode
/-
Documents in which keys differ, and values that differ in the order of map entries only.
-/
namespace Verif.Spec
open Verif

/-- Keys of PHP arrays and objects, integers or strings, that are different. -/
inductive KeysDiffer : Doc → Doc → Prop
  | ints {s t i j} : IntText s i → IntText t j → i ≠ j → KeysDiffer (.int s) (.int t)
  | strs {l s m t} : s ≠ t → KeysDiffer (.str l s) (.str m t)
  | intStr {s l t} : KeysDiffer (.int s) (.str l t)
  | strInt {l s t} : KeysDiffer (.str l s) (.int t)

/-- In no array or object of the document does a key occur twice. -/
inductive KeysOnce : Doc → Prop
  | null : KeysOnce .null
  | bool {b} : KeysOnce (.bool b)
  | int {s} : KeysOnce (.int s)
  | float {s} : KeysOnce (.float s)
  | str {l s} : KeysOnce (.str l s)
  | arr {cnt es} : es.Pairwise (fun p q => KeysDiffer p.1 q.1) → (∀ k x, (k, x) ∈ es → KeysOnce x) → KeysOnce (.arr cnt es)
  | obj {clen cls cnt es} : es.Pairwise (fun p q => KeysDiffer p.1 q.1) → (∀ k x, (k, x) ∈ es → KeysOnce x) → KeysOnce (.obj clen cls cnt es)

/-- The same value, but that the entries of maps inside it may be listed in another order; that only if `Q`. (The list that stands for a map has an order; a map of Go has none.) -/
inductive SameMaps (Q : Prop) : Val → Val → Prop
  | refl {v} : SameMaps Q v v
  | trans {a b c} : SameMaps Q a b → SameMaps Q b c → SameMaps Q a c
  | order {es es'} : Q → es.Perm es' → SameMaps Q (.map es) (.map es')
  | mapVal {pre k x y post} : SameMaps Q x y → SameMaps Q (.map (pre ++ (k, x) :: post)) (.map (pre ++ (k, y) :: post))
  | slice {pre x y post} : SameMaps Q x y → SameMaps Q (.slice (pre ++ x :: post)) (.slice (pre ++ y :: post))
  | arr {pre x y post} : SameMaps Q x y → SameMaps Q (.arr (pre ++ x :: post)) (.arr (pre ++ y :: post))
  | struct {pre x y post} : SameMaps Q x y → SameMaps Q (.struct (pre ++ x :: post)) (.struct (pre ++ y :: post))
  | ptr {x y} : SameMaps Q x y → SameMaps Q (.ptr x) (.ptr y)
  | iface {t x y} : SameMaps Q x y → SameMaps Q (.iface t x) (.iface t y)

end Verif.Spec

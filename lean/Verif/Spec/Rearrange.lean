import Verif.Spec.Format
/-
Documents that differ in the order of entries only.
-/
namespace Verif.Spec
open Verif

/-- `d'` comes from `d` by putting the entries of arrays and objects, at any depth, into another order. Keys are left as they are. -/
inductive Rearranged : Doc → Doc → Prop
  | refl {d} : Rearranged d d
  | arr {cnt es es'} : es.Perm es' → Rearranged (.arr cnt es) (.arr cnt es')
  | obj {clen cls cnt es es'} : es.Perm es' → Rearranged (.obj clen cls cnt es) (.obj clen cls cnt es')
  | inArr {cnt pre k x x' post} : Rearranged x x' → Rearranged (.arr cnt (pre ++ (k, x) :: post)) (.arr cnt (pre ++ (k, x') :: post))
  | inObj {clen cls cnt pre k x x' post} : Rearranged x x' →
      Rearranged (.obj clen cls cnt (pre ++ (k, x) :: post)) (.obj clen cls cnt (pre ++ (k, x') :: post))
  | trans {a b c} : Rearranged a b → Rearranged b c → Rearranged a c

end Verif.Spec

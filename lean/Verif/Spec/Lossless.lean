import Verif.Spec.Php
/-
Specification of what may be lost when a PHP value is read into an `any`.
-/
namespace Verif.Spec
open Verif

/-- The same values of type `any`, where the entries of maps may be listed in any order. -/
inductive SameAny : Val → Val → Prop
  | nil : SameAny .ifaceNil .ifaceNil
  | bool {b} : SameAny (.iface .bool (.bool b)) (.iface .bool (.bool b))
  | int {i} : SameAny (.iface (.int .i64) (.int i)) (.iface (.int .i64) (.int i))
  | f64 {x} : SameAny (.iface .f64 (.f64 x)) (.iface .f64 (.f64 x))
  | str {s} : SameAny (.iface .str (.str s)) (.iface .str (.str s))
  | map {t : Ty} {m m' n : List (Val × Val)} : n.Perm m' → m.length = n.length → (∀ (i : Nat) (x y : Val × Val), m[i]? = some x → n[i]? = some y → x.1 = y.1) →
      (∀ (i : Nat) (x y : Val × Val), m[i]? = some x → n[i]? = some y → SameAny x.2 y.2) → SameAny (.iface t (.map m)) (.iface t (.map m'))

/-- PHP values that differ at most in the order of entries, the names of classes and the spelling of floats. -/
inductive AlikePhp : Php → Php → Prop
  | null : AlikePhp .null .null
  | bool {b} : AlikePhp (.bool b) (.bool b)
  | int {i} : AlikePhp (.int i) (.int i)
  | float {txt txt' x} : AlikePhp (.float txt x) (.float txt' x)
  | str {s} : AlikePhp (.str s) (.str s)
  | arr {es es' fs : List (PKey × Php)} : fs.Perm es' → es.length = fs.length → (∀ (i : Nat) (x y : PKey × Php), es[i]? = some x → fs[i]? = some y → x.1 = y.1) →
      (∀ (i : Nat) (x y : PKey × Php), es[i]? = some x → fs[i]? = some y → AlikePhp x.2 y.2) → AlikePhp (.arr es) (.arr es')
  | obj {cls cls' : Bytes} {es es' fs : List (Bytes × Php)} : fs.Perm es' → es.length = fs.length →
      (∀ (i : Nat) (x y : Bytes × Php), es[i]? = some x → fs[i]? = some y → x.1 = y.1) →
      (∀ (i : Nat) (x y : Bytes × Php), es[i]? = some x → fs[i]? = some y → AlikePhp x.2 y.2) → AlikePhp (.obj cls es) (.obj cls' es')

end Verif.Spec

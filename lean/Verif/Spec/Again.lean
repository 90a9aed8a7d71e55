import Verif.Spec.Back
import Verif.Spec.Php
/-
Specification of what happens when a value that `Unmarshal` has put into an empty interface is given to `Marshal`: how it lies
in memory, and what a second `Unmarshal` makes of the text.
-/
namespace Verif.Spec
open Verif

/-- `Stored h as v g`: the contents `v` of an `any`, as `Unmarshal` leaves them, lie in memory as `g`. Each map has an address of its
own, other than those of the maps around it (`as`); iterating over it gives its entries in some order. -/
inductive Stored (h : Heap) : List Nat → Val → GV → Prop
  | nil {as} : Stored h as .ifaceNil .ifaceNil
  | bool {as b} : Stored h as (.iface .bool (.bool b)) (.iface .bool (.bool b))
  | int {as i} : Stored h as (.iface (.int .i64) (.int i)) (.iface (.int .i64) (.int i))
  | float {as x} : Stored h as (.iface .f64 (.f64 x)) (.iface .f64 (.f64 x))
  | str {as s} : Stored h as (.iface .str (.str s)) (.iface .str (.str s))
  | obj {as a es gs} : a ∉ as → gs.length = es.length → (∀ p, (h.iter .str .any p a).Perm gs) →
      (∀ (i : Nat) (x : Val × Val) (y : GV × GV), es[i]? = some x → gs[i]? = some y → ∃ s, x.1 = .str s ∧ y.1 = .str s) →
      (∀ (i : Nat) (x : Val × Val) (y : GV × GV), es[i]? = some x → gs[i]? = some y → Stored h (a :: as) x.2 y.2) →
      Stored h as (.iface (.map .str .any) (.map es)) (.iface (.map .str .any) (.map a))
  | arr {as a es gs} : a ∉ as → gs.length = es.length → (∀ p, (h.iter .any .any p a).Perm gs) →
      (∀ (i : Nat) (x : Val × Val) (y : GV × GV), es[i]? = some x → gs[i]? = some y → Stored h (a :: as) x.1 y.1) →
      (∀ (i : Nat) (x : Val × Val) (y : GV × GV), es[i]? = some x → gs[i]? = some y → Stored h (a :: as) x.2 y.2) →
      Stored h as (.iface (.map .any .any) (.map es)) (.iface (.map .any .any) (.map a))

/-- There is a `map[any]any` in the value: its text contained an array. -/
inductive HasArray : Val → Prop
  | here {m} : HasArray (.iface (.map .any .any) m)
  | inside {es k v} : (k, v) ∈ es → HasArray v → HasArray (.iface (.map .str .any) (.map es))

/-- The number is in the value, outside any `map[any]any`. -/
inductive HasFloat (x : UInt64) : Val → Prop
  | here : HasFloat x (.iface .f64 (.f64 x))
  | inside {es k v} : (k, v) ∈ es → HasFloat x v → HasFloat x (.iface (.map .str .any) (.map es))

/-- `Again v w`: `w` is `v` with every `map[string]any` made a `map[any]any` with the same entries, in some order. -/
inductive Again : Val → Val → Prop
  | nil : Again .ifaceNil .ifaceNil
  | bool {b} : Again (.iface .bool (.bool b)) (.iface .bool (.bool b))
  | int {i} : Again (.iface (.int .i64) (.int i)) (.iface (.int .i64) (.int i))
  | float {x y} : SameF64 x y → Again (.iface .f64 (.f64 x)) (.iface .f64 (.f64 y))
  | str {s} : Again (.iface .str (.str s)) (.iface .str (.str s))
  | obj {es fs ws} : es.Perm fs → ws.length = fs.length →
      (∀ (i : Nat) (x y : Val × Val), fs[i]? = some x → ws[i]? = some y → ∃ s, x.1 = .str s ∧ y.1 = .iface .str (.str s)) →
      (∀ (i : Nat) (x y : Val × Val), fs[i]? = some x → ws[i]? = some y → Again x.2 y.2) →
      Again (.iface (.map .str .any) (.map es)) (.iface (.map .any .any) (.map ws))

/-- The argument of `Marshal` when it is called with the contents of an `any`. -/
def argument : GV → Option (Ty × GV)
  | .iface t v => some (t, v)
  | _ => none

end Verif.Spec

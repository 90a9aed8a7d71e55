import Verif.Spec.Encode
import Verif.Spec.Back
import Verif.Spec.Trip
/-
Specification of the texts that can be written at all.
-/
namespace Verif.Spec
open Verif

/-- The keys of an array are of one kind: strings, integers that fit into an int64, or integers that fit into a uint64. -/
inductive KeysAlike (es : List (Doc × Doc)) : Prop
  | str : (∀ e ∈ es, ∃ s, e.1 = strDoc s) → KeysAlike es
  | int : (∀ e ∈ es, ∃ i : Int, e.1 = .int (intText i) ∧ -2 ^ 63 ≤ i ∧ i < 2 ^ 63) → KeysAlike es
  | uint : (∀ e ∈ es, ∃ n : Nat, e.1 = .int (natText n) ∧ n < 2 ^ 64) → KeysAlike es

/-- Null, booleans, integers that fit into an int64 or uint64, floats as they are written, strings, and arrays of such values whose keys are distinct and of
one kind. -/
inductive Writable (W : World) : Doc → Prop
  | null : Writable W .null
  | bool {b} : Writable W (.bool b)
  | int {i : Int} : -2 ^ 63 ≤ i → i < 2 ^ 64 → Writable W (.int (intText i))
  | f64 {x s} : FloatOut64 W x s → Writable W (.float s)
  | f32 {x s} : FloatOut32 W x s → Writable W (.float s)
  | str {s} : Writable W (strDoc s)
  | arr {es} : KeysAlike es → es.Pairwise (fun x y => x.1 ≠ y.1) → (∀ e ∈ es, Writable W e.2) → Writable W (.arr (natText es.length) es)

/-- Values of PHP without objects: null, booleans, integers of 64 bits, floats (as Go writes them), strings, and arrays with distinct keys, each a string or an
integer of 64 bits. `K` is a further condition on the entries of each array. -/
inductive PhpValue (W : World) (K : List (Doc × Doc) → Prop) : Doc → Prop
  | null : PhpValue W K .null
  | bool {b} : PhpValue W K (.bool b)
  | int {i : Int} : -2 ^ 63 ≤ i → i < 2 ^ 63 → PhpValue W K (.int (intText i))
  | float {x s} : FloatOut64 W x s → PhpValue W K (.float s)
  | str {s} : PhpValue W K (strDoc s)
  | arr {es} : (∀ e ∈ es, (∃ s, e.1 = strDoc s) ∨ ∃ i : Int, e.1 = .int (intText i) ∧ -2 ^ 63 ≤ i ∧ i < 2 ^ 63) → es.Pairwise (fun x y => x.1 ≠ y.1) → K es →
      (∀ e ∈ es, PhpValue W K e.2) → PhpValue W K (.arr (natText es.length) es)

/-- What Go guarantees of a value of type `t` itself, not of its parts: an integer is in the range of its type, the keys of a map are distinct and in range.
Further, the type has no MarshalPHP method, and of the exported fields of a struct no two have the same key. -/
structure Sound (W : World) (h : Heap) (t : Ty) (v : GV) : Prop where
  method : W.marOf t = false
  range : Ranged W t v
  keys : ∀ a k e p, v = .map a → W.resolve t = .map k e → (h.iter k e p a).Pairwise (fun x y => x.1 ≠ y.1) ∧ ∀ x ∈ h.iter k e p a, Ranged W k x.1
  fields : ∀ id, W.resolve t = .struct id → ∀ (i j : Nat) (f g : Field) (k : Bytes), (W.fields id)[i]? = some f → (W.fields id)[j]? = some g →
    f.exported = true → g.exported = true → HasKey W f k → HasKey W g k → k ≠ [45] → i = j

end Verif.Spec

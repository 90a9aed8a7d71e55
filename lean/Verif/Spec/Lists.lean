import Verif.Spec.Container
/-
Specification of lists: arrays of PHP whose keys are indices, and the Go types that hold them.
-/
namespace Verif.Spec
open Verif

/-- The keys of the entries are the indices `is`. -/
inductive Indices : List (Doc × Doc) → List Nat → Prop
  | nil : Indices [] []
  | cons {txt i d es is} : IntText txt (i : Nat) → Indices es is → Indices ((.int txt, d) :: es) (i :: is)

/-- An array of PHP as the program that reads it would expect a list of `e`s: different indices, a count that is 0 for no entries and has no leading zeros
for some, and numbers that a slice can have memory for. -/
structure PlainList (W : World) (e : Ty) (cnt : Bytes) (es : List (Doc × Doc)) (is : List Nat) : Prop where
  keys : Indices es is
  differ : is.Nodup
  empty : es = [] → cnt = [48]
  filled : es ≠ [] → cnt.head? ≠ some 48
  count : ∃ m, LenText cnt m ∧ esize W e * m ≤ 2 ^ 48
  room : ∀ i ∈ is, i + 1 < 2 ^ 63 ∧ esize W e * (i + 1) ≤ 2 ^ 48

/-- `t` can hold values of type `e` at the indices `is`, and `old` is a variable of it that holds nothing which would stay: a slice, an array that is long
enough, a map with integers or interfaces as keys, or an interface. -/
inductive HoldsList (W : World) (e : Ty) (is : List Nat) : Ty → Val → Prop
  | slice {t old} : Plain W t (.slice e) → HoldsList W e is t old
  | array {t l old} : Plain W t (.array l e) → (∀ i ∈ is, i < l) → HoldsList W e is t old
  | map {t k kd old} : Plain W t (.map k e) → Plain W k (.int kd) → (∀ i ∈ is, InRange kd i) → MapBase old [] → HoldsList W e is t old
  | anyKeys {t k old} : Plain W t (.map k e) → Plain W k .any → MapBase old [] → HoldsList W e is t old
  | any {t old} : Plain W t .any → e = .any → HoldsList W e is t old

/-- The slice, array or map has `x` at `i`. -/
inductive HasAt : Val → Nat → Val → Prop
  | slice {vs : List Val} {i x} : vs[i]? = some x → HasAt (.slice vs) i x
  | array {vs : List Val} {i x} : vs[i]? = some x → HasAt (.arr vs) i x
  | map {m : List (Val × Val)} {i : Nat} {x} : (.int i, x) ∈ m → HasAt (.map m) i x
  | anyKeys {m : List (Val × Val)} {i : Nat} {x} : (.iface (.int .i64) (.int i), x) ∈ m → HasAt (.map m) i x
  | any {t v i x} : HasAt v i x → HasAt (.iface t v) i x

end Verif.Spec

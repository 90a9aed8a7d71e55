import Verif.Spec.Float
import Verif.Spec.Values
import Verif.Spec.Shown
/-
Specification of what a round trip gives back: which types take part, what is asked of a value, and when a decoded value is
the same as a value in memory.
-/
namespace Verif.Spec
open Verif

/-- `t'` is a component of `t` whose values are written and read as parts of values of `t`. -/
inductive Needs (W : World) : Ty → Ty → Prop
  | ptr {t e} : Plain W t (.ptr e) → Needs W t e
  | slice {t e} : Plain W t (.slice e) → Needs W t e
  | array {t n e} : Plain W t (.array n e) → Needs W t e
  | mapKey {t k v} : Plain W t (.map k v) → Needs W t k
  | mapVal {t k v} : Plain W t (.map k v) → Needs W t v
  | field {t id f} : Plain W t (.struct id) → f ∈ W.fields id → Visible f → Needs W t f.ty

/-- `t'` is `t` or occurs in it. -/
inductive Uses (W : World) : Ty → Ty → Prop
  | refl {t} : Uses W t t
  | step {t t' t''} : Uses W t t' → Needs W t' t'' → Uses W t t''

/-- Bools, integers, floats, strings, pointers, slices, arrays, maps and structs; no interfaces, channels, functions. -/
def OrdinaryKind : Ty → Prop
  | .any | .iface _ | .other | .named _ => False
  | _ => True

/-- A type of that kind, possibly declared, without Marshaler or Unmarshaler methods. -/
structure Ordinary (W : World) (t : Ty) : Prop where
  unm : W.unmOf t = none
  mar : W.marOf t = false
  kind : OrdinaryKind (W.resolve t)

/-- reflect.Zero is right: the zero value of a declared type is that of its underlying type, that of a struct consists of
zero values. -/
structure ZeroOk (W : World) : Prop where
  named : ∀ id, W.namedZero id = W.zero (W.named id).under
  struct : ∀ id, W.structZero id = .struct ((W.fields id).map fun f => W.zero f.ty)

/-- strconv gives the float64 back: ParseFloat of its shortest text is the same number. -/
def Reads64 (W : World) (x : UInt64) : Prop :=
  ∀ txt, FmtText64 W x txt → NumberText txt ∧ ∃ y, W.parseF64 txt = some y ∧ SameF64 x y

/-- Reading the shortest text of the float32 as a float64 and converting that gives the same number. -/
def Reads32 (W : World) (x : UInt32) : Prop :=
  ∀ txt, FmtText32 W x txt → NumberText txt ∧ ∃ y, W.parseF64 txt = some y ∧ Fits32 y ∧ SameF32 x (W.toF32 y)

/-- An integer is in the range of its type. -/
def Ranged (W : World) (t : Ty) : GV → Prop
  | .int i => ∀ k, W.resolve t = .int k → InRange k i
  | .uint n => ∀ k, W.resolve t = .uint k → InURange k n
  | _ => True

/-- What is asked of a value of type `t` itself, not of its parts: integers are in range, strconv gives floats back, a slice
fits into memory, the keys of a map are distinct and in range. A pointer must not point to a nil slice or map; those are
written like nil pointers. -/
def Fit (W : World) (h : Heap) (t : Ty) : GV → Prop
  | .f32 x => Reads32 W x
  | .f64 x => Reads64 W x
  | .slice a n => ∀ e, W.resolve t = .slice e → esize W e * (h.elems e a n).length ≤ 2 ^ 48
  | .map a => ∀ k e p, W.resolve t = .map k e → (h.iter k e p a).Pairwise (fun x y => x.1 ≠ y.1) ∧ ∀ x ∈ h.iter k e p a, Ranged W k x.1
  | .ptr a => ∀ e, W.resolve t = .ptr e → (h.deref e a = .sliceNil → e = .slice (.uint .u8)) ∧ h.deref e a ≠ .mapNil
  | v => Ranged W t v

/-- `SameBy W h M t v v'`: the value `v` of type `t` in memory and the value `v'` are the same, where an empty slice counts as
nil, a nil `[]byte` as empty, and a map may be listed in any order it is iterated in. Fields of a struct that `Marshal` does
not write are zero in `v'`. For values of types with an UnmarshalPHP method, `M` says what is the same. -/
inductive SameBy (W : World) (h : Heap) (M : Ty → GV → Val → Prop) : Ty → GV → Val → Prop
  | bool {t b} : W.resolve t = .bool → SameBy W h M t (.bool b) (.bool b)
  | int {t k i} : W.resolve t = .int k → SameBy W h M t (.int i) (.int i)
  | uint {t k n} : W.resolve t = .uint k → SameBy W h M t (.uint n) (.uint n)
  | f32 {t x y} : W.resolve t = .f32 → SameF32 x y → SameBy W h M t (.f32 x) (.f32 y)
  | f64 {t x y} : W.resolve t = .f64 → SameF64 x y → SameBy W h M t (.f64 x) (.f64 y)
  | str {t s} : W.resolve t = .str → SameBy W h M t (.str s) (.str s)
  | bytesNil : SameBy W h M (.slice (.uint .u8)) .sliceNil (.slice [])
  | sliceNil {t e} : W.resolve t = .slice e → t ≠ .slice (.uint .u8) → SameBy W h M t .sliceNil .sliceNil
  | sliceEmpty {t e a n} : W.resolve t = .slice e → t ≠ .slice (.uint .u8) → h.elems e a n = [] → SameBy W h M t (.slice a n) .sliceNil
  | slice {t e a n vs} : W.resolve t = .slice e → (vs = [] → t = .slice (.uint .u8)) → vs.length = (h.elems e a n).length →
      (∀ (i : Nat) (x : GV) (y : Val), (h.elems e a n)[i]? = some x → vs[i]? = some y → SameBy W h M e x y) →
      SameBy W h M t (.slice a n) (.slice vs)
  | arr {t n e xs vs} : W.resolve t = .array n e → vs.length = xs.length →
      (∀ (i : Nat) (x : GV) (y : Val), xs[i]? = some x → vs[i]? = some y → SameBy W h M e x y) → SameBy W h M t (.arr xs) (.arr vs)
  | mapNil {t k e} : W.resolve t = .map k e → SameBy W h M t .mapNil .mapNil
  | map {t k e a p es} : W.resolve t = .map k e → es.length = (h.iter k e p a).length →
      (∀ (i : Nat) (x : GV × GV) (y : Val × Val), (h.iter k e p a)[i]? = some x → es[i]? = some y → SameBy W h M k x.1 y.1) →
      (∀ (i : Nat) (x : GV × GV) (y : Val × Val), (h.iter k e p a)[i]? = some x → es[i]? = some y → SameBy W h M e x.2 y.2) →
      SameBy W h M t (.map a) (.map es)
  | ptrNil {t e} : W.resolve t = .ptr e → SameBy W h M t .ptrNil .ptrNil
  | ptr {t e a v} : W.resolve t = .ptr e → SameBy W h M e (h.deref e a) v → SameBy W h M t (.ptr a) (.ptr v)
  | struct {t id xs vs} : W.resolve t = .struct id → xs.length = (W.fields id).length → vs.length = (W.fields id).length →
      (∀ (i : Nat) (f : Field) (x : GV) (y : Val), (W.fields id)[i]? = some f → xs[i]? = some x → vs[i]? = some y → Shown W f x →
        SameBy W h M f.ty x y) →
      (∀ (i : Nat) (f : Field) (x : GV) (y : Val), (W.fields id)[i]? = some f → xs[i]? = some x → vs[i]? = some y → ¬ Shown W f x →
        y = W.zero f.ty) → SameBy W h M t (.struct xs) (.struct vs)
  | own {t v v'} : W.unmOf t ≠ none → M t v v' → SameBy W h M t v v'

/-- The same value, where no types with methods are involved. -/
abbrev SameVal (W : World) (h : Heap) : Ty → GV → Val → Prop := SameBy W h fun _ _ _ => False

/-- `Levels n d`: the document nests at most `n` levels, where null counts as a level of its own (it may stand for a container). -/
inductive Levels : Nat → Doc → Prop
  | null {n} : Levels (n + 1) .null
  | bool {n b} : Levels n (.bool b)
  | int {n t} : Levels n (.int t)
  | float {n t} : Levels n (.float t)
  | str {n len s} : Levels n (.str len s)
  | arr {n cnt es} : (∀ k v, (k, v) ∈ es → Levels n k) → (∀ k v, (k, v) ∈ es → Levels n v) → Levels (n + 1) (.arr cnt es)
  | obj {n clen cls cnt es} : (∀ k v, (k, v) ∈ es → Levels n k) → (∀ k v, (k, v) ∈ es → Levels n v) →
      Levels (n + 1) (.obj clen cls cnt es)

/-- Bools and integers: a value of type `t` in memory, in range, and the same value as a result. -/
inductive OptValue (W : World) (t : Ty) : GV → Val → Prop
  | bool {b} : Plain W t .bool → OptValue W t (.bool b) (.bool b)
  | int {k i} : Plain W t (.int k) → InRange k i → OptValue W t (.int i) (.int i)
  | uint {k n} : Plain W t (.uint k) → k ≠ .uptr → InURange k n → OptValue W t (.uint n) (.uint n)

/-- What preparing a type for `Unmarshal` makes sure of: no pointers to pointers, no two fields with the same key, the option
`string` only where it can be ignored or on scalars and pointers to scalars, no embedded structs or pointers to structs. -/
structure Prepared (W : World) (t : Ty) : Prop where
  ptr : ∀ e, Plain W t (.ptr e) → W.isPtr e = false
  keys : ∀ id, Plain W t (.struct id) → ∀ (i j : Nat) (f g : Field) (k : Bytes), (W.fields id)[i]? = some f → (W.fields id)[j]? = some g →
    Visible f → Visible g → HasKey W f k → HasKey W g k → i = j
  str : ∀ id, Plain W t (.struct id) → ∀ f ∈ W.fields id, Visible f → HasString W f →
    StringIgnored W f.ty ∨ IsScalar W f.ty ∨ ∃ e, Plain W f.ty (.ptr e) ∧ IsScalar W e
  anon : ∀ id, Plain W t (.struct id) → ∀ f ∈ W.fields id, Visible f → f.anon = true → ∀ id', W.resolve f.ty ≠ .struct id' ∧
    ∀ e, W.resolve f.ty = .ptr e → W.resolve e ≠ .struct id'

/-! ### Types with methods -/

/-- An ordinary type that methods of the types it is made of do not get in the way of: pointers, map keys and fields with the option `string`
have no UnmarshalPHP method where `Marshal` would not call MarshalPHP. -/
structure Simple (W : World) (t : Ty) : Prop extends Ordinary W t where
  ptr : ∀ e, W.resolve t = .ptr e → W.unmOf e = none
  key : ∀ k e, W.resolve t = .map k e → W.unmOf k = none
  str : ∀ id, W.resolve t = .struct id → ∀ f ∈ W.fields id, Visible f → HasString W f → W.unmOf f.ty = none

/-- A declared type with both methods, MarshalPHP having a value receiver. In Go such a type is not a pointer type. -/
structure Both (W : World) (id : Nat) : Prop where
  unm : (W.named id).unm = true
  mar : (W.named id).mar = .value
  ptr : W.isPtr (.named id) = false

/-- Simple types, types with both methods, and pointers to those. -/
inductive WithMethods (W : World) : Ty → Prop
  | simple {t} : Simple W t → WithMethods W t
  | own {id} : Both W id → WithMethods W (.named id)
  | ptr {id} : Both W id → WithMethods W (.ptr (.named id))

/-- `v'`, of type `t'`, is the value `v` itself or lies within it, not inside a value whose type has UnmarshalPHP. -/
inductive Outside (W : World) (h : Heap) : Ty → GV → Ty → GV → Prop
  | refl {t v} : Outside W h t v t v
  | step {t v t' v' t'' v''} : W.unmOf t = none → Part W h t v t' v' → Outside W h t' v' t'' v'' → Outside W h t v t'' v''

/-- The methods of the values in `v` do their work: MarshalPHP returns a well-formed text other than null, UnmarshalPHP makes of this text a value
that counts as the same. MarshalPHP of a pointer is that of the value it points to. -/
structure MethodsOk (W : World) (h : Heap) (M : Ty → GV → Val → Prop) (t : Ty) (v : GV) : Prop where
  own : ∀ id v' raw, Outside W h t v (.named id) v' → Both W id → Marshaled W h (.named id) v' raw →
    ∃ d x, raw = d.text ∧ d ≠ .null ∧ Strict d.depth d ∧ W.unmarshal id raw = .ok x ∧ M (.named id) v' x
  ptr : ∀ id v' raw, Outside W h t v (.ptr (.named id)) v' → Both W id → Marshaled W h (.ptr (.named id)) v' raw →
    ∃ a, v' = .ptr a ∧ Marshaled W h (.named id) (h.deref (.named id) a) raw

end Verif.Spec

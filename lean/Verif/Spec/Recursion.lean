import Verif.Spec.Shown
import Verif.Spec.Values
/-
Specification vocabulary for how the encoder walks through a value: places, the moves from one to the next with the addresses
remembered on the way, and places where an address is met again.
-/
namespace Verif.Spec
open Verif

/-- A place in a value during encoding: how it was reached, the addresses around, the path, type and value. -/
structure Place where
  m : Mode
  st : Stack
  p : Path
  t : Ty
  v : GV

/-- `Visit W h x y`: encoding the value at place `x` leads to the value at place `y` next (one move). -/
inductive Visit (W : World) (h : Heap) : Place → Place → Prop
  -- variables
  | plain {st p t v} : W.marOf t = false → t ≠ .slice (.uint .u8) → W.isPtr t = false → Visit W h ⟨.typed, st, p, t, v⟩ ⟨.kind, st, p, t, v⟩
  | ptrStruct {st p t e a} : W.marOf t = false → W.resolve t = .ptr e → W.isStruct e = true → Fresh st a true →
      Visit W h ⟨.typed, st, p, t, .ptr a⟩ ⟨.kind, (a, true) :: st, p, e, h.deref e a⟩
  | ptrKind {st p t e a} : W.marOf t = false → W.resolve t = .ptr e → directKind W e = true →
      Visit W h ⟨.typed, st, p, t, .ptr a⟩ ⟨.kind, st, p, e, h.deref e a⟩
  | ptrTyped {st p t e a} : W.marOf t = false → W.resolve t = .ptr e → W.isPtr e = false → W.isIface e = false → W.isStruct e = false →
      directKind W e = false → Visit W h ⟨.typed, st, p, t, .ptr a⟩ ⟨.typed, st, p, e, h.deref e a⟩
  | ptrIface {st p t e v} : W.marOf t = false → W.resolve t = .ptr e → W.isIface e = true →
      Visit W h ⟨.typed, st, p, t, v⟩ ⟨.held, st, p, t, v⟩
  -- by kind
  | field {st p t id vs f v} {i : Nat} {str : Bool} : W.resolve t = .struct id → (W.fields id)[i]? = some f → vs[i]? = some v → Shown W f v →
      (str = true ↔ HasString W f) → Visit W h ⟨.kind, st, p, t, .struct vs⟩ ⟨.field str, st, i :: p, f.ty, v⟩
  | array {st p t n e vs v} {i : Nat} : W.resolve t = .array n e → vs[i]? = some v → Visit W h ⟨.kind, st, p, t, .arr vs⟩ ⟨.typed, st, i :: p, e, v⟩
  | slice {st p t e a n v} {i : Nat} : W.resolve t = .slice e → Fresh st a true → (h.elems e a n)[i]? = some v →
      Visit W h ⟨.kind, st, p, t, .slice a n⟩ ⟨.typed, (a, true) :: st, i :: p, e, v⟩
  | map {st p t k e a x y} {i : Nat} : W.resolve t = .map k e → Fresh st a true → (h.iter k e p a)[i]? = some (x, y) →
      Visit W h ⟨.kind, st, p, t, .map a⟩ ⟨.typed, (a, true) :: st, i :: p, e, y⟩
  | iface {st p t v} : W.isIface t = true → Visit W h ⟨.kind, st, p, t, v⟩ ⟨.held, st, p, t, v⟩
  -- held in an interface
  | heldPtr {st p t e a} : W.resolve t = .ptr e → Visit W h ⟨.held, st, p, t, .ptr a⟩ ⟨.held, st, p, e, h.deref e a⟩
  | heldIface {st p t dt v} : W.isIface t = true → Visit W h ⟨.held, st, p, t, .iface dt v⟩ ⟨.held, st, p, dt, v⟩
  | heldConcreteSlice {st p t e v} : W.resolve t = .slice e → W.isIface e = false → Fresh st (addrOf v) false →
      Visit W h ⟨.held, st, p, t, v⟩ ⟨.typed, (addrOf v, false) :: st, p, t, v⟩
  | heldSlice {st p t e a n v} {i : Nat} : W.resolve t = .slice e → W.isIface e = true → Fresh st a false → (h.elems e a n)[i]? = some v →
      Visit W h ⟨.held, st, p, t, .slice a n⟩ ⟨.held, (a, false) :: st, i :: p, e, v⟩
  | heldMap {st p t k e a x y} {i : Nat} : W.resolve t = .map k e → W.isIface e = true → Fresh st a false →
      (h.iter k e p a)[i]? = some (x, y) → Visit W h ⟨.held, st, p, t, .map a⟩ ⟨.held, (a, false) :: st, i :: p, e, y⟩
  | heldConcreteMap {st p t k e a x y} {i : Nat} : W.resolve t = .map k e → W.isIface e = false → Fresh st a false →
      (h.iter k e p a)[i]? = some (x, y) → Visit W h ⟨.held, st, p, t, .map a⟩ ⟨.typed, (a, false) :: st, i :: p, e, y⟩
  | heldStruct {st p t v} : W.isStruct t = true → Visit W h ⟨.held, st, p, t, v⟩ ⟨.typed, st, p, t, v⟩
  -- struct fields
  | fieldPlain {st p t v} : W.isPtr t = false → Visit W h ⟨.field false, st, p, t, v⟩ ⟨.typed, st, p, t, v⟩
  | fieldPtrStruct {st p t e a} : W.resolve t = .ptr e → W.isStruct e = true → Fresh st a true →
      Visit W h ⟨.field false, st, p, t, .ptr a⟩ ⟨.typed, (a, true) :: st, p, e, h.deref e a⟩
  | fieldPtr {st p t e a} : W.resolve t = .ptr e → W.isStruct e = false → Visit W h ⟨.field false, st, p, t, .ptr a⟩ ⟨.typed, st, p, e, h.deref e a⟩

/-- Any number of moves. -/
inductive Visits (W : World) (h : Heap) : Place → Place → Prop
  | refl {x} : Visits W h x x
  | step {x y z} : Visit W h x y → Visits W h y z → Visits W h x z

/-- The value at the place has an address that the recursion checks do not let through. -/
inductive Blocked (W : World) : Place → Prop
  | ptr {st p t e a} : W.resolve t = .ptr e → W.isStruct e = true → ¬ Fresh st a true → Blocked W ⟨.typed, st, p, t, .ptr a⟩
  | field {st p t e a} : W.resolve t = .ptr e → W.isStruct e = true → ¬ Fresh st a true → Blocked W ⟨.field false, st, p, t, .ptr a⟩
  | slice {st p t e a n} : W.resolve t = .slice e → ¬ Fresh st a true → Blocked W ⟨.kind, st, p, t, .slice a n⟩
  | map {st p t k e a} : W.resolve t = .map k e → ¬ Fresh st a true → Blocked W ⟨.kind, st, p, t, .map a⟩
  | heldSlice {st p t e v} : W.resolve t = .slice e → ¬ Fresh st (addrOf v) false → Blocked W ⟨.held, st, p, t, v⟩
  | heldMap {st p t k e v} : W.resolve t = .map k e → ¬ Fresh st (addrOf v) false → Blocked W ⟨.held, st, p, t, v⟩

/-! ### Well-formed values -/

/-- The value has the form of its type. (The ranges of signed integers do not matter here.) -/
inductive Fits (W : World) (h : Heap) : Ty → GV → Prop
  | bool {t b} : W.resolve t = .bool → Fits W h t (.bool b)
  | int {t k i} : W.resolve t = .int k → Fits W h t (.int i)
  | uint {t k n} : W.resolve t = .uint k → InURange k n → Fits W h t (.uint n)
  | f32 {t x} : W.resolve t = .f32 → Fits W h t (.f32 x)
  | f64 {t x} : W.resolve t = .f64 → Fits W h t (.f64 x)
  | str {t s} : W.resolve t = .str → Fits W h t (.str s)
  | sliceNil {t e} : W.resolve t = .slice e → Fits W h t .sliceNil
  | slice {t e a n} : W.resolve t = .slice e → Fits W h t (.slice a n)
  | arr {t n e vs} : W.resolve t = .array n e → vs.length = n → Fits W h t (.arr vs)
  | mapNil {t k e} : W.resolve t = .map k e → Fits W h t .mapNil
  | map {t k e a} : W.resolve t = .map k e → (∀ p x y, (x, y) ∈ h.iter k e p a → Fits W h k x) → Fits W h t (.map a)
  | ptrNil {t e} : W.resolve t = .ptr e → Fits W h t .ptrNil
  | ptr {t e a} : W.resolve t = .ptr e → Fits W h t (.ptr a)
  | struct {t id vs} : W.resolve t = .struct id → vs.length = (W.fields id).length → Fits W h t (.struct vs)
  | ifaceNil {t} : W.isIface t = true → Fits W h t .ifaceNil
  | iface {t dt v} : W.isIface t = true → Fits W h t (.iface dt v)
  | other {t v} : W.resolve t = .other ∨ (∃ id, W.resolve t = .named id) → Fits W h t v

/-- Every value within has the form of its type, as the Go type system guarantees. -/
def WellFormed (W : World) (h : Heap) (t : Ty) (v : GV) : Prop := ∀ t' v', Within W h t v t' v' → Fits W h t' v'

/-- Calls of MarshalPHP that panic in Go before the method is reached: on a nil interface, and with a value receiver on a nil
pointer, which may also be held in an interface. -/
inductive NilCall (W : World) : Ty → GV → Prop
  | iface {t} : NilCall W t .ifaceNil
  | ptr {id} : (W.named id).mar = .value → NilCall W (.ptr (.named id)) .ptrNil
  | held {t id} : (W.named id).mar = .value → NilCall W t (.iface (.ptr (.named id)) .ptrNil)

/-! ### Cycles and addresses, independently of the encoder -/

/-- `v'`, of type `t'`, lies inside `v`: it is a part of it, or a part of a part, and so on. -/
def Inside (W : World) (h : Heap) (t : Ty) (v : GV) (t' : Ty) (v' : GV) : Prop := ∃ t1 v1, Part W h t v t1 v1 ∧ Within W h t1 v1 t' v'

/-- No value lies inside itself. -/
def Acyclic (W : World) (h : Heap) (t : Ty) (v : GV) : Prop := ∀ t' v', Within W h t v t' v' → ¬ Inside W h t' v' t' v'

/-- The address of a slice or map (0 for nil) and that in a pointer to a struct. -/
inductive Located (W : World) : Ty → GV → Nat → Prop
  | slice {t e v} : W.resolve t = .slice e → Located W t v (addrOf v)
  | map {t k e v} : W.resolve t = .map k e → Located W t v (addrOf v)
  | ptr {t e a} : W.resolve t = .ptr e → W.isStruct e = true → Located W t (.ptr a) a

/-- Of two slices, maps or pointers to structs of which one lies inside the other, the addresses are equal only if type and value are
equal. (Not so for a slice with a shorter slice of the same array inside it, a pointer to a struct that contains a pointer to its
own first field, and the like.) -/
def AddressesTell (W : World) (h : Heap) (t : Ty) (v : GV) : Prop :=
  ∀ t1 v1 t2 v2 a, Within W h t v t1 v1 → Inside W h t1 v1 t2 v2 → Located W t1 v1 a → Located W t2 v2 a → t1 = t2 ∧ v1 = v2

/-- Slices, maps and pointers to structs. -/
def Counted (W : World) (t : Ty) : Bool :=
  match W.resolve t with
  | .slice _ | .map _ _ => true
  | .ptr e => W.isStruct e
  | _ => false

/-- `Below W h n t v t' v'`: `v'` lies within `v`, inside `n` slices, maps and pointers to structs. -/
inductive Below (W : World) (h : Heap) : Nat → Ty → GV → Ty → GV → Prop
  | refl {t v} : Below W h 0 t v t v
  | inner {n t v t' v' t'' v''} : Counted W t = true → Part W h t v t' v' → Below W h n t' v' t'' v'' → Below W h (n + 1) t v t'' v''
  | same {n t v t' v' t'' v''} : Counted W t = false → Part W h t v t' v' → Below W h n t' v' t'' v'' → Below W h n t v t'' v''

/-- An interface inside `n` slices, maps and pointers to structs leads, possibly over pointers and further interfaces, to this value. -/
def HeldAt (W : World) (h : Heap) (t : Ty) (v : GV) (n : Nat) (t' : Ty) (v' : GV) : Prop :=
  ∃ ti dt dv, W.isIface ti = true ∧ Below W h n t v ti (.iface dt dv) ∧ Deref W h dt dv (some (t', v'))

/-- Slices of elements that are not interfaces are held in interfaces only inside less than 1000 levels. -/
def ShallowHeld (W : World) (h : Heap) (T : Ty) (V : GV) : Prop :=
  ∀ n t v e, HeldAt W h T V n t v → W.resolve t = .slice e → W.isIface e = false → n < 1000

/-- At most 1000 levels, no slices or maps in interfaces. -/
structure Shallow (W : World) (h : Heap) (T : Ty) (V : GV) : Prop where
  levels : ∀ n t v, Below W h n T V t v → Counted W t = true → n < 1000
  held : ∀ n t v, HeldAt W h T V n t v → (∀ e, W.resolve t ≠ .slice e) ∧ ∀ k e, W.resolve t ≠ .map k e

end Verif.Spec

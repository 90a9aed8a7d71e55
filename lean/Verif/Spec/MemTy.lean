import Verif.Model.Mem
import Verif.Spec.Typing
/-
Well-typed memories: every object has a type, and every reference leads to a place of the right type. Objects may be shared and references may form
cycles.
-/
namespace Verif.Spec
open Verif

/-- What an object is: a variable of a type, or a map. -/
inductive ObjTy where
  | var (t : Ty)
  | map (k v : Ty)
deriving Repr

/-- In a variable of type `t0`, the part at a path has type `t`. Types with the same underlying type count as equal. -/
inductive PartTy (W : World) : Ty → List Nat → Ty → Prop
  | here {t0 t} : W.resolve t0 = W.resolve t → PartTy W t0 [] t
  | elem {t0 n e i p t} : W.resolve t0 = .array n e → i < n → PartTy W e p t → PartTy W t0 (i :: p) t
  | field {t0 id f i p t} : W.resolve t0 = .struct id → (W.fields id)[i]? = some f → PartTy W f.ty p t → PartTy W t0 (i :: p) t

/-- With objects of the types `S`, the place `l` has type `t`. -/
def PlaceTy (W : World) (S : List ObjTy) (l : Loc) (t : Ty) : Prop := ∃ t0, S[l.obj]? = some (.var t0) ∧ PartTy W t0 l.path t

/-- With objects of the types `S`, the value `h` is a valid value of type `t`: as `HasTy`, and references lead to places of the right type. -/
inductive HvTy (W : World) (D : Ty → Prop) (S : List ObjTy) : Ty → HV → Prop
  | bool {t b} : W.resolve t = .bool → HvTy W D S t (.bool b)
  | int {t k i} : W.resolve t = .int k → InRange k i → HvTy W D S t (.int i)
  | uint {t k n} : W.resolve t = .uint k → InURange k n → HvTy W D S t (.uint n)
  | f32 {t x} : W.resolve t = .f32 → HvTy W D S t (.f32 x)
  | f64 {t x} : W.resolve t = .f64 → HvTy W D S t (.f64 x)
  | str {t s} : W.resolve t = .str → HvTy W D S t (.str s)
  | sliceNil {t e} : W.resolve t = .slice e → HvTy W D S t .sliceNil
  | slice {t e o off len} : W.resolve t = .slice e → (∀ i, i < len → PlaceTy W S ⟨o, [off + i]⟩ e) → HvTy W D S t (.slice o off len)
  | arr {t n e hs} : W.resolve t = .array n e → hs.length = n → (∀ h ∈ hs, HvTy W D S e h) → HvTy W D S t (.arr hs)
  | mapNil {t k v} : W.resolve t = .map k v → HvTy W D S t .mapNil
  | map {t k v o} : W.resolve t = .map k v → S[o]? = some (.map k v) → HvTy W D S t (.map o)
  | ptrNil {t e} : W.resolve t = .ptr e → HvTy W D S t .ptrNil
  | ptr {t e o p} : W.resolve t = .ptr e → PlaceTy W S ⟨o, p⟩ e → HvTy W D S t (.ptr o p)
  | struct {t id hs} : W.resolve t = .struct id → hs.length = (W.fields id).length →
      (∀ (i : Nat) (f : Field) (h : HV), (W.fields id)[i]? = some f → hs[i]? = some h → HvTy W D S f.ty h) → HvTy W D S t (.struct hs)
  | anyNil {t} : W.resolve t = .any → HvTy W D S t .ifaceNil
  | any {t dt h} : W.resolve t = .any → D dt → HvTy W D S dt h → HvTy W D S t (.iface dt h)
  | ifaceNil {t i} : W.resolve t = .iface i → HvTy W D S t .ifaceNil
  | iface {t i dt h} : W.resolve t = .iface i → HvTy W D S dt h → HvTy W D S t (.iface dt h)
  | other {t} : W.resolve t = .other → HvTy W D S t .other

/-- An object conforms to its type. -/
inductive CellTy (W : World) (D : Ty → Prop) (S : List ObjTy) : ObjTy → Cell → Prop
  | var {t h} : HvTy W D S t h → CellTy W D S (.var t) (.var h)
  | map {k v es} : (∀ a b, (a, b) ∈ es → HvTy W D S k a ∧ HvTy W D S v b) → CellTy W D S (.map k v) (.map es)

/-- All objects of the memory conform to the types `S`. -/
structure MemTy (W : World) (D : Ty → Prop) (S : List ObjTy) (m : Mem) : Prop where
  length : S.length = m.length
  cells : ∀ (a : Nat) (o : ObjTy) (c : Cell), S[a]? = some o → m[a]? = some c → CellTy W D S o c

/-- Methods keep a well-typed memory well-typed, and give valid values. -/
structure TypedMethods (W : World) (D : Ty → Prop) (U : Methods) : Prop where
  fresh : ∀ S m id s, MemTy W D S m → ∃ S', S <+: S' ∧ MemTy W D S' (U.fresh id s m).1 ∧
    ∀ h, (U.fresh id s m).2 = .ok h → HvTy W D S' (.named id) h
  held : ∀ S m t h s, MemTy W D S m → HvTy W D S t h → ∃ S', S <+: S' ∧ MemTy W D S' (U.held t h s m).1

/-- On new variables, methods on memory have the outcome that the methods on trees have, whatever else is in memory, and their values can be
hashed or not alike. -/
def SameOutcome (W : World) (U : Methods) : Prop :=
  ∀ id s m, match (U.fresh id s m).2, W.unmarshal id s with
    | .ok h, .ok v => h.hashable = v.hashable
    | .err e, .err e' => e = e'
    | .panic p, .panic p' => p = p'
    | .diverge, .diverge => True
    | _, _ => False

end Verif.Spec

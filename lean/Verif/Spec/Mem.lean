import Verif.Model.Mem
/-
When a place in memory holds a tree, what may change when something is decoded into a place, and what is asked of methods and zero values.
-/
namespace Verif.Spec
open Verif

/-- The arrays in `S` are in memory, with the elements given there. -/
def Kept (S : Nat → List HV → Prop) (m : Mem) : Prop := ∀ o hs, S o hs → m[o]? = some (.var (.arr hs))

mutual
/-- In memory `m`, the value `h` looks like the tree `v`, and the objects behind its references are those listed. An object met on two ways is
listed twice. Pointers lead to whole variables. Slices either own their array and show all of it, or show part of an array among those in
`S`, which nobody writes to (such as the copies of earlier inputs, which byte slices are parts of); those are not listed. -/
inductive Owns (m : Mem) (S : Nat → List HV → Prop) : HV → Val → List Nat → Prop
  | bool {b} : Owns m S (.bool b) (.bool b) []
  | int {i} : Owns m S (.int i) (.int i) []
  | uint {n} : Owns m S (.uint n) (.uint n) []
  | f32 {x} : Owns m S (.f32 x) (.f32 x) []
  | f64 {x} : Owns m S (.f64 x) (.f64 x) []
  | str {s} : Owns m S (.str s) (.str s) []
  | sliceNil : Owns m S .sliceNil .sliceNil []
  | slice {o hs vs fp} : m[o]? = some (.var (.arr hs)) → OwnsAll m S hs vs fp → Owns m S (.slice o 0 hs.length) (.slice vs) (o :: fp)
  | shared {o off len hs vs} : S o hs → off + len ≤ hs.length → OwnsAll m S ((hs.drop off).take len) vs [] →
      Owns m S (.slice o off len) (.slice vs) []
  | arr {hs vs fp} : OwnsAll m S hs vs fp → Owns m S (.arr hs) (.arr vs) fp
  | mapNil : Owns m S .mapNil .mapNil []
  | map {o hs es fp} : m[o]? = some (.map hs) → OwnsEntries m S hs es fp → Owns m S (.map o) (.map es) (o :: fp)
  | ptrNil : Owns m S .ptrNil .ptrNil []
  | ptr {o h v fp} : m[o]? = some (.var h) → Owns m S h v fp → Owns m S (.ptr o []) (.ptr v) (o :: fp)
  | struct {hs vs fp} : OwnsAll m S hs vs fp → Owns m S (.struct hs) (.struct vs) fp
  | ifaceNil : Owns m S .ifaceNil .ifaceNil []
  | iface {t h v fp} : Owns m S h v fp → Owns m S (.iface t h) (.iface t v) fp
  | other : Owns m S .other .other []
/-- Element by element. -/
inductive OwnsAll (m : Mem) (S : Nat → List HV → Prop) : List HV → List Val → List Nat → Prop
  | nil : OwnsAll m S [] [] []
  | cons {h v hs vs a b} : Owns m S h v a → OwnsAll m S hs vs b → OwnsAll m S (h :: hs) (v :: vs) (a ++ b)
/-- Entry by entry. -/
inductive OwnsEntries (m : Mem) (S : Nat → List HV → Prop) : List (HV × HV) → List (Val × Val) → List Nat → Prop
  | nil : OwnsEntries m S [] [] []
  | cons {h k g v hs es a b c} : Owns m S h k a → Owns m S g v b → OwnsEntries m S hs es c →
      OwnsEntries m S ((h, g) :: hs) ((k, v) :: es) (a ++ (b ++ c))
end

/-- The place `l` holds the tree `v` made of the objects `fp`: nothing is shared within the tree, the variable that `l` is part of does not
belong to it, and neither do the arrays in `S`. -/
structure Holds (S : Nat → List HV → Prop) (m : Mem) (l : Loc) (v : Val) (fp : List Nat) : Prop where
  value : ∃ h, m.read l = some h ∧ Owns m S h v fp
  unshared : (l.obj :: fp).Nodup
  kept : Kept S m
  apart : ∀ a hs, S a hs → a ∉ l.obj :: fp

/-- From `m` to `m'`, nothing has changed but the place `l` and the objects `fp`; the objects `fp'` are among them or are new. -/
structure OnlyAt (l : Loc) (fp : List Nat) (m m' : Mem) (fp' : List Nat) : Prop where
  grows : m.length ≤ m'.length
  same : ∀ a, a < m.length → a ≠ l.obj → a ∉ fp → m'[a]? = m[a]?
  around : ∀ x, m[l.obj]? = some (.var x) → ∃ h, m'[l.obj]? = some (.var (x.put l.path h))
  parts : ∀ a ∈ fp', a ∈ fp ∨ m.length ≤ a

mutual
/-- No references. -/
def RefFree : Val → Prop
  | .slice _ | .map _ | .ptr _ | .iface _ _ | .win _ _ _ => False
  | .arr vs => RefFreeAll vs
  | .struct vs => RefFreeAll vs
  | _ => True
/-- In no element. -/
def RefFreeAll : List Val → Prop
  | [] => True
  | v :: vs => RefFree v ∧ RefFreeAll vs
end

/-- Zero values are without references, and the zero value of a declared pointer type is nil. -/
structure FlatZeros (W : World) : Prop where
  struct : ∀ id, RefFree (W.structZero id)
  named : ∀ id, RefFree (W.namedZero id)
  ptr : ∀ id e, (W.named id).under = .ptr e → W.namedZero id = .ptrNil

/-- The methods `U` on memory do what the methods of `W` do on trees: on a new variable they give a value made of new objects, and on a
held value they change only the objects that it is made of. -/
structure Agrees (W : World) (U : Methods) : Prop where
  fresh : ∀ (S : Nat → List HV → Prop) id s m, Kept S m →
    m.length ≤ (U.fresh id s m).1.length ∧ (∀ a, a < m.length → (U.fresh id s m).1[a]? = m[a]?) ∧
    match (U.fresh id s m).2, W.unmarshal id s with
    | .ok h, .ok v => ∃ fp, Owns (U.fresh id s m).1 S h v fp ∧ fp.Nodup ∧ ∀ a ∈ fp, m.length ≤ a
    | .err e, .err e' => e = e'
    | .panic p, .panic p' => p = p'
    | .diverge, .diverge => True
    | _, _ => False
  held : ∀ (S : Nat → List HV → Prop) t h v fp s m, Owns m S h v fp → fp.Nodup → Kept S m → (∀ a hs, S a hs → a ∉ fp) →
    (U.held t h s m).2 = (W.unmarshalDyn t v s).2 ∧ m.length ≤ (U.held t h s m).1.length ∧
    (∀ a, a < m.length → a ∉ fp → (U.held t h s m).1[a]? = m[a]?) ∧
    ∃ fp', Owns (U.held t h s m).1 S h (W.unmarshalDyn t v s).1 fp' ∧ fp'.Nodup ∧ ∀ a ∈ fp', a ∈ fp ∨ m.length ≤ a

end Verif.Spec

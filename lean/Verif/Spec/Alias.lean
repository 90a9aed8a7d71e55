import Verif.Model.Alias
/-
Vocabulary for sharing of memory: what a value looks like, which parts of memory it refers to, and what writing does.
-/
namespace Verif.Spec

/-- A part of memory: array, position, length. -/
structure Win where
  obj : Nat
  off : Nat
  len : Nat
deriving DecidableEq

/-- No byte in common, nor are the two next to each other. -/
def Win.Apart (a b : Win) : Prop := a.obj ≠ b.obj ∨ a.off + a.len < b.off ∨ b.off + b.len < a.off

mutual
/-- The value as the program sees it: the contents of byte slices are read from memory. -/
def view (m : Arrays) : Val → Val
  | .win o a n => bytesVal (m.read o a n)
  | .slice vs => .slice (viewList m vs)
  | .arr vs => .arr (viewList m vs)
  | .struct vs => .struct (viewList m vs)
  | .map es => .map (viewEntries m es)
  | .ptr v => .ptr (view m v)
  | .iface t v => .iface t (view m v)
  | v => v
/-- `view` of every element. -/
def viewList (m : Arrays) : List Val → List Val
  | [] => []
  | v :: vs => view m v :: viewList m vs
/-- `view` of every key and value. -/
def viewEntries (m : Arrays) : List (Val × Val) → List (Val × Val)
  | [] => []
  | (k, v) :: es => (view m k, view m v) :: viewEntries m es
end

mutual
/-- The parts of memory a value refers to, as often as it does. -/
def wins : Val → List Win
  | .win o a n => [⟨o, a, n⟩]
  | .slice vs => winsList vs
  | .arr vs => winsList vs
  | .struct vs => winsList vs
  | .map es => winsEntries es
  | .ptr v => wins v
  | .iface _ v => wins v
  | _ => []
/-- Those of a list of values. -/
def winsList : List Val → List Win
  | [] => []
  | v :: vs => wins v ++ winsList vs
/-- Those of map entries. -/
def winsEntries : List (Val × Val) → List Win
  | [] => []
  | (k, v) :: es => wins k ++ wins v ++ winsEntries es
end

mutual
/-- Interfaces hold no decoded byte slices. -/
def HeldFree : Val → Prop
  | .slice vs => HeldFreeList vs
  | .arr vs => HeldFreeList vs
  | .struct vs => HeldFreeList vs
  | .map es => HeldFreeEntries es
  | .ptr v => HeldFree v
  | .iface _ v => wins v = []
  | _ => True
/-- The same for a list. -/
def HeldFreeList : List Val → Prop
  | [] => True
  | v :: vs => HeldFree v ∧ HeldFreeList vs
/-- The same for map entries. -/
def HeldFreeEntries : List (Val × Val) → Prop
  | [] => True
  | (k, v) :: es => HeldFree k ∧ HeldFree v ∧ HeldFreeEntries es
end

/-- What UnmarshalPHP methods keep of their argument: in values that they are called on, parts of it that do not touch; in interfaces, nothing. Read from memory,
what is stored is the value of `unmarshal`. Zero values refer to no memory. -/
structure Keeping (W : World) : Prop where
  zero : ∀ t, wins (W.zero t) = []
  unmarshal : ∀ id s v, W.unmarshal id s = .ok v → wins v = []
  same : ∀ id s v, W.unmarshal id s = .ok v → ∀ m obj off, m.read obj off s.length = s → view m (W.kept id obj off s v) = v
  held : ∀ id s v, W.unmarshal id s = .ok v → ∀ obj off, HeldFree (W.kept id obj off s v)
  apart : ∀ id s v, W.unmarshal id s = .ok v → ∀ obj off, (wins (W.kept id obj off s v)).Pairwise Win.Apart
  inside : ∀ id s v, W.unmarshal id s = .ok v → ∀ obj off, ∀ w ∈ wins (W.kept id obj off s v), w.obj = obj ∧ off ≤ w.off ∧ w.off + w.len ≤ off + s.length
  unmarshalDyn : ∀ t v s, wins v = [] → wins (W.unmarshalDyn t v s).1 = []

/-- The byte slices in `v` lie in memory, and no two of them are in the same place. -/
def Separate (m : Arrays) (v : Val) : Prop :=
  (wins v).Pairwise Win.Apart ∧ ∀ w ∈ wins v, w.obj < m.length ∧ w.off + w.len ≤ (m.getD w.obj []).length

/-- `bs` is written to array `o` from position `a` on. -/
def write (m : Arrays) (o a : Nat) (bs : Bytes) : Arrays :=
  m.set o ((m.getD o []).take a ++ bs ++ (m.getD o []).drop (a + bs.length))

/-- `append(s, bs...)` for the `n` bytes `s` at position `a` of array `o` (Go specification, "Appending to and copying slices"): within the
capacity, which is the rest of the array, `bs` is written behind `s`; otherwise a new array is made (any spare room of it left out). -/
def appendTo (m : Arrays) (o a n : Nat) (bs : Bytes) : Arrays × Val :=
  if a + n + bs.length ≤ (m.getD o []).length then (write m o (a + n) bs, .win o a (n + bs.length))
  else (m ++ [m.read o a n ++ bs], .win m.length 0 (n + bs.length))

/-- `Swap x y v v'`: `v'` is `v` with one occurrence of `x` replaced by `y`. -/
inductive Swap (x y : Val) : Val → Val → Prop
  | here : Swap x y x y
  | slice {vs v v'} {i : Nat} : vs[i]? = some v → Swap x y v v' → Swap x y (.slice vs) (.slice (vs.set i v'))
  | arr {vs v v'} {i : Nat} : vs[i]? = some v → Swap x y v v' → Swap x y (.arr vs) (.arr (vs.set i v'))
  | struct {vs v v'} {i : Nat} : vs[i]? = some v → Swap x y v v' → Swap x y (.struct vs) (.struct (vs.set i v'))
  | map {es k v v'} {i : Nat} : es[i]? = some (k, v) → Swap x y v v' → Swap x y (.map es) (.map (es.set i (k, v')))
  | ptr {v v'} : Swap x y v v' → Swap x y (.ptr v) (.ptr v')
  | iface {t v v'} : Swap x y v v' → Swap x y (.iface t v) (.iface t v')

end Verif.Spec

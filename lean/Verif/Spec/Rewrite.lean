import Verif.Spec.Order
import Verif.Spec.Position
import Verif.Spec.Used
import Verif.Spec.Values
import Verif.Spec.Float
/-
Specification of writing the same value from two memories, and of writing again what was read.
-/
namespace Verif.Spec
open Verif

/-- `SameIn W h h' t v v'`: the value `v` of type `t` in the memory `h` and the value `v'` of that type in the memory `h'` are the same to a
reader who cannot see addresses, cannot tell NaNs apart, does not look at fields that are not written, and takes a nil `[]byte` for
an empty one. Maps hold the same entries, in whatever order they are listed. -/
inductive SameIn (W : World) (h h' : Heap) : Ty → GV → GV → Prop
  | bool {t b} : SameIn W h h' t (.bool b) (.bool b)
  | int {t i} : SameIn W h h' t (.int i) (.int i)
  | uint {t n} : SameIn W h h' t (.uint n) (.uint n)
  | f32 {t x y} : SameF32 x y → SameIn W h h' t (.f32 x) (.f32 y)
  | f64 {t x y} : SameF64 x y → SameIn W h h' t (.f64 x) (.f64 y)
  | str {t s} : SameIn W h h' t (.str s) (.str s)
  | sliceNil {t} : SameIn W h h' t .sliceNil .sliceNil
  | bytesNil {a n} : h'.elems (.uint .u8) a n = [] → SameIn W h h' (.slice (.uint .u8)) .sliceNil (.slice a n)
  | bytesEmpty {a n} : h.elems (.uint .u8) a n = [] → SameIn W h h' (.slice (.uint .u8)) (.slice a n) .sliceNil
  | slice {t e a n a' n'} : W.resolve t = .slice e → (h.elems e a n).length = (h'.elems e a' n').length →
      (∀ (i : Nat) (x y : GV), (h.elems e a n)[i]? = some x → (h'.elems e a' n')[i]? = some y → SameIn W h h' e x y) →
      SameIn W h h' t (.slice a n) (.slice a' n')
  | arr {t n e xs ys} : W.resolve t = .array n e → xs.length = ys.length →
      (∀ (i : Nat) (x y : GV), xs[i]? = some x → ys[i]? = some y → SameIn W h h' e x y) → SameIn W h h' t (.arr xs) (.arr ys)
  | mapNil {t} : SameIn W h h' t .mapNil .mapNil
  | map {t k e a a'} (ord : Path → Path → List (GV × GV)) : W.resolve t = .map k e →
      (∀ p p', (h.iter k e p a).Perm (ord p p')) → (∀ p p', (ord p p').length = (h'.iter k e p' a').length) →
      (∀ p p' (i : Nat) (x y : GV × GV), (ord p p')[i]? = some x → (h'.iter k e p' a')[i]? = some y → KeyKind W k → x.1 = y.1) →
      (∀ p p' (i : Nat) (x y : GV × GV), (ord p p')[i]? = some x → (h'.iter k e p' a')[i]? = some y → SameIn W h h' e x.2 y.2) →
      SameIn W h h' t (.map a) (.map a')
  | ptrNil {t} : SameIn W h h' t .ptrNil .ptrNil
  | ptr {t e a a'} : W.resolve t = .ptr e → SameIn W h h' e (h.deref e a) (h'.deref e a') → SameIn W h h' t (.ptr a) (.ptr a')
  | struct {t id xs ys} : W.resolve t = .struct id → xs.length = ys.length →
      (∀ (i : Nat) (f : Field) (x y : GV), (W.fields id)[i]? = some f → xs[i]? = some x → ys[i]? = some y → (Shown W f x ↔ Shown W f y)) →
      (∀ (i : Nat) (f : Field) (x y : GV), (W.fields id)[i]? = some f → xs[i]? = some x → ys[i]? = some y → Shown W f x →
        SameIn W h h' f.ty x y) → SameIn W h h' t (.struct xs) (.struct ys)
  | ifaceNil {t} : SameIn W h h' t .ifaceNil .ifaceNil
  | iface {t dt v v'} : SameIn W h h' dt v v' → SameIn W h h' t (.iface dt v) (.iface dt v')

/-- The methods MarshalPHP of what is in the value `v` return the same text for the same value in the memory `h'`. -/
def MethodsAgree (W : World) (h h' : Heap) (t : Ty) (v : GV) : Prop :=
  ∀ t' w w' raw, Within W h t v t' w → W.marOf t' = true → SameIn W h h' t' w w' → Marshaled W h t' w raw → Marshaled W h' t' w' raw

/-- strconv writes all NaNs alike. -/
structure NaNsAlike (W : World) : Prop where
  f64 : ∀ e x y, NaN64 x → NaN64 y → W.fmtF64 e x = W.fmtF64 e y
  f32 : ∀ e x y, NaN32 x → NaN32 y → W.fmtF32 e x = W.fmtF32 e y

/-- The same text, where entries of arrays may stand in different orders; that only if `Q`. -/
inductive Shuffled (Q : Prop) : Bytes → Bytes → Prop
  | refl {s} : Shuffled Q s s
  | entries {es es'} : es.length = es'.length →
      (∀ (i : Nat) (x y : Doc × Bytes), es[i]? = some x → es'[i]? = some y → x.1 = y.1) →
      (∀ (i : Nat) (x y : Doc × Bytes), es[i]? = some x → es'[i]? = some y → Shuffled Q x.2 y.2) →
      Shuffled Q (listText es) (listText es')
  | perm {es es' s} : Q → es.Perm es' → Shuffled Q (listText es') s → Shuffled Q (listText es) s

/-! ### Writing again what was read -/

/-- `KeptAs W h t v x`: the variable `v` of type `t` in the memory `h` holds what `Unmarshal` gave as `x`. -/
inductive KeptAs (W : World) (h : Heap) : Ty → GV → Val → Prop
  | bool {t b} : W.resolve t = .bool → KeptAs W h t (.bool b) (.bool b)
  | int {t k i} : W.resolve t = .int k → KeptAs W h t (.int i) (.int i)
  | uint {t k n} : W.resolve t = .uint k → KeptAs W h t (.uint n) (.uint n)
  | f32 {t x} : W.resolve t = .f32 → KeptAs W h t (.f32 x) (.f32 x)
  | f64 {t x} : W.resolve t = .f64 → KeptAs W h t (.f64 x) (.f64 x)
  | str {t s} : W.resolve t = .str → KeptAs W h t (.str s) (.str s)
  | sliceNil {t e} : W.resolve t = .slice e → KeptAs W h t .sliceNil .sliceNil
  | slice {t e a n xs} : W.resolve t = .slice e → (h.elems e a n).length = xs.length →
      (∀ (i : Nat) (v : GV) (x : Val), (h.elems e a n)[i]? = some v → xs[i]? = some x → KeptAs W h e v x) →
      KeptAs W h t (.slice a n) (.slice xs)
  | arr {t n e vs xs} : W.resolve t = .array n e → vs.length = xs.length →
      (∀ (i : Nat) (v : GV) (x : Val), vs[i]? = some v → xs[i]? = some x → KeptAs W h e v x) → KeptAs W h t (.arr vs) (.arr xs)
  | mapNil {t k e} : W.resolve t = .map k e → KeptAs W h t .mapNil .mapNil
  | map {t k e a es} (ord : Path → List (Val × Val)) : W.resolve t = .map k e → (∀ p, es.Perm (ord p)) →
      (∀ p, (h.iter k e p a).length = (ord p).length) →
      (∀ p (i : Nat) (v : GV × GV) (x : Val × Val), (h.iter k e p a)[i]? = some v → (ord p)[i]? = some x → KeptAs W h k v.1 x.1) →
      (∀ p (i : Nat) (v : GV × GV) (x : Val × Val), (h.iter k e p a)[i]? = some v → (ord p)[i]? = some x → KeptAs W h e v.2 x.2) →
      KeptAs W h t (.map a) (.map es)
  | ptrNil {t e} : W.resolve t = .ptr e → KeptAs W h t .ptrNil .ptrNil
  | ptr {t e a x} : W.resolve t = .ptr e → KeptAs W h e (h.deref e a) x → KeptAs W h t (.ptr a) (.ptr x)
  | struct {t id vs xs} : W.resolve t = .struct id → vs.length = xs.length → xs.length = (W.fields id).length →
      (∀ (i : Nat) (f : Field) (v : GV) (x : Val), (W.fields id)[i]? = some f → vs[i]? = some v → xs[i]? = some x →
        KeptAs W h f.ty v x) → KeptAs W h t (.struct vs) (.struct xs)

/-- The value is not zero, and that can be seen from what is written of it: some scalar, slice, map or pointer in it that is
written is not zero. -/
inductive Telling (W : World) : Ty → GV → Prop
  | simple {t v} : (∀ vs, v ≠ .arr vs) → (∀ vs, v ≠ .struct vs) → ¬ ZeroGV v → Telling W t v
  | arr {t n e vs v} {i : Nat} : W.resolve t = .array n e → vs[i]? = some v → Telling W e v → Telling W t (.arr vs)
  | struct {t id vs f v} {i : Nat} : W.resolve t = .struct id → (W.fields id)[i]? = some f → vs[i]? = some v → Shown W f v →
      Telling W f.ty v → Telling W t (.struct vs)

/-- What is asked of a value of type `t` itself, not of its parts: a slice other than a `[]byte` is nil or not empty, and of a written
field with the option omitempty it is written that it is not zero. -/
def Robust (W : World) (h : Heap) (t : Ty) : GV → Prop
  | .slice a n => ∀ e, W.resolve t = .slice e → t ≠ .slice (.uint .u8) → h.elems e a n ≠ []
  | .struct vs => ∀ id (i : Nat) (f : Field) (v : GV), W.resolve t = .struct id → (W.fields id)[i]? = some f → vs[i]? = some v → Shown W f v →
      HasOmitempty W f → Telling W f.ty v
  | _ => True

end Verif.Spec

import Verif.Spec.Shown
/-
Specification of places inside a value and inside its text.
-/
namespace Verif.Spec
open Verif

/-- Text of a PHP array with the given keys (documents) and values (texts). -/
def listText (es : List (Doc × Bytes)) : Bytes :=
  [97, 58] ++ natText es.length ++ [58, 123] ++ (es.flatMap fun e => e.1.text ++ e.2) ++ [125]

/-- `Slot W h t v tx t' v' tx'`: in the text `tx` of the value `v` the bytes `tx'` are at the place of its direct part `v'`. The
text of a pointer or interface is that of what it leads to; the text of a container has one entry per part. -/
inductive Slot (W : World) (h : Heap) : Ty → GV → Bytes → Ty → GV → Bytes → Prop
  | ptr {t e a tx} : W.resolve t = .ptr e → Slot W h t (.ptr a) tx e (h.deref e a) tx
  | iface {t dt v tx} : W.isIface t = true → Slot W h t (.iface dt v) tx dt v tx
  | slice {t e a n v es tx} {i : Nat} : W.resolve t = .slice e → (h.elems e a n)[i]? = some v → es.length = (h.elems e a n).length →
      es[i]? = some (idxDoc i, tx) → Slot W h t (.slice a n) (listText es) e v tx
  | array {t e n vs v es tx} {i : Nat} : W.resolve t = .array n e → vs[i]? = some v → es.length = vs.length →
      es[i]? = some (idxDoc i, tx) → Slot W h t (.arr vs) (listText es) e v tx
  | map {t k e p a x y es kd tx} {i : Nat} : W.resolve t = .map k e → (h.iter k e p a)[i]? = some (x, y) →
      es.length = (h.iter k e p a).length → KeyDoc W k x kd → es[i]? = some (kd, tx) → Slot W h t (.map a) (listText es) e y tx
  | field {t id vs f v es key tx} {i : Nat} : W.resolve t = .struct id → (W.fields id)[i]? = some f → vs[i]? = some v → Shown W f v →
      HasKey W f key → (strDoc key, tx) ∈ es → Slot W h t (.struct vs) (listText es) f.ty v tx

/-- `Slot`, any number of levels deep. -/
inductive Slots (W : World) (h : Heap) : Ty → GV → Bytes → Ty → GV → Bytes → Prop
  | refl {t v tx} : Slots W h t v tx t v tx
  | step {t v tx t' v' tx' t'' v'' tx''} : Slot W h t v tx t' v' tx' → Slots W h t' v' tx' t'' v'' tx'' → Slots W h t v tx t'' v'' tx''

/-- A value met in mode `m` is written by its parts: no method MarshalPHP and not as a byte string. -/
def Open (W : World) (m : Mode) (t : Ty) : Prop :=
  m ≠ .field true ∧ (m = .kind ∨ (W.marOf t = false ∧ t ≠ .slice (.uint .u8)))

/-- `Step W h m p t v m' p' t' v'`: the value `v` of type `t`, met in mode `m` at path `p`, has `v'` as a direct part, met in mode
`m'` at path `p'`. -/
inductive Step (W : World) (h : Heap) : Mode → Path → Ty → GV → Mode → Path → Ty → GV → Prop
  -- elements, entries and fields
  | slice {m p t e a n v} {i : Nat} : Open W m t → W.resolve t = .slice e → (m = .held → W.isIface e = false) →
      (h.elems e a n)[i]? = some v → Step W h m p t (.slice a n) .typed (i :: p) e v
  | sliceHeld {p t e a n v} {i : Nat} : W.resolve t = .slice e → W.isIface e = true → (h.elems e a n)[i]? = some v →
      Step W h .held p t (.slice a n) .held (i :: p) e v
  | array {m p t n e vs v} {i : Nat} : Open W m t → m ≠ .held → W.resolve t = .array n e → vs[i]? = some v →
      Step W h m p t (.arr vs) .typed (i :: p) e v
  | map {m p t k e a x y} {i : Nat} : m = .held ∨ Open W m t → W.resolve t = .map k e → (m = .held → W.isIface e = false) →
      (h.iter k e p a)[i]? = some (x, y) → Step W h m p t (.map a) .typed (i :: p) e y
  | mapHeld {p t k e a x y} {i : Nat} : W.resolve t = .map k e → W.isIface e = true → (h.iter k e p a)[i]? = some (x, y) →
      Step W h .held p t (.map a) .held (i :: p) e y
  | field {m p t id vs f v} {i : Nat} {str : Bool} : Open W m t → W.resolve t = .struct id → (W.fields id)[i]? = some f → vs[i]? = some v →
      Shown W f v → (str = true ↔ HasString W f) → Step W h m p t (.struct vs) (.field str) (i :: p) f.ty v
  -- pointers
  | ptrKind {p t e a} : W.marOf t = false → W.resolve t = .ptr e → W.isStruct e = true ∨ directKind W e = true →
      Step W h .typed p t (.ptr a) .kind p e (h.deref e a)
  | ptrTyped {p t e a} : W.marOf t = false → W.resolve t = .ptr e → W.isStruct e = false → directKind W e = false → W.isIface e = false →
      Step W h .typed p t (.ptr a) .typed p e (h.deref e a)
  | ptrIface {p t e a} : W.marOf t = false → W.resolve t = .ptr e → W.isIface e = true → Step W h .typed p t (.ptr a) .held p e (h.deref e a)
  | ptrField {p t e a} : W.resolve t = .ptr e → Step W h (.field false) p t (.ptr a) .typed p e (h.deref e a)
  | ptrHeld {p t e a} : W.resolve t = .ptr e → Step W h .held p t (.ptr a) .held p e (h.deref e a)
  -- interfaces
  | iface {m p t dt v} : m = .held ∨ Open W m t → W.isIface t = true → Step W h m p t (.iface dt v) .held p dt v

/-- `Step`, any number of levels deep. -/
inductive Steps (W : World) (h : Heap) : Mode → Path → Ty → GV → Mode → Path → Ty → GV → Prop
  | refl {m p t v} : Steps W h m p t v m p t v
  | step {m p t v m' p' t' v' m'' p'' t'' v''} : Step W h m p t v m' p' t' v' → Steps W h m' p' t' v' m'' p'' t'' v'' →
      Steps W h m p t v m'' p'' t'' v''

/-- The places where the code looks for a MarshalPHP method: variables (top level, elements of slices and arrays, map values, what
fields of pointer type and pointers to slices and arrays point to), fields of other than pointer types without the
`string` option, and in interfaces structs and slices of elements that are not interfaces. -/
def Honours (W : World) (m : Mode) (t : Ty) : Prop :=
  m = .typed ∨ (m = .field false ∧ W.isPtr t = false) ∨
  (m = .held ∧ (W.isStruct t = true ∨ ∃ e, W.resolve t = .slice e ∧ W.isIface e = false))

/-- Nil pointers, slices other than `[]byte`, maps and interfaces. -/
inductive NilValue (W : World) : Ty → GV → Prop
  | ptr {t e} : W.resolve t = .ptr e → NilValue W t .ptrNil
  | slice {t e} : W.resolve t = .slice e → t ≠ .slice (.uint .u8) → NilValue W t .sliceNil
  | map {t k e} : W.resolve t = .map k e → NilValue W t .mapNil
  | iface {t} : W.isIface t = true → NilValue W t .ifaceNil

end Verif.Spec

import Verif.Spec.Decode
import Verif.Model.Encode
/-
Specification of encoding: which text stands for a Go value. Written on values in memory, without buffers and contexts,
using only the vocabulary of Go types, values and memory (`Ty`, `GV`, `Heap`) and of PHP documents (`Doc`).
-/
namespace Verif.Spec
open Verif

/-! ### Scalars -/

/-- A float64 that is not a number. -/
def NaN64 (x : UInt64) : Prop := 0x7FF0000000000000 < x &&& 0x7FFFFFFFFFFFFFFF

/-- A float32 that is not a number. -/
def NaN32 (x : UInt32) : Prop := 0x7F800000 < x &&& 0x7FFFFFFF

/-- Numbers (not NaN) written with an exponent: not zero, and smaller than 1e-6 or at least 1e21. -/
def Sci64 (x : UInt64) : Prop :=
  ¬ NaN64 x ∧ x &&& 0x7FFFFFFFFFFFFFFF ≠ 0 ∧
  (x &&& 0x7FFFFFFFFFFFFFFF < 0x3EB0C6F7A0B5ED8D ∨ 0x444B1AE4D6E2EF50 ≤ x &&& 0x7FFFFFFFFFFFFFFF)

/-- The same for float32. -/
def Sci32 (x : UInt32) : Prop :=
  ¬ NaN32 x ∧ x &&& 0x7FFFFFFF ≠ 0 ∧ (x &&& 0x7FFFFFFF < 0x358637BD ∨ 0x6258D727 ≤ x &&& 0x7FFFFFFF)

/-- strconv's shortest text of a float64. -/
def FmtText64 (W : World) (x : UInt64) (txt : Bytes) : Prop :=
  (Sci64 x ∧ txt = W.fmtF64 true x) ∨ (¬ Sci64 x ∧ txt = W.fmtF64 false x)

/-- strconv's shortest text of a float32. -/
def FmtText32 (W : World) (x : UInt32) (txt : Bytes) : Prop :=
  (Sci32 x ∧ txt = W.fmtF32 true x) ∨ (¬ Sci32 x ∧ txt = W.fmtF32 false x)

/-- The text of a float64 between `d:` and `;`. -/
inductive FloatOut64 (W : World) : UInt64 → Bytes → Prop
  | nan {x} : NaN64 x → FloatOut64 W x [78, 65, 78]
  | inf : FloatOut64 W 0x7FF0000000000000 [73, 78, 70]
  | negInf : FloatOut64 W 0xFFF0000000000000 [45, 73, 78, 70]
  | finite {x txt} : ¬ NaN64 x → x ≠ 0x7FF0000000000000 → x ≠ 0xFFF0000000000000 → FmtText64 W x txt → FloatOut64 W x txt

/-- The text of a float32 between `d:` and `;`. -/
inductive FloatOut32 (W : World) : UInt32 → Bytes → Prop
  | nan {x} : NaN32 x → FloatOut32 W x [78, 65, 78]
  | inf : FloatOut32 W 0x7F800000 [73, 78, 70]
  | negInf : FloatOut32 W 0xFF800000 [45, 73, 78, 70]
  | finite {x txt} : ¬ NaN32 x → x ≠ 0x7F800000 → x ≠ 0xFF800000 → FmtText32 W x txt → FloatOut32 W x txt

/-- The document of a string. -/
def strDoc (s : Bytes) : Doc := .str (natText s.length) s

/-- Scalars of type `t` and their documents. -/
inductive ScalarDoc (W : World) : Ty → GV → Doc → Prop
  | bool {t b} : W.resolve t = .bool → ScalarDoc W t (.bool b) (.bool b)
  | int {t k i} : W.resolve t = .int k → ScalarDoc W t (.int i) (.int (intText i))
  | uint {t k n} : W.resolve t = .uint k → k ≠ .uptr → ScalarDoc W t (.uint n) (.int (natText n))
  | f32 {t x txt} : W.resolve t = .f32 → FloatOut32 W x txt → ScalarDoc W t (.f32 x) (.float txt)
  | f64 {t x txt} : W.resolve t = .f64 → FloatOut64 W x txt → ScalarDoc W t (.f64 x) (.float txt)
  | str {t s} : W.resolve t = .str → ScalarDoc W t (.str s) (strDoc s)

/-- The types of map keys that can be written: strings and integers, but no uintptr. -/
inductive KeyKind (W : World) (t : Ty) : Prop
  | int (k : IKind) : W.resolve t = .int k → KeyKind W t
  | uint (k : UKind) : W.resolve t = .uint k → k ≠ .uptr → KeyKind W t
  | str : W.resolve t = .str → KeyKind W t

/-- Scalars as map keys: strings and integers. -/
inductive KeyDoc (W : World) : Ty → GV → Doc → Prop
  | int {t k i} : W.resolve t = .int k → KeyDoc W t (.int i) (.int (intText i))
  | uint {t k n} : W.resolve t = .uint k → k ≠ .uptr → KeyDoc W t (.uint n) (.int (natText n))
  | str {t s} : W.resolve t = .str → KeyDoc W t (.str s) (strDoc s)

/-- The values a value of type `t` leads to by following pointers and interfaces: `none` if the end is a nil. -/
inductive Deref (W : World) (h : Heap) : Ty → GV → Option (Ty × GV) → Prop
  | ptrNil {t e} : W.resolve t = .ptr e → Deref W h t .ptrNil none
  | ptr {t e a o} : W.resolve t = .ptr e → Deref W h e (h.deref e a) o → Deref W h t (.ptr a) o
  | ifaceNil {t} : W.isIface t = true → Deref W h t .ifaceNil none
  | iface {t dt v o} : W.isIface t = true → Deref W h dt v o → Deref W h t (.iface dt v) o
  | done {t v} : W.isPtr t = false → W.isIface t = false → Deref W h t v (some (t, v))

/-- Values of predeclared types as text. -/
inductive BasicText (W : World) : Ty → GV → Bytes → Prop
  | true : BasicText W .bool (.bool true) [116, 114, 117, 101]
  | false : BasicText W .bool (.bool false) [102, 97, 108, 115, 101]
  | int {k i} : BasicText W (.int k) (.int i) (intText i)
  | uint {k n} : k ≠ .uptr → BasicText W (.uint k) (.uint n) (natText n)
  | f32 {x txt} : FmtText32 W x txt → BasicText W .f32 (.f32 x) txt
  | f64 {x txt} : FmtText64 W x txt → BasicText W .f64 (.f64 x) txt

/-- Values of fields with the `string` option. -/
inductive StrFieldDoc (W : World) (h : Heap) : Ty → GV → Doc → Prop
  | str {t s} : W.resolve t = .str → StrFieldDoc W h t (.str s) (strDoc s)
  | basic {t v txt} : BasicText W (W.resolve t) v txt → StrFieldDoc W h t v (strDoc txt)
  | ifaceNil {t v} : W.isIface t = true → Deref W h t v none → StrFieldDoc W h t v .null
  | iface {t v t' v' txt} : W.isIface t = true → Deref W h t v (some (t', v')) → BasicText W t' v' txt →
      StrFieldDoc W h t v (strDoc txt)

/-! ### Structs -/

/-- The zero value of a type, in memory. Both zeros of a float count. -/
inductive ZeroGV : GV → Prop
  | bool : ZeroGV (.bool false)
  | int : ZeroGV (.int 0)
  | uint : ZeroGV (.uint 0)
  | f32 {x} : x &&& 0x7FFFFFFF = 0 → ZeroGV (.f32 x)
  | f64 {x} : x &&& 0x7FFFFFFFFFFFFFFF = 0 → ZeroGV (.f64 x)
  | str : ZeroGV (.str [])
  | sliceNil : ZeroGV .sliceNil
  | arr {vs} : (∀ v ∈ vs, ZeroGV v) → ZeroGV (.arr vs)
  | mapNil : ZeroGV .mapNil
  | ptrNil : ZeroGV .ptrNil
  | struct {vs} : (∀ v ∈ vs, ZeroGV v) → ZeroGV (.struct vs)
  | ifaceNil : ZeroGV .ifaceNil

/-- A field that is written: its position, key, `string` option, type and value. -/
structure WField where
  idx : Nat
  key : Bytes
  str : Bool
  ty : Ty
  val : GV

/-- The fields of a struct that are written, in declaration order: exported, key other than `-`, and not a zero value
with the option `omitempty`. The number is the position of the first field of the lists. -/
inductive Written (W : World) : Nat → List Field → List GV → List WField → Prop
  | nil {i} : Written W i [] [] []
  | hidden {i f fs v vs ws} : f.exported = false ∨ HasKey W f [45] → Written W (i + 1) fs vs ws → Written W i (f :: fs) (v :: vs) ws
  | omitted {i f fs v vs ws key str} : TagMeaning W f key True str → ZeroGV v → Written W (i + 1) fs vs ws →
      Written W i (f :: fs) (v :: vs) ws
  | keep {i f fs v vs ws key om str} : f.exported = true → TagMeaning W f key om (str = true) → key ≠ [45] → ¬ (om ∧ ZeroGV v) →
      Written W (i + 1) fs vs ws → Written W i (f :: fs) (v :: vs) ({ idx := i, key, str, ty := f.ty, val := v } :: ws)

/-! ### Values -/

/-- Addresses of the values being encoded around the present one, innermost first. The flag tells values of statically
known type (slices, maps, pointers to structs) from slices and maps held in interfaces. -/
abbrev Stack := List (Nat × Bool)

/-- How a value is reached: as a variable of its static type; the same, but the type's own MarshalPHP is out of play; as
the contents of an interface; as a struct field with or without the `string` option. -/
inductive Mode where
  | typed
  | kind
  | held
  | field (str : Bool)
deriving DecidableEq

/-- The type has the method MarshalPHP: a declared type has those with value receiver, a pointer to it also those with pointer
receiver, an interface type the methods it lists. -/
inductive HasMarshal (W : World) : Ty → Prop
  | declared {id} : (W.named id).mar = .value → HasMarshal W (.named id)
  | ptrToValue {id} : (W.named id).mar = .value → HasMarshal W (.ptr (.named id))
  | ptrToPointer {id} : (W.named id).mar = .pointer → HasMarshal W (.ptr (.named id))
  | declaredIface {id i} : (W.named id).under = .iface i → W.ifaceMar i = true → HasMarshal W (.named id)
  | iface {i} : W.ifaceMar i = true → HasMarshal W (.iface i)

/-- The method MarshalPHP of the value returns these bytes. A nil interface has no method, a nil pointer none with a
value receiver. -/
inductive Marshaled (W : World) (h : Heap) : Ty → GV → Bytes → Prop
  | value {t v raw} : (∀ dt dv, v ≠ .iface dt dv) → v ≠ .ifaceNil →
      (∀ id, t = .ptr (.named id) → (W.named id).mar = .value → v ≠ .ptrNil) →
      h.marshal t v = .ok raw → Marshaled W h t v raw
  | iface {t dt dv raw} : (∀ id, dt = .ptr (.named id) → (W.named id).mar = .value → dv ≠ .ptrNil) →
      h.marshal dt dv = .ok raw → Marshaled W h t (.iface dt dv) raw

/-- Text of a PHP array with `n` entries: keys `kd i` (documents) and values `tx i` (texts), from index `i` on. -/
def bodyText (kd : Nat → Doc) (tx : Nat → Bytes) : Nat → Nat → Bytes
  | _, 0 => []
  | i, n + 1 => (kd i).text ++ tx i ++ bodyText kd tx (i + 1) n

/-- Text of a PHP array. -/
def arrText (n : Nat) (kd : Nat → Doc) (tx : Nat → Bytes) : Bytes := [97, 58] ++ natText n ++ [58, 123] ++ bodyText kd tx 0 n ++ [125]

/-- Keys of lists. -/
def idxDoc (i : Nat) : Doc := .int (natText i)

/-- Address of the data of a slice or map, 0 for nil. -/
def addrOf : GV → Nat
  | .slice a _ => a
  | .map a => a
  | _ => 0

/-- Kinds for which a pointer is encoded as the kind of its element: scalars and maps. -/
def directKind (W : World) (t : Ty) : Bool :=
  match W.resolve t with
  | .bool | .int _ | .f32 | .f64 | .str | .map _ _ => true
  | .uint k => decide (k ≠ .uptr)
  | _ => false

/-- `EncG W h ok G m st p t v txt`: the text for value `v` of type `t`, reached in mode `m` at path `p`. `ok` says which
types met inside interfaces are accepted. `G st a counted` is a condition on every address entered: `fun _ _ _ => True`
gives the plain meaning of values. -/
inductive EncG (W : World) (h : Heap) (ok : Ty → Prop) (G : Stack → Nat → Bool → Prop) : Mode → Stack → Path → Ty → GV → Bytes → Prop
  -- variables
  | marshaler {st p t v raw} : W.marOf t = true → Marshaled W h t v raw → EncG W h ok G .typed st p t v raw
  | bytesNil {st p} : EncG W h ok G .typed st p (.slice (.uint .u8)) .sliceNil (strDoc []).text
  | bytes {st p a n s} : bytesOf (h.elems (.uint .u8) a n) = some s →
      EncG W h ok G .typed st p (.slice (.uint .u8)) (.slice a n) (strDoc s).text
  | plain {st p t v tx} : W.marOf t = false → t ≠ .slice (.uint .u8) → W.isPtr t = false →
      EncG W h ok G .kind st p t v tx → EncG W h ok G .typed st p t v tx
  | ptrNil {st p t e} : W.marOf t = false → W.resolve t = .ptr e → W.isPtr e = false →
      W.isIface e = false → EncG W h ok G .typed st p t .ptrNil Doc.null.text
  | ptrStruct {st p t e a tx} : W.marOf t = false → W.resolve t = .ptr e → W.isStruct e = true → G st a true →
      EncG W h ok G .kind ((a, true) :: st) p e (h.deref e a) tx → EncG W h ok G .typed st p t (.ptr a) tx
  | ptrKind {st p t e a tx} : W.marOf t = false → W.resolve t = .ptr e → directKind W e = true →
      EncG W h ok G .kind st p e (h.deref e a) tx → EncG W h ok G .typed st p t (.ptr a) tx
  | ptrTyped {st p t e a tx} : W.marOf t = false → W.resolve t = .ptr e → W.isPtr e = false → W.isIface e = false →
      W.isStruct e = false → directKind W e = false →
      EncG W h ok G .typed st p e (h.deref e a) tx → EncG W h ok G .typed st p t (.ptr a) tx
  | ptrIface {st p t e v tx} : W.marOf t = false → W.resolve t = .ptr e → W.isIface e = true →
      EncG W h ok G .held st p t v tx → EncG W h ok G .typed st p t v tx
  -- by kind
  | scalar {st p t v d} : ScalarDoc W t v d → EncG W h ok G .kind st p t v d.text
  | struct {st p t id vs ws tx} : W.resolve t = .struct id → Written W 0 (W.fields id) vs ws →
      (∀ (j : Nat) (w : WField), ws[j]? = some w → EncG W h ok G (.field w.str) st (w.idx :: p) w.ty w.val (tx j)) →
      EncG W h ok G .kind st p t (.struct vs) (arrText ws.length (fun j => strDoc ((ws[j]?.map (·.key)).getD [])) tx)
  | array {st p t n e vs tx} : W.resolve t = .array n e → vs.length = n →
      (∀ (i : Nat) (v : GV), vs[i]? = some v → EncG W h ok G .typed st (i :: p) e v (tx i)) →
      EncG W h ok G .kind st p t (.arr vs) (arrText vs.length idxDoc tx)
  | sliceNil {st p t e} : W.resolve t = .slice e → EncG W h ok G .kind st p t .sliceNil Doc.null.text
  | slice {st p t e a n vs tx} : W.resolve t = .slice e → G st a true → h.elems e a n = vs →
      (∀ (i : Nat) (v : GV), vs[i]? = some v → EncG W h ok G .typed ((a, true) :: st) (i :: p) e v (tx i)) →
      EncG W h ok G .kind st p t (.slice a n) (arrText vs.length idxDoc tx)
  | mapNil {st p t k e} : W.resolve t = .map k e → EncG W h ok G .kind st p t .mapNil Doc.null.text
  | map {st p t k e a es kd tx} : W.resolve t = .map k e → G st a true → h.iter k e p a = es →
      (∀ (i : Nat) (x y : GV), es[i]? = some (x, y) → KeyDoc W k x (kd i)) →
      (∀ (i : Nat) (x y : GV), es[i]? = some (x, y) → EncG W h ok G .typed ((a, true) :: st) (i :: p) e y (tx i)) →
      EncG W h ok G .kind st p t (.map a) (arrText es.length kd tx)
  | iface {st p t v tx} : W.isIface t = true → EncG W h ok G .held st p t v tx → EncG W h ok G .kind st p t v tx
  -- held in an interface
  | heldNil {st p t v} : Deref W h t v none → EncG W h ok G .held st p t v Doc.null.text
  | heldScalar {st p t v t' v' d} : Deref W h t v (some (t', v')) → ScalarDoc W t' v' d → EncG W h ok G .held st p t v d.text
  | heldConcreteSlice {st p t v t' v' e tx} : Deref W h t v (some (t', v')) → W.resolve t' = .slice e → W.isIface e = false →
      G st (addrOf v') false → ok t' → EncG W h ok G .typed ((addrOf v', false) :: st) p t' v' tx → EncG W h ok G .held st p t v tx
  | heldSliceNil {st p t v t' e} : Deref W h t v (some (t', .sliceNil)) → W.resolve t' = .slice e → W.isIface e = true →
      G st 0 false → EncG W h ok G .held st p t v Doc.null.text
  | heldSlice {st p t v t' e a n vs tx} : Deref W h t v (some (t', .slice a n)) → W.resolve t' = .slice e → W.isIface e = true →
      G st a false → h.elems e a n = vs →
      (∀ (i : Nat) (v : GV), vs[i]? = some v → EncG W h ok G .held ((a, false) :: st) (i :: p) e v (tx i)) →
      EncG W h ok G .held st p t v (arrText vs.length idxDoc tx)
  | heldMapNil {st p t v t' k e} : Deref W h t v (some (t', .mapNil)) → W.resolve t' = .map k e → KeyKind W k →
      G st 0 false → EncG W h ok G .held st p t v Doc.null.text
  | heldMap {st p t v t' k e a es kd tx} : Deref W h t v (some (t', .map a)) → W.resolve t' = .map k e → KeyKind W k →
      W.isIface e = true → G st a false → h.iter k e p a = es →
      (∀ (i : Nat) (x y : GV), es[i]? = some (x, y) → KeyDoc W k x (kd i)) →
      (∀ (i : Nat) (x y : GV), es[i]? = some (x, y) → EncG W h ok G .held ((a, false) :: st) (i :: p) e y (tx i)) →
      EncG W h ok G .held st p t v (arrText es.length kd tx)
  | heldConcreteMap {st p t v t' k e a es kd tx} : Deref W h t v (some (t', .map a)) → W.resolve t' = .map k e →
      KeyKind W k → W.isIface e = false → G st a false → h.iter k e p a = es → (es ≠ [] → ok e) →
      (∀ (i : Nat) (x y : GV), es[i]? = some (x, y) → KeyDoc W k x (kd i)) →
      (∀ (i : Nat) (x y : GV), es[i]? = some (x, y) → EncG W h ok G .typed ((a, false) :: st) (i :: p) e y (tx i)) →
      EncG W h ok G .held st p t v (arrText es.length kd tx)
  | heldStruct {st p t v t' v' tx} : Deref W h t v (some (t', v')) → W.isStruct t' = true → ok t' →
      EncG W h ok G .typed st p t' v' tx → EncG W h ok G .held st p t v tx
  -- struct fields
  | fieldPlain {st p t v tx} : W.isPtr t = false → EncG W h ok G .typed st p t v tx → EncG W h ok G (.field false) st p t v tx
  | fieldPtrNil {st p t e str} : W.resolve t = .ptr e → EncG W h ok G (.field str) st p t .ptrNil Doc.null.text
  | fieldPtrStruct {st p t e a tx} : W.resolve t = .ptr e → W.isStruct e = true → G st a true →
      EncG W h ok G .typed ((a, true) :: st) p e (h.deref e a) tx → EncG W h ok G (.field false) st p t (.ptr a) tx
  | fieldPtr {st p t e a tx} : W.resolve t = .ptr e → W.isStruct e = false →
      EncG W h ok G .typed st p e (h.deref e a) tx → EncG W h ok G (.field false) st p t (.ptr a) tx
  | fieldStr {st p t v d} : W.isPtr t = false → StrFieldDoc W h t v d → EncG W h ok G (.field true) st p t v d.text
  | fieldStrPtr {st p t e a d} : W.resolve t = .ptr e → StrFieldDoc W h e (h.deref e a) d →
      EncG W h ok G (.field true) st p t (.ptr a) d.text

/-- The condition under which the recursion checks of the code let a value through. `depthOf` counts the values of
statically known type around; their addresses are remembered from the 1001st on, those held in interfaces always. -/
def depthOf (st : Stack) : Nat := (st.filter (·.2)).length

/-- The addresses remembered. -/
def seenOf : Stack → List Nat
  | [] => []
  | (a, counted) :: st => if counted && decide (depthOf st + 1 ≤ 1000) then seenOf st else a :: seenOf st

/-- Not yet remembered, or not checked. -/
def Fresh (st : Stack) (a : Nat) (counted : Bool) : Prop := (counted = true ∧ depthOf st + 1 ≤ 1000) ∨ a ∉ seenOf st

end Verif.Spec

import Verif.Spec.Format
import Verif.Model.Types
/-
Specification of decoding on document trees: which documents may be stored into a destination of a given Go type, and
what the destination holds afterwards. No cursors, no buffers; written from the format and the documentation, using
only the vocabulary of Go types and values.
-/
namespace Verif.Spec
open Verif

/-! ### Struct tags -/

/-- Comma-separated list. -/
def joinComma : List Bytes → Bytes
  | [] => []
  | [w] => w
  | w :: ws => w ++ 44 :: joinComma ws

/-- Characters that a key given in a tag may contain. -/
def KeyChar (c : Byte) : Prop :=
  (48 ≤ c ∧ c ≤ 57) ∨ (65 ≤ c ∧ c ≤ 90) ∨ (97 ≤ c ∧ c ≤ 122) ∨
  c ∈ ([33, 35, 36, 37, 38, 40, 41, 42, 43, 45, 46, 47, 58, 60, 61, 62, 63, 64, 91, 93, 94, 95, 123, 124, 125, 126, 32] : Bytes)

/-- A usable key: not empty, allowed ASCII characters only, and non-ASCII letters or digits. -/
def ValidKey (W : World) (s : Bytes) : Prop :=
  s ≠ [] ∧ (∀ c ∈ s, 128 ≤ c ∨ KeyChar c) ∧ ((∀ c ∈ s, c < 128) ∨ W.wideOk s = true)

/-- The meaning of a field's `php` tag: the key, and whether the options `omitempty` and `string` are given. -/
structure TagMeaning (W : World) (f : Field) (key : Bytes) (om str : Prop) : Prop where
  parts : ∃ first opts, f.tag = joinComma (first :: opts) ∧ 44 ∉ first ∧ (∀ o ∈ opts, 44 ∉ o) ∧
    ((ValidKey W first ∧ key = first) ∨ (¬ ValidKey W first ∧ key = f.name)) ∧
    (om ↔ [111, 109, 105, 116, 101, 109, 112, 116, 121] ∈ opts) ∧
    (str ↔ [115, 116, 114, 105, 110, 103] ∈ opts)

/-- The field takes part in serialization: exported and not tagged `-`. -/
def Visible (f : Field) : Prop := f.exported = true ∧ f.tag ≠ [45]

/-- The field has this key. -/
def HasKey (W : World) (f : Field) (key : Bytes) : Prop := ∃ om str, TagMeaning W f key om str

/-- The field carries the `string` option. -/
def HasString (W : World) (f : Field) : Prop := ∃ key om, TagMeaning W f key om True

/-- `f`, at position `i` of struct type `id`, is the field for `key` (the first visible one with that key). -/
def FieldFor (W : World) (id : Nat) (key : Bytes) (i : Nat) (f : Field) : Prop :=
  (W.fields id)[i]? = some f ∧ Visible f ∧ HasKey W f key ∧
  ∀ (j : Nat) (g : Field), j < i → (W.fields id)[j]? = some g → Visible g → ¬ HasKey W g key

/-- No visible field of struct type `id` has this key. -/
def NoField (W : World) (id : Nat) (key : Bytes) : Prop :=
  ∀ (j : Nat) (g : Field), (W.fields id)[j]? = some g → Visible g → ¬ HasKey W g key

/-- The value can be a key of a Go map: there is no slice, no map and no function in it. -/
inductive Hashable : Val → Prop
  | bool {b} : Hashable (.bool b)
  | int {i} : Hashable (.int i)
  | uint {n} : Hashable (.uint n)
  | f32 {x} : Hashable (.f32 x)
  | f64 {x} : Hashable (.f64 x)
  | str {s} : Hashable (.str s)
  | ptr {v} : Hashable (.ptr v)
  | ptrNil : Hashable .ptrNil
  | ifaceNil : Hashable .ifaceNil
  | iface {t v} : Hashable v → Hashable (.iface t v)
  | arr {vs} : (∀ v ∈ vs, Hashable v) → Hashable (.arr vs)
  | struct {vs} : (∀ v ∈ vs, Hashable v) → Hashable (.struct vs)

/-! ### Scalars -/

/-- `t` is not an Unmarshaler type and its underlying type is `k`. -/
def Plain (W : World) (t k : Ty) : Prop := W.unmOf t = none ∧ W.resolve t = k

/-- The number represented by the text of a float: the PHP names for the special values, anything else as
strconv.ParseFloat reads it. -/
inductive FloatText (W : World) : Bytes → UInt64 → Prop
  | inf : FloatText W [73, 78, 70] 0x7FF0000000000000
  | negInf : FloatText W [45, 73, 78, 70] 0xFFF0000000000000
  | nan : FloatText W [78, 65, 78] 0x7FF8000000000001
  | parsed {t x} : t ≠ [73, 78, 70] → t ≠ [45, 73, 78, 70] → t ≠ [78, 65, 78] → W.parseF64 t = some x → FloatText W t x

/-- The bits of a float64 that converts to float32 without overflow: at most MaxFloat32 in absolute value, or not finite. -/
def Fits32 (x : UInt64) : Prop :=
  x &&& 0x7FFFFFFFFFFFFFFF ≤ 0x47EFFFFFE0000000 ∨ 0x7FF0000000000000 ≤ x &&& 0x7FFFFFFFFFFFFFFF

/-- Largest value of a signed kind (`int` as on 64-bit platforms). -/
def intMax : IKind → Int
  | .i8 => 127
  | .i16 => 32767
  | .i32 => 2147483647
  | .i64 => 9223372036854775807
  | .int => 9223372036854775807

/-- Largest value of an unsigned kind. -/
def uintMax : UKind → Nat
  | .u8 => 255
  | .u16 => 65535
  | .u32 => 4294967295
  | .u64 => 18446744073709551615
  | .uint => 18446744073709551615
  | .uptr => 18446744073709551615

/-- Signed range of a kind. -/
def InRange (k : IKind) (i : Int) : Prop := -intMax k - 1 ≤ i ∧ i ≤ intMax k

/-- Unsigned range of a kind. -/
def InURange (k : UKind) (n : Nat) : Prop := n ≤ uintMax k

instance {k : UKind} {n : Nat} : Decidable (InURange k n) := inferInstanceAs (Decidable (n ≤ uintMax k))

/-- Texts accepted for a boolean inside a string (strconv.ParseBool). -/
def BoolText (s : Bytes) (b : Bool) : Prop :=
  (b = true ∧ s ∈ ([[49], [116], [84], [116, 114, 117, 101], [84, 82, 85, 69], [84, 114, 117, 101]] : List Bytes)) ∨
  (b = false ∧ s ∈ ([[48], [102], [70], [102, 97, 108, 115, 101], [70, 65, 76, 83, 69], [70, 97, 108, 115, 101]] : List Bytes))

/-- The value of a scalar type written as text inside a string (fields with the `string` option). -/
inductive ScalarText (W : World) : Ty → Bytes → Val → Prop
  | bool {t s b} : Plain W t .bool → BoolText s b → ScalarText W t s (.bool b)
  | int {t k s i} : Plain W t (.int k) → IntText s i → InRange k i → ScalarText W t s (.int i)
  | uint {t k s} : Plain W t (.uint k) → IsDigits s → InURange k (digitsVal s) → ScalarText W t s (.uint (digitsVal s))
  | f32 {t s x} : Plain W t .f32 → FloatText W s x → Fits32 x → ScalarText W t s (.f32 (W.toF32 x))
  | f64 {t s x} : Plain W t .f64 → FloatText W s x → ScalarText W t s (.f64 x)

/-- `t` is a boolean, integer or float type without Unmarshaler. -/
def IsScalar (W : World) (t : Ty) : Prop :=
  Plain W t .bool ∨ (∃ k, Plain W t (.int k)) ∨ (∃ k, Plain W t (.uint k)) ∨ Plain W t .f32 ∨ Plain W t .f64

/-- A scalar type stored from a string document: null leaves it alone. -/
inductive Wrapped (W : World) (t : Ty) : Doc → Val → Val → Prop
  | null {rv} : IsScalar W t → Wrapped W t .null rv rv
  | str {len s rv v} : LenText len s.length → ScalarText W t s v → Wrapped W t (.str len s) rv v

/-- The `string` option is ignored for these types. -/
def StringIgnored (W : World) (t : Ty) : Prop :=
  W.unmOf t ≠ none ∨ (∃ e, W.resolve t = .slice e) ∨ (∃ n e, W.resolve t = .array n e) ∨
  (∃ k v, W.resolve t = .map k v) ∨ (∃ id, W.resolve t = .struct id) ∨ W.resolve t = .any ∨ (∃ i, W.resolve t = .iface i)

/-- Types usable as map keys: strings, booleans, integers, interfaces, Unmarshaler types. -/
def KeyType (W : World) (k : Ty) : Prop :=
  W.unmOf k ≠ none ∨ W.resolve k = .str ∨ W.resolve k = .bool ∨ (∃ i, W.resolve k = .int i) ∨ (∃ i, W.resolve k = .uint i) ∨
  W.resolve k = .any ∨ (∃ i, W.resolve k = .iface i)

/-- The shape of map keys: of a Go type, or the keys of the `map[any]any` built for an array stored in an `any`. -/
inductive KeyMode where
  | ofType (k : Ty)
  | anyKey

/-- A container document: array or object, with its count text and entries. -/
inductive Container : Doc → Bytes → List (Doc × Doc) → Prop
  | arr {cnt es} : Container (.arr cnt es) cnt es
  | obj {clen cls cnt es} : LenText clen cls.length → Container (.obj clen cls cnt es) cnt es

/-- Documents usable as struct keys: strings, and null which stands for the empty key. -/
inductive FieldKey : Doc → Bytes → Prop
  | str {len s} : LenText len s.length → FieldKey (.str len s) s
  | null : FieldKey .null []

/-- The entries a map decode starts from: none for a nil map, the present ones otherwise. -/
inductive MapBase : Val → List (Val × Val) → Prop
  | nil : MapBase .mapNil []
  | map {es} : MapBase (.map es) es

/-- Lengthen a slice with zero elements so that position `i` exists. -/
def padTo (zero : Val) (i : Nat) (vs : List Val) : List Val := vs ++ List.replicate (i + 1 - vs.length) zero

/-- Size of an element for allocation purposes: byte slices always use 1. -/
def esize (W : World) (e : Ty) : Nat := if W.isByte e then 1 else W.elemSize e

mutual
/-- `DecDoc W t n d rv v`: document `d` can be stored into a destination of type `t` that holds `rv`, at a place where
`n` more containers may be nested, and the destination holds `v` afterwards. -/
inductive DecDoc (W : World) : Ty → Nat → Doc → Val → Val → Prop
  -- types with UnmarshalPHP: the method gets the raw text of any well-formed document; null stores the zero value
  | unmNull {t n id rv} : W.unmOf t = some id → DecDoc W t n .null rv (W.namedZero id)
  | unm {t n id d rv v} : W.unmOf t = some id → d ≠ .null → Strict n d → W.unmarshal id d.text = .ok v → DecDoc W t n d rv v
  -- pointers
  | ptrNull {t n e rv} : Plain W t (.ptr e) → W.isPtr e = false → DecDoc W t n .null rv .ptrNil
  | ptrNew {t n e d v} : Plain W t (.ptr e) → W.isPtr e = false → d ≠ .null → DecDoc W e n d (W.zero e) v →
      DecDoc W t n d .ptrNil (.ptr v)
  | ptrOld {t n e d v0 v} : Plain W t (.ptr e) → W.isPtr e = false → d ≠ .null → DecDoc W e n d v0 v →
      DecDoc W t n d (.ptr v0) (.ptr v)
  -- scalars: null leaves the destination alone
  | boolNull {t n rv} : Plain W t .bool → DecDoc W t n .null rv rv
  | bool {t n b rv} : Plain W t .bool → DecDoc W t n (.bool b) rv (.bool b)
  | intNull {t n k rv} : Plain W t (.int k) → DecDoc W t n .null rv rv
  | int {t n k txt i rv} : Plain W t (.int k) → IntText txt i → InRange k i → DecDoc W t n (.int txt) rv (.int i)
  | uintNull {t n k rv} : Plain W t (.uint k) → DecDoc W t n .null rv rv
  | uint {t n k txt rv} : Plain W t (.uint k) → IsDigits txt → InURange k (digitsVal txt) →
      DecDoc W t n (.int txt) rv (.uint (digitsVal txt))
  | f32Null {t n rv} : Plain W t .f32 → DecDoc W t n .null rv rv
  | f32 {t n txt x rv} : Plain W t .f32 → txt ≠ [] → 59 ∉ txt → FloatText W txt x → Fits32 x →
      DecDoc W t n (.float txt) rv (.f32 (W.toF32 x))
  | f64Null {t n rv} : Plain W t .f64 → DecDoc W t n .null rv rv
  | f64 {t n txt x rv} : Plain W t .f64 → txt ≠ [] → 59 ∉ txt → FloatText W txt x → DecDoc W t n (.float txt) rv (.f64 x)
  | strNull {t n rv} : Plain W t .str → DecDoc W t n .null rv rv
  | str {t n len s rv} : Plain W t .str → LenText len s.length → DecDoc W t n (.str len s) rv (.str s)
  -- byte slices
  | bytesNull {t n e rv} : Plain W t (.slice e) → W.isByte e = true → DecDoc W t n .null rv rv
  | bytes {t n e len s rv} : Plain W t (.slice e) → W.isByte e = true → LenText len s.length →
      DecDoc W t n (.str len s) rv (.slice (s.map fun c => .uint c.toNat))
  -- slices
  | sliceNull {t n e rv} : Plain W t (.slice e) → W.isByte e = false → DecDoc W t (n + 1) .null rv .sliceNil
  | sliceEmpty {t n e rv} : Plain W t (.slice e) → DecDoc W t (n + 1) (.arr [48] []) rv .sliceNil
  | slice {t n e cnt m es rv vs} : Plain W t (.slice e) → LenText cnt m → cnt.head? ≠ some 48 → esize W e * m ≤ 2 ^ 48 →
      es ≠ [] → DecElems W e n es [] vs → DecDoc W t (n + 1) (.arr cnt es) rv (.slice vs)
  -- arrays
  | arrayNull {t n l e rv} : Plain W t (.array l e) → DecDoc W t (n + 1) .null rv rv
  | arrayEmpty {t n l e rv} : Plain W t (.array l e) →
      DecDoc W t (n + 1) (.arr [48] []) rv (.arr (List.replicate l (W.zero e)))
  | array {t n l e cnt m es rv vs} : Plain W t (.array l e) → LenText cnt m → cnt.head? ≠ some 48 → es ≠ [] →
      DecArr W e n es (List.replicate l (W.zero e)) vs → DecDoc W t (n + 1) (.arr cnt es) rv (.arr vs)
  -- maps
  | mapNull {t n k v rv} : Plain W t (.map k v) → DecDoc W t (n + 1) .null rv .mapNil
  | map {t n k v d cnt m es rv es0 es1} : Plain W t (.map k v) → Container d cnt es → LenText cnt m → MapBase rv es0 →
      DecPairs W (.ofType k) v n es es0 es1 → DecDoc W t (n + 1) d rv (.map es1)
  -- structs
  | structNull {t n id rv} : Plain W t (.struct id) → DecDoc W t (n + 1) .null rv rv
  | structEmpty {t n id d cnt rv} : Plain W t (.struct id) → Container d cnt [] → IsDigits cnt → DecDoc W t (n + 1) d rv rv
  | struct {t n id d cnt es vs vs'} : Plain W t (.struct id) → Container d cnt es → IsDigits cnt → es ≠ [] →
      DecFields W id n es vs vs' → DecDoc W t (n + 1) d (.struct vs) (.struct vs')
  -- the empty interface: the document chooses the dynamic type
  | anyNull {t n rv} : Plain W t .any → DecDoc W t n .null rv .ifaceNil
  | anyBool {t n b rv} : Plain W t .any → DecDoc W t n (.bool b) rv (.iface .bool (.bool b))
  | anyInt {t n txt i rv} : Plain W t .any → IntText txt i → InRange .i64 i →
      DecDoc W t n (.int txt) rv (.iface (.int .i64) (.int i))
  | anyFloat {t n txt x rv} : Plain W t .any → txt ≠ [] → 59 ∉ txt → FloatText W txt x →
      DecDoc W t n (.float txt) rv (.iface .f64 (.f64 x))
  | anyStr {t n len s rv} : Plain W t .any → LenText len s.length → DecDoc W t n (.str len s) rv (.iface .str (.str s))
  | anyArr {t n cnt m es rv es1} : Plain W t .any → LenText cnt m → DecPairs W .anyKey .any n es [] es1 →
      DecDoc W t (n + 1) (.arr cnt es) rv (.iface (.map .any .any) (.map es1))
  | anyObj {t n clen cls cnt m es rv es1} : Plain W t .any → LenText clen cls.length → LenText cnt m →
      DecPairs W (.ofType .str) .any n es [] es1 →
      DecDoc W t (n + 1) (.obj clen cls cnt es) rv (.iface (.map .str .any) (.map es1))
  -- interfaces with methods: null, or the held value's own UnmarshalPHP
  | ifaceNull {t n i rv} : Plain W t (.iface i) → DecDoc W t n .null rv .ifaceNil
  | ifaceDyn {t n i d dt dv dv'} : Plain W t (.iface i) → d ≠ .null → Strict n d → W.dynUnm dt = true →
      W.unmarshalDyn dt dv d.text = (dv', .ok ()) → DecDoc W t n d (.iface dt dv) (.iface dt dv')

/-- Elements of a slice, stored by index, lengthening the slice as needed. -/
inductive DecElems (W : World) : Ty → Nat → List (Doc × Doc) → List Val → List Val → Prop
  | nil {e n vs} : DecElems W e n [] vs vs
  | cons {e n txt i d es vs v0 v vs'} : IntText txt (i : Nat) → i < 2 ^ 63 →
      (vs.length ≤ i → (i : Nat) + 1 < 2 ^ 63 ∧ esize W e * (i + 1) ≤ 2 ^ 48) →
      (padTo (W.zero e) i vs)[i]? = some v0 → DecDoc W e n d v0 v →
      DecElems W e n es ((padTo (W.zero e) i vs).set i v) vs' →
      DecElems W e n ((.int txt, d) :: es) vs vs'

/-- Elements of an array, stored by index; indices outside the array are skipped. -/
inductive DecArr (W : World) : Ty → Nat → List (Doc × Doc) → List Val → List Val → Prop
  | nil {e n vs} : DecArr W e n [] vs vs
  | store {e n txt i d es vs v0 v vs'} : IntText txt (i : Nat) → i < 2 ^ 63 → vs[i]? = some v0 → DecDoc W e n d v0 v →
      DecArr W e n es (vs.set i v) vs' → DecArr W e n ((.int txt, d) :: es) vs vs'
  | skip {e n txt i d es vs vs'} : IntText txt (i : Nat) → i < 2 ^ 63 → vs.length ≤ i → Strict n d →
      DecArr W e n es vs vs' → DecArr W e n ((.int txt, d) :: es) vs vs'

/-- Entries of a map, inserted in order. -/
inductive DecPairs (W : World) : KeyMode → Ty → Nat → List (Doc × Doc) → List (Val × Val) → List (Val × Val) → Prop
  | nil {km v n m} : DecPairs W km v n [] m m
  | key {k v n kd d es kv x m m'} : KeyType W k → DecDoc W k n kd (W.zero k) kv → DecDoc W v n d (W.zero v) x →
      Hashable kv → DecPairs W (.ofType k) v n es (mapInsert kv x m) m' →
      DecPairs W (.ofType k) v n ((kd, d) :: es) m m'
  | ptrKey {k p v n d es x m m'} : Plain W k (.ptr p) → W.unmOf p = none → KeyType W p → DecDoc W v n d (W.zero v) x →
      DecPairs W (.ofType k) v n es (mapInsert .ptrNil x m) m' → DecPairs W (.ofType k) v n ((.null, d) :: es) m m'
  | anyInt {v n txt i d es x m m'} : IntText txt i → InRange .i64 i → DecDoc W v n d (W.zero v) x →
      DecPairs W .anyKey v n es (mapInsert (.iface (.int .i64) (.int i)) x m) m' →
      DecPairs W .anyKey v n ((.int txt, d) :: es) m m'
  | anyStr {v n len s d es x m m'} : LenText len s.length → DecDoc W v n d (W.zero v) x →
      DecPairs W .anyKey v n es (mapInsert (.iface .str (.str s)) x m) m' →
      DecPairs W .anyKey v n ((.str len s, d) :: es) m m'

/-- Entries of a struct, in order: the field with that key is stored, other keys are skipped. -/
inductive DecFields (W : World) : Nat → Nat → List (Doc × Doc) → List Val → List Val → Prop
  | nil {id n vs} : DecFields W id n [] vs vs
  | skip {id n kd s d es vs vs'} : FieldKey kd s → NoField W id s → Strict n d → DecFields W id n es vs vs' →
      DecFields W id n ((kd, d) :: es) vs vs'
  | plain {id n kd s i f d es vs v0 v vs'} : FieldKey kd s → FieldFor W id s i f →
      (¬ HasString W f ∨ StringIgnored W f.ty) → vs[i]? = some v0 → DecDoc W f.ty n d v0 v →
      DecFields W id n es (vs.set i v) vs' → DecFields W id n ((kd, d) :: es) vs vs'
  | wrapped {id n kd s i f d es vs v0 v vs'} : FieldKey kd s → FieldFor W id s i f →
      HasString W f → IsScalar W f.ty → vs[i]? = some v0 → Wrapped W f.ty d v0 v →
      DecFields W id n es (vs.set i v) vs' → DecFields W id n ((kd, d) :: es) vs vs'
  | wrappedPtrNull {id n kd s i f e es vs v0 vs'} : FieldKey kd s → FieldFor W id s i f →
      HasString W f → Plain W f.ty (.ptr e) → IsScalar W e → vs[i]? = some v0 →
      DecFields W id n es (vs.set i .ptrNil) vs' → DecFields W id n ((kd, .null) :: es) vs vs'
  | wrappedPtr {id n kd s i f e d es vs v0 b v vs'} : FieldKey kd s → FieldFor W id s i f →
      HasString W f → Plain W f.ty (.ptr e) → IsScalar W e → vs[i]? = some v0 →
      ((v0 = .ptrNil ∧ b = W.zero e) ∨ v0 = .ptr b) → d ≠ .null → Wrapped W e d b v →
      DecFields W id n es (vs.set i (.ptr v)) vs' → DecFields W id n ((kd, d) :: es) vs vs'
end

end Verif.Spec

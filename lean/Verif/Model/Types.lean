import Verif.Model.Base
/-
Go types, Go values (as trees) and the parts of the environment the library depends on.
-/
namespace Verif

/-- Width in bits; `int`, `uint`, `uintptr` are 64 bits wide (Go on a 64-bit platform). -/
def IKind.bits : IKind → Nat
  | .i8 => 8 | .i16 => 16 | .i32 => 32 | .i64 => 64 | .int => 64

/-- Width in bits. -/
def UKind.bits : UKind → Nat
  | .u8 => 8 | .u16 => 16 | .u32 => 32 | .u64 => 64 | .uint => 64 | .uptr => 64

/-- Negation of reflect.Value.OverflowInt (used at int.go:143): the number fits the kind. -/
def IKind.fits (k : IKind) (i : Int) : Bool := decide (-(2 ^ (k.bits - 1)) ≤ i ∧ i < 2 ^ (k.bits - 1))

/-- Negation of reflect.Value.OverflowUint (used at uint.go:71): the number fits the kind. -/
def UKind.fits (k : UKind) (n : Nat) : Bool := decide (n < 2 ^ k.bits)

/-- Go values as trees: pointers and containers are unfolded, addresses are dropped. Integer values carry their
mathematical value, floats their IEEE bits. A `map` is a list of entries. `iface t v` is an interface holding a value
of dynamic type `t`. -/
inductive Val where
  | bool (b : Bool)
  | int (i : Int)
  | uint (n : Nat)
  | f32 (bits : UInt32)
  | f64 (bits : UInt64)
  | str (s : Bytes)
  | sliceNil
  | slice (es : List Val)
  | arr (es : List Val)
  | mapNil
  | map (es : List (Val × Val))
  | ptrNil
  | ptr (v : Val)
  | struct (fs : List Val)
  | ifaceNil
  | iface (t : Ty) (v : Val)
  | other
  /-- A byte slice known by its place in memory: `len` bytes from position `off` of array `obj`. Used in Model/Alias.lean
  only, where the sharing of memory matters; everywhere else byte slices are `slice`. -/
  | win (obj off len : Nat)
deriving Repr

/-- One struct field as seen through reflect.StructField: name, value of `Tag.Get("php")`, exportedness, embedding. -/
structure Field where
  name : Bytes
  tag : Bytes
  exported : Bool
  anon : Bool
  ty : Ty

/-- Which receiver the `MarshalPHP` method of a declared type has. -/
inductive Recv where
  | none | value | pointer
deriving DecidableEq, Repr

/-- A declared type: its underlying type and its relevant methods. -/
structure NamedInfo where
  under : Ty
  /-- a pointer to the type implements `Unmarshaler` -/
  unm : Bool
  /-- receiver of `MarshalPHP` -/
  mar : Recv

/-- Everything outside the library that it depends on: the program's type declarations, reflect sizes and zero values,
strconv's float conversions, unicode tables, and user-supplied methods. -/
structure World where
  fields : Nat → List Field
  named : Nat → NamedInfo
  /-- the method set of the interface type contains MarshalPHP -/
  ifaceMar : Nat → Bool
  /-- reflect.Type.Size of an element type -/
  elemSize : Ty → Nat
  /-- reflect.Zero of struct types -/
  structZero : Nat → Val
  /-- reflect.Zero of declared types -/
  namedZero : Nat → Val
  /-- strconv.ParseFloat(s, 64): bits of the result, `none` for an error -/
  parseF64 : Bytes → Option UInt64
  /-- conversion float64 → float32 -/
  toF32 : UInt64 → UInt32
  /-- conversion float32 → float64 -/
  toF64 : UInt32 → UInt64
  /-- strconv.AppendFloat(b, f, 'e' or 'f', -1, 64); the flag says 'e' -/
  fmtF64 : Bool → UInt64 → Bytes
  /-- strconv.AppendFloat(b, f, 'e' or 'f', -1, 32) -/
  fmtF32 : Bool → UInt32 → Bytes
  /-- all non-ASCII runes of the string are letters or digits (unicode.IsLetter, unicode.IsDigit) -/
  wideOk : Bytes → Bool
  /-- the UnmarshalPHP method of declared type `id` called on a fresh zero value: resulting value or error -/
  unmarshal : Nat → Bytes → Res Val
  /-- values of this dynamic type implement Unmarshaler -/
  dynUnm : Ty → Bool
  /-- UnmarshalPHP called on a value stored in an interface: the value afterwards, and the outcome -/
  unmarshalDyn : Ty → Val → Bytes → Val × Res Unit
  /-- reflect.Type.Name (compile.go:266), used in error messages only -/
  typeName : Ty → Bytes := fun _ => []
  /-- how a value `v` that the UnmarshalPHP method of declared type `id` has made of its argument `s` lies in memory, when `s` is at position `off` of array `obj`: where
  the method has stored parts of `s` instead of copies, they are parts of `obj`. Arguments: `id`, `obj`, `off`, `s`, `v`. Used in Model/Alias.lean and
  Model/Scribble.lean only. -/
  kept : Nat → Nat → Nat → Bytes → Val → Val := fun _ _ _ _ v => v

/-- Kind resolution: the underlying type of a declared type (reflect.Type.Kind and Elem look through declarations). -/
def World.resolve (W : World) : Ty → Ty
  | .named id => (W.named id).under
  | t => t

/-- The underlying type of a declared type is never itself a declared type (Go specification, "Underlying types"). -/
def World.NamedOk (W : World) : Prop := ∀ id n, (W.named id).under ≠ .named n

/-- reflect.Zero / the zero value of a type. -/
def World.zero (W : World) : Ty → Val
  | .bool => .bool false
  | .int _ => .int 0
  | .uint _ => .uint 0
  | .f32 => .f32 0
  | .f64 => .f64 0
  | .str => .str []
  | .slice _ => .sliceNil
  | .array n e => .arr (List.replicate n (W.zero e))
  | .map _ _ => .mapNil
  | .ptr _ => .ptrNil
  | .struct id => W.structZero id
  | .any => .ifaceNil
  | .iface _ => .ifaceNil
  | .other => .other
  | .named id => W.namedZero id

/-- reflect.Type.Kind() == reflect.Uint8 (compile.go:67). -/
def World.isByte (W : World) (t : Ty) : Bool := decide (W.resolve t = .uint .u8)

/-- reflect.Type.Kind() == reflect.Ptr (ptr.go:17). -/
def World.isPtr (W : World) (t : Ty) : Bool :=
  match W.resolve t with
  | .ptr _ => true
  | _ => false

/-- The type is a declared type whose pointer type implements Unmarshaler
(`reflect.PointerTo(rt).Implements(unmarshalPHPType)`, compile.go:57). -/
def World.unmOf (W : World) : Ty → Option Nat
  | .named id => if (W.named id).unm then some id else none
  | _ => none

/-- The bytes of a string as the elements of a `[]byte` (reflect.Value.SetBytes, bytes.go:47). -/
def bytesVal (s : Bytes) : Val := .slice (s.map fun c => .uint c.toNat)

/-- float64 comparison `==` on bits: NaN differs from everything, the two zeros are equal. -/
def f64Eq (a b : UInt64) : Bool :=
  let nan := fun (x : UInt64) => decide (x &&& 0x7FFFFFFFFFFFFFFF > 0x7FF0000000000000)
  !nan a && !nan b && (a == b || (a ||| b) &&& 0x7FFFFFFFFFFFFFFF == 0)

/-- float32 comparison `==` on bits. -/
def f32Eq (a b : UInt32) : Bool :=
  let nan := fun (x : UInt32) => decide (x &&& 0x7FFFFFFF > 0x7F800000)
  !nan a && !nan b && (a == b || (a ||| b) &&& 0x7FFFFFFF == 0)

mutual
/-- Go `==` on map keys. Two non-nil pointers are never equal here: key decoding always produces fresh ones. -/
def Val.goEq : Val → Val → Bool
  | .bool a, .bool b => a == b
  | .int a, .int b => a == b
  | .uint a, .uint b => a == b
  | .f32 a, .f32 b => f32Eq a b
  | .f64 a, .f64 b => f64Eq a b
  | .str a, .str b => a == b
  | .arr a, .arr b => goEqList a b
  | .struct a, .struct b => goEqList a b
  | .ptrNil, .ptrNil => true
  | .ifaceNil, .ifaceNil => true
  | .iface t v, .iface t' v' => decide (t = t') && v.goEq v'
  | _, _ => false
/-- Element-wise `==` of arrays and structs. -/
def goEqList : List Val → List Val → Bool
  | [], [] => true
  | a :: as, b :: bs => a.goEq b && goEqList as bs
  | _, _ => false
end

mutual
/-- Hashing the value does not panic: no slice or map (or function) inside an interface (Go specification, map types). -/
def Val.hashable : Val → Bool
  | .slice _ => false
  | .sliceNil => false
  | .map _ => false
  | .mapNil => false
  | .other => false
  | .win _ _ _ => false
  | .arr es => hashableList es
  | .struct es => hashableList es
  | .iface _ v => v.hashable
  | _ => true
/-- All elements are hashable. -/
def hashableList : List Val → Bool
  | [] => true
  | a :: as => a.hashable && hashableList as
end

/-- reflect.Value.SetMapIndex (map.go:109) on the entry list: overwrite key and value of the entry with
an equal key (the two differ only for 0 and -0; the runtime stores the new one), or add an entry. -/
def mapInsert (k v : Val) : List (Val × Val) → List (Val × Val)
  | [] => [(k, v)]
  | (k', v') :: es => if k'.goEq k then (k, v) :: es else (k', v') :: mapInsert k v es

/-- Upper limit of a single allocation (runtime maxAlloc on linux/amd64); `reflect.MakeSlice` panics above it. -/
abbrev maxAlloc : Nat := 2 ^ 48

/-- `reflect.MakeSlice(t, n, n)` / `(t, 0, n)` does not panic (slice.go:105,122). -/
def makeSliceOk (elemSize : Nat) (n : Int) : Bool := decide (0 ≤ n ∧ elemSize * n.toNat ≤ maxAlloc)

end Verif

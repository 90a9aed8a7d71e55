import Verif.Spec.Decode
/-
Specification of PHP values and of what they become when decoded into an empty interface. Independent of the decoder and
of its nesting limit.
-/
namespace Verif.Spec
open Verif

/-- Keys of PHP arrays. -/
inductive PKey where
  | int (i : Int)
  | str (s : Bytes)
deriving DecidableEq

/-- PHP values. A float carries its text and the number it denotes. Arrays and objects are ordered lists of entries. -/
inductive Php where
  | null
  | bool (b : Bool)
  | int (i : Int)
  | float (txt : Bytes) (bits : UInt64)
  | str (s : Bytes)
  | arr (es : List (PKey × Php))
  | obj (cls : Bytes) (es : List (Bytes × Php))

/-- A key as a document. -/
def PKey.doc : PKey → Doc
  | .int i => .int (intText i)
  | .str s => .str (natText s.length) s

mutual
/-- What PHP's `serialize` writes. -/
def Php.doc : Php → Doc
  | .null => .null
  | .bool b => .bool b
  | .int i => .int (intText i)
  | .float txt _ => .float txt
  | .str s => .str (natText s.length) s
  | .arr es => .arr (natText es.length) (arrDocs es)
  | .obj cls es => .obj (natText cls.length) cls (natText es.length) (objDocs es)
/-- Entries of an array. -/
def arrDocs : List (PKey × Php) → List (Doc × Doc)
  | [] => []
  | (k, v) :: es => (k.doc, v.doc) :: arrDocs es
/-- Properties of an object. -/
def objDocs : List (Bytes × Php) → List (Doc × Doc)
  | [] => []
  | (k, v) :: es => (.str (natText k.length) k, v.doc) :: objDocs es
end

/-- A key stored in an interface: int64 or string. -/
def PKey.val : PKey → Val
  | .int i => .iface (.int .i64) (.int i)
  | .str s => .iface .str (.str s)

mutual
/-- The Go value for a PHP value: nil, bool, int64, float64, string, map[any]any, map[string]any. -/
def Php.val : Php → Val
  | .null => .ifaceNil
  | .bool b => .iface .bool (.bool b)
  | .int i => .iface (.int .i64) (.int i)
  | .float _ x => .iface .f64 (.f64 x)
  | .str s => .iface .str (.str s)
  | .arr es => .iface (.map .any .any) (.map (arrVals es))
  | .obj _ es => .iface (.map .str .any) (.map (objVals es))
/-- Entries of a `map[any]any`. -/
def arrVals : List (PKey × Php) → List (Val × Val)
  | [] => []
  | (k, v) :: es => (k.val, v.val) :: arrVals es
/-- Entries of a `map[string]any`. -/
def objVals : List (Bytes × Php) → List (Val × Val)
  | [] => []
  | (k, v) :: es => (.str k, v.val) :: objVals es
end

mutual
/-- Number of arrays and objects nested in each other. -/
def Php.depth : Php → Nat
  | .arr es => arrDepth es + 1
  | .obj _ es => objDepth es + 1
  | _ => 0
/-- The largest depth among the entries. -/
def arrDepth : List (PKey × Php) → Nat
  | [] => 0
  | (_, v) :: es => max v.depth (arrDepth es)
/-- The largest depth among the properties. -/
def objDepth : List (Bytes × Php) → Nat
  | [] => 0
  | (_, v) :: es => max v.depth (objDepth es)
end

/-- An integer key is an int64. -/
def PKey.Ok : PKey → Prop
  | .int i => InRange .i64 i
  | .str _ => True

/-- A PHP value of a 64-bit PHP: integers are int64, floats are written as texts that denote them, keys are unique. -/
inductive Php.Ok (W : World) : Php → Prop
  | null : Ok W .null
  | bool {b} : Ok W (.bool b)
  | int {i} : InRange .i64 i → Ok W (.int i)
  | float {txt x} : txt ≠ [] → 59 ∉ txt → FloatText W txt x → Ok W (.float txt x)
  | str {s} : Ok W (.str s)
  | arr {es} : (es.map (·.1)).Nodup → (∀ k v, (k, v) ∈ es → k.Ok) → (∀ k v, (k, v) ∈ es → Ok W v) → Ok W (.arr es)
  | obj {cls es} : (es.map (·.1)).Nodup → (∀ k v, (k, v) ∈ es → Ok W v) → Ok W (.obj cls es)

/-! ### Arbitrary documents, canonical or not -/

/-- A key document of an array stored in an `any`, and the key it becomes. -/
inductive AnyKey : Doc → Val → Prop
  | int {txt i} : IntText txt i → InRange .i64 i → AnyKey (.int txt) (.iface (.int .i64) (.int i))
  | str {len s} : LenText len s.length → AnyKey (.str len s) (.iface .str (.str s))

mutual
/-- `AnyVal W d v`: disregarding the nesting limit, document `d` stored in an `any` gives `v`. Declared counts need not be
right; duplicate keys overwrite. -/
inductive AnyVal (W : World) : Doc → Val → Prop
  | null : AnyVal W .null .ifaceNil
  | bool {b} : AnyVal W (.bool b) (.iface .bool (.bool b))
  | int {txt i} : IntText txt i → InRange .i64 i → AnyVal W (.int txt) (.iface (.int .i64) (.int i))
  | float {txt x} : txt ≠ [] → 59 ∉ txt → FloatText W txt x → AnyVal W (.float txt) (.iface .f64 (.f64 x))
  | str {len s} : LenText len s.length → AnyVal W (.str len s) (.iface .str (.str s))
  | arr {cnt m es kvs} : LenText cnt m → AnyArr W es kvs →
      AnyVal W (.arr cnt es) (.iface (.map .any .any) (.map (kvs.foldl (fun m p => mapInsert p.1 p.2 m) [])))
  | obj {clen cls cnt m es kvs} : LenText clen cls.length → LenText cnt m → AnyObj W es kvs →
      AnyVal W (.obj clen cls cnt es) (.iface (.map .str .any) (.map (kvs.foldl (fun m p => mapInsert p.1 p.2 m) [])))
/-- Entries of an array, one by one. -/
inductive AnyArr (W : World) : List (Doc × Doc) → List (Val × Val) → Prop
  | nil : AnyArr W [] []
  | cons {k kv d v es kvs} : AnyKey k kv → AnyVal W d v → AnyArr W es kvs → AnyArr W ((k, d) :: es) ((kv, v) :: kvs)
/-- Properties of an object, one by one; a null name counts as the empty string. -/
inductive AnyObj (W : World) : List (Doc × Doc) → List (Val × Val) → Prop
  | nil : AnyObj W [] []
  | cons {k s d v es kvs} : FieldKey k s → AnyVal W d v → AnyObj W es kvs → AnyObj W ((k, d) :: es) ((.str s, v) :: kvs)
end

end Verif.Spec

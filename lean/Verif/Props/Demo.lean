import Verif.Model.Unmarshal
import Verif.Spec.Typing
import Lean.Elab.Tactic.Basic
/-
A small concrete world used by the examples that accompany the property theorems: a few struct types and declared
types, with simple stand-ins for strconv and for user methods.
-/
namespace Verif.Demo
open Verif

/-- `b! "…"` is the list of the bytes of a string literal. -/
macro "b!" s:str : term => do
  let ls := s.getString.toUTF8.toList.map fun c => Lean.Syntax.mkNumLit (toString c.toNat)
  `(([$(ls.toArray),*] : Bytes))

/-- `krfl` closes `a = b` by evaluation in the kernel, skipping the slower check by the elaborator. -/
elab "krfl" : tactic => do
  let g ← Lean.Elab.Tactic.getMainGoal
  let some (_, a, _) := (← Lean.instantiateMVars (← g.getType)).eq? | throwError "not an equation"
  g.assign (← Lean.Meta.mkEqRefl a)
  Lean.Elab.Tactic.replaceMainGoal []

/-- Struct 0: `A int "a"`, `B string "b,omitempty"`, unexported `c int`, `D int "-"`, `E *int64 "e,string"`.
Struct 1: `Next *S1 "next"`, `N int "n"`. Struct 2: `X [2]int "x"`, `Y bool "y"`. Struct 3: `Any any "any"`.
Struct 4: an embedded struct 2. -/
def fields : Nat → List Field
  | 0 => [⟨[65], [97], true, false, .int .int⟩, ⟨[66], [98, 44, 111, 109, 105, 116, 101, 109, 112, 116, 121], true, false, .str⟩,
      ⟨[99], [], false, false, .int .int⟩, ⟨[68], [45], true, false, .int .int⟩,
      ⟨[69], [101, 44, 115, 116, 114, 105, 110, 103], true, false, .ptr (.int .i64)⟩]
  | 1 => [⟨[78, 101, 120, 116], [110, 101, 120, 116], true, false, .ptr (.struct 1)⟩, ⟨[78], [110], true, false, .int .int⟩]
  | 2 => [⟨[88], [120], true, false, .array 2 (.int .int)⟩, ⟨[89], [121], true, false, .bool⟩]
  | 3 => [⟨[65, 110, 121], [97, 110, 121], true, false, .any⟩]
  | 4 => [⟨[83], [], true, true, .struct 2⟩]
  | _ => []

/-- Declared type 0: an int with UnmarshalPHP. Declared type 1: `type T []T`. Declared type 2: `type A [1]A` behind a
pointer. Declared type 3: `type L struct 1`. Others: int. -/
def named : Nat → NamedInfo
  | 0 => ⟨.int .int, true, .none⟩
  | 1 => ⟨.slice (.named 1), false, .none⟩
  | 2 => ⟨.array 1 (.ptr (.named 2)), false, .none⟩
  | 3 => ⟨.struct 1, false, .none⟩
  | _ => ⟨.int .int, false, .none⟩

/-- Zero values of the struct types. -/
def structZero : Nat → Val
  | 0 => .struct [.int 0, .str [], .int 0, .int 0, .ptrNil]
  | 1 => .struct [.ptrNil, .int 0]
  | 2 => .struct [.arr [.int 0, .int 0], .bool false]
  | 3 => .struct [.ifaceNil]
  | 4 => .struct [.struct [.arr [.int 0, .int 0], .bool false]]
  | _ => .struct []

/-- Zero values of the declared types. -/
def namedZero : Nat → Val
  | 1 => .sliceNil
  | 2 => .arr [.ptrNil]
  | 3 => .struct [.ptrNil, .int 0]
  | _ => .int 0

/-- The demo world. `parseF64` knows one numeral; UnmarshalPHP of declared type 0 stores the length of its input. -/
def W : World where
  fields := fields
  named := named
  ifaceMar := fun _ => false
  elemSize := fun _ => 8
  structZero := structZero
  namedZero := namedZero
  parseF64 := fun s => if s = [48, 46, 53] then some 0x3FE0000000000000 else none
  toF32 := fun _ => 0x3F000000
  toF64 := fun _ => 0x3FE0000000000000
  fmtF64 := fun _ _ => [48, 46, 53]
  fmtF32 := fun _ _ => [48, 46, 53]
  wideOk := fun _ => false
  unmarshal := fun id s => if id = 0 then .ok (.int (s.length % 100)) else .err .invalidUnmarshal
  dynUnm := fun _ => false
  unmarshalDyn := fun _ v _ => (v, .ok ())

example : unmarshal W 3 [105,58,53,59] (.ptr (.int .i64) (.int 0)) = (some (.int 5), .ok ()) := by rfl
example : unmarshal W 3 (b! "a:2:{s:1:\"a\";i:7;s:1:\"b\";s:2:\"hi\";}") (.ptr (.struct 0) (structZero 0)) =
   (some (.struct [.int 7, .str (b! "hi"), .int 0, .int 0, .ptrNil]), .ok ()) := by rfl
end Verif.Demo

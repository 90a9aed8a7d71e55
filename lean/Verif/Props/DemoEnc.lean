import Verif.Props.Demo
import Verif.Proofs.Marshal
/-
A small memory used by the examples that accompany the properties of the encoder.
-/
namespace Verif.Demo
open Verif

/-- Arrays behind slices: bytes at 1000, ints at 1100, interfaces at 1200, structs at 1300. -/
def heapElems : Ty → Nat → Nat → List GV
  | .uint .u8, 1000, 3 => [.uint 34, .uint 59, .uint 122]
  | .int .int, 1100, 2 => [.int 7, .int (-8)]
  | .any, 1200, 3 => [.iface (.int .int) (.int 5), .ifaceNil, .iface (.slice (.int .int)) (.slice 1100 2)]
  | .struct 2, 1300, 1 => [.struct [.arr [.int 3, .int 4], .bool true]]
  | .slice (.int .int), 1400, 2 => [.sliceNil, .slice 1100 2]
  | _, _, _ => []

/-- Variables: an int64 at 2000, a list of two nodes from 3000, a node that points to itself at 3100, a struct at 3200. -/
def heapDeref : Ty → Nat → GV
  | .int .i64, 2000 => .int 42
  | .struct 1, 3000 => .struct [.ptr 3001, .int 1]
  | .struct 1, 3001 => .struct [.ptrNil, .int 2]
  | .struct 1, 3100 => .struct [.ptr 3100, .int 9]
  | .struct 0, 3200 => .struct [.int 7, .str [], .int 1, .int 2, .ptr 2000]
  | _, _ => .int 0

/-- Maps: two entries at 5000, delivered in reverse order when the map is met at the top of a value. -/
def heapIter : Ty → Ty → Path → Nat → List (GV × GV)
  | .str, .int .int, [], 5000 => [(.str (b! "l"), .int 2), (.str (b! "k"), .int 1)]
  | .str, .int .int, _, 5000 => [(.str (b! "k"), .int 1), (.str (b! "l"), .int 2)]
  | _, _, _, _ => []

/-- The demo memory. -/
def heap : Heap where
  deref := heapDeref
  elems := heapElems
  iter := heapIter
  marshal := fun _ _ => .ok (b! "i:1;")

/-- No type of the demo world is a Marshaler. -/
theorem noMarshaler (t : Ty) : W.marOf t = false := by
  have hn : ∀ id, (W.named id).mar = .none := fun id => by
    show (named id).mar = .none
    unfold named; split <;> rfl
  have hi : ∀ i, W.ifaceMar i = false := fun _ => rfl
  unfold World.marOf
  split
  · rw [hn]
    split <;> simp [hi]
  · rw [hn]; rfl
  · exact hi _
  · rfl

end Verif.Demo

import Verif.Proofs.Pointer
import Verif.Props.DemoDeep
/-
Pointers (C38). `MarshalGives W h (some (t, .ptr a)) r` is the result of `Marshal` for a pointer of type `t`, and
`MarshalGives W h (some (e, h.deref e a)) r` that for the value it points to.
-/
namespace Verif
open Spec

/-- C38, half of it: whatever `Marshal` writes for a non-nil pointer, it writes for the value the pointer points to. -/
theorem C38_value_partial (W : World) (h : Heap) (t e : Ty) (a : Nat) (hr : W.resolve t = .ptr e) (hm : W.marOf t = false) (hme : W.marOf e = false)
    (tx : Bytes) (hg : MarshalGives W h (some (t, .ptr a)) (.ok tx)) : MarshalGives W h (some (e, h.deref e a)) (.ok tx) := by
  obtain ⟨hs, he⟩ := marshalGives_ok_iff.1 hg
  obtain ⟨hse, -⟩ := (supported_ptr hr hm hme).1 hs
  exact marshalGives_ok_iff.2 ⟨hse, pointee_of_ptr hr hm hme he⟩

-- a list of two nodes
example : Demo.W.resolve (.ptr (.struct 1)) = .ptr (.struct 1) ∧ Demo.W.marOf (.ptr (.struct 1)) = false ∧ Demo.W.marOf (.struct 1) = false ∧
    MarshalGives Demo.W Demo.heap (some (.ptr (.struct 1), .ptr 3000))
      (.ok (b! "a:2:{s:4:\"next\";a:2:{s:4:\"next\";N;s:1:\"n\";i:2;}s:1:\"n\";i:1;}")) :=
  ⟨rfl, rfl, rfl, marshalGives_of (cf := 9) (f := 9) (by simp) (by rfl)⟩

/-- C38 for pointers to values other than structs and pointers: the same output. -/
theorem C38_pointer_partial (W : World) (h : Heap) (t e : Ty) (a : Nat) (hr : W.resolve t = .ptr e) (hm : W.marOf t = false) (hme : W.marOf e = false)
    (hp : W.isPtr e = false) (hst : W.isStruct e = false) (tx : Bytes) :
    MarshalGives W h (some (t, .ptr a)) (.ok tx) ↔ MarshalGives W h (some (e, h.deref e a)) (.ok tx) := by
  refine ⟨C38_value_partial W h t e a hr hm hme tx, fun hg => ?_⟩
  obtain ⟨hs, he⟩ := marshalGives_ok_iff.1 hg
  exact marshalGives_ok_iff.2 ⟨(supported_ptr hr hm hme).2 ⟨hs, hp⟩, ptr_of_pointee hr hm hme hp hst he⟩

example : Demo.W.resolve (.ptr (.int .i64)) = .ptr (.int .i64) ∧ Demo.W.marOf (.ptr (.int .i64)) = false ∧ Demo.W.marOf (.int .i64) = false ∧
    Demo.W.isPtr (.int .i64) = false ∧ Demo.W.isStruct (.int .i64) = false ∧ MarshalGives Demo.W Demo.heap (some (.ptr (.int .i64), .ptr 2000)) (.ok (b! "i:42;")) :=
  ⟨rfl, rfl, rfl, rfl, rfl, marshalGives_of (cf := 9) (f := 9) (by simp) (by rfl)⟩

/-- C38 for pointers to structs: the same output or the error for recursive values. Missing: that the error cannot occur;
it can, see below. -/
theorem C38_struct_partial (W : World) (h : Heap) (t e : Ty) (a : Nat) (hr : W.resolve t = .ptr e) (hm : W.marOf t = false) (hme : W.marOf e = false)
    (hst : W.isStruct e = true) (tx : Bytes) (hg : MarshalGives W h (some (e, h.deref e a)) (.ok tx)) :
    MarshalGives W h (some (t, .ptr a)) (.ok tx) ∨ MarshalGives W h (some (t, .ptr a)) (.err .recursive) := by
  obtain ⟨hs, he⟩ := marshalGives_ok_iff.1 hg
  refine marshalGives_of_encT ((supported_ptr hr hm hme).2 ⟨hs, struct_not_ptr hst⟩) (.ptrStruct hm hr hst trivial ?_)
  exact encT_any_stack (encC_encT (kind_of_typed hme (struct_not_ptr hst) (by rintro rfl; cases hst) he))

example : Demo.W.isStruct (.struct 1) = true ∧
    MarshalGives Demo.W Demo.heap (some (.struct 1, Demo.heap.deref (.struct 1) 3000))
      (.ok (b! "a:2:{s:4:\"next\";a:2:{s:4:\"next\";N;s:1:\"n\";i:2;}s:1:\"n\";i:1;}")) :=
  ⟨rfl, marshalGives_of (cf := 9) (f := 9) (by simp) (by rfl)⟩

/-- C38 is false for pointers to pointers: they are rejected. -/
theorem C38_nested_counterexample :
    let h : Heap := { Demo.heap with deref := fun | .ptr (.int .i64), 2001 => .ptr 2000 | t, a => Demo.heap.deref t a }
    MarshalGives Demo.W h (some (.ptr (.ptr (.int .i64)), .ptr 2001)) (.err (.unsupported "nested pointer")) ∧
    MarshalGives Demo.W h (some (.ptr (.int .i64), h.deref (.ptr (.int .i64)) 2001)) (.ok (b! "i:42;")) :=
  ⟨marshalGives_of (cf := 9) (f := 9) (by simp) (by rfl), marshalGives_of (cf := 9) (f := 9) (by simp) (by rfl)⟩

/-- C38 is false for pointers to structs: a list of 1001 nodes, the last of which contains a pointer to its own first field, is
written when passed by value, but rejected as recursive when passed by pointer. (The value is finite: the field pointed to
contains a number only.) -/
theorem C38_struct_counterexample :
    (∃ tx, MarshalGives Demo.WD Demo.heapD (some (.struct 20, Demo.heapD.deref (.struct 20) 0)) (.ok tx)) ∧
    MarshalGives Demo.WD Demo.heapD (some (.ptr (.struct 20), .ptr 0)) (.err .recursive) := by
  have hs : Supported Demo.WD (.struct 20) := ⟨9, _, by rfl⟩
  obtain ⟨tx, h1⟩ := Demo.list_ok 1000 (by omega) []
  have h2 : MarshalGives Demo.WD Demo.heapD (some (.struct 20, Demo.heapD.deref (.struct 20) 0)) (.ok tx) :=
    marshalGives_ok_iff.2 ⟨hs, .plain rfl (by simp) rfl h1⟩
  refine ⟨⟨tx, h2⟩, (C38_struct_partial _ _ _ _ _ rfl rfl rfl rfl _ h2).resolve_left fun h3 => ?_⟩
  obtain ⟨-, he⟩ := marshalGives_ok_iff.1 h3
  cases he with
  | marshaler a => cases a
  | plain _ _ a => cases a
  | ptrStruct _ h _ _ x => cases h; exact Demo.list_bad 1000 (by omega) [] tx x
  | ptrKind _ h a => cases h; cases a
  | ptrTyped _ h _ _ a => cases h; cases a
  | ptrIface _ h a => cases h; cases a

end Verif

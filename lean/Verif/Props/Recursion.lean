import Verif.Proofs.Acyclic
import Verif.Props.Pointers
import Verif.Props.DemoRec
import Verif.Props.Parts
/-
Recursive values (C29) and panics of Marshal (C49). `Part`, `Within` and `Inside` say what lies in a value, independently of the
encoder; `MarshalGives W h (some (t, v)) r` is the result of `Marshal`.
-/
namespace Verif
open Spec

/-! ### C29 -/

/-- C29 where addresses tell values apart: a value none of whose parts lies inside itself is not reported as recursive, however deep
it is and however much is shared in it. Missing: values in which different slices, maps or pointers have the same address, and
slices of other elements than interfaces held in interfaces at depths from 1000, see the counterexamples. -/
theorem C29_acyclic_partial (W : World) (h : Heap) (t : Ty) (v : GV) (hm : ∀ t v, h.marshal t v ≠ .err .recursive) (ha : Acyclic W h t v)
    (ht : AddressesTell W h t v) (hs : ShallowHeld W h t v) : ¬ MarshalGives W h (some (t, v)) (.err .recursive) :=
  noRepeat_not_recursive hm (noRepeat_of ha ht) hs

/-- C29 for values of less than 1000 levels without slices and maps in interfaces: never reported as recursive, whatever the
addresses. -/
theorem C29_shallow_partial (W : World) (h : Heap) (t : Ty) (v : GV) (hm : ∀ t v, h.marshal t v ≠ .err .recursive) (hs : Shallow W h t v) :
    ¬ MarshalGives W h (some (t, v)) (.err .recursive) :=
  shallow_not_recursive hm hs

-- a value with sharing
example : (∀ t v, Demo.heapS.marshal t v ≠ .err .recursive) ∧ Acyclic Demo.W Demo.heapS (.slice (.ptr (.struct 1))) (.slice 1 2) ∧
    AddressesTell Demo.W Demo.heapS (.slice (.ptr (.struct 1))) (.slice 1 2) ∧ ShallowHeld Demo.W Demo.heapS (.slice (.ptr (.struct 1))) (.slice 1 2) ∧
    MarshalGives Demo.W Demo.heapS (some (.slice (.ptr (.struct 1)), .slice 1 2))
      (.ok (b! "a:2:{i:0;a:2:{s:4:\"next\";N;s:1:\"n\";i:2;}i:1;a:2:{s:4:\"next\";N;s:1:\"n\";i:2;}}")) := by
  refine ⟨by simp [Demo.heapS, Demo.heap], acyclic_of_rank (S := Demo.Shared) (fun _ v => Demo.rankS v) Demo.shared_part (by simp [Demo.Shared]), ?_, ?_,
    marshalGives_of (cf := 9) (f := 9) (by simp) (by rfl)⟩
  · intro t1 v1 t2 v2 a h1 h2 h3 h4
    exfalso
    have h5 := Demo.shared_within h1
    obtain ⟨h6, h7⟩ := Demo.shared_rank h5 h2
    rcases h5 with ⟨rfl, rfl⟩ | ⟨rfl, rfl | rfl⟩ | ⟨rfl, rfl⟩ | ⟨rfl, rfl⟩ <;> rcases h6 with ⟨rfl, rfl⟩ | ⟨rfl, rfl | rfl⟩ | ⟨rfl, rfl⟩ | ⟨rfl, rfl⟩ <;>
      simp [Demo.rankS] at h7
    · generalize hs : GV.slice 1 2 = s at h3
      cases h3 with
      | slice => subst hs; cases h4
      | map hr => cases hr
      | ptr hr => cases hr
    all_goals cases h4 <;> rename_i hr <;> cases hr
  · rintro n t v e ⟨ti, dt, dv, h1, h2, -⟩ - -
    have := Demo.shared_within (below_within h2)
    rcases this with ⟨rfl, h⟩ | ⟨rfl, h | h⟩ | ⟨rfl, h⟩ | ⟨rfl, h⟩ <;> cases h

-- the same value: all levels are below 1000, no interfaces
example : Shallow Demo.W Demo.heapS (.slice (.ptr (.struct 1))) (.slice 1 2) := by
  have lvl : ∀ n t v t' v', Demo.Shared t v → Below Demo.W Demo.heapS n t v t' v' → n ≤ Demo.rankS v := by
    intro n t v t' v' hs hb
    induction hb with
    | refl => omega
    | inner _ hp _ ih => have h1 := Demo.shared_part _ _ _ _ hs hp; have := ih h1.1; omega
    | same _ hp _ ih => have h1 := Demo.shared_part _ _ _ _ hs hp; have := ih h1.1; omega
  refine ⟨fun n t v hb _ => ?_, ?_⟩
  · have := lvl _ _ _ _ _ (by simp [Demo.Shared]) hb
    simp only [Demo.rankS] at this
    omega
  · rintro n t v ⟨ti, dt, dv, h1, h2, -⟩
    have := Demo.shared_within (below_within h2)
    rcases this with ⟨rfl, h⟩ | ⟨rfl, h | h⟩ | ⟨rfl, h⟩ | ⟨rfl, h⟩ <;> cases h

/-- C29 is false in general: with `x := []any{1, nil}; x[1] = x[:1]`, `[]any{x}` is finite and acyclic, as `x[:1]` contains
only the number, but `Marshal` reports it as recursive because `x` and `x[:1]` have the same address. -/
theorem C29_slice_counterexample : Acyclic Demo.W Demo.heapA (.slice .any) (.slice 1800 1) ∧
    MarshalGives Demo.W Demo.heapA (some (.slice .any, .slice 1800 1)) (.err .recursive) :=
  ⟨acyclic_of_rank (S := Demo.InA) (fun _ v => Demo.rankA v) Demo.inA_part (by simp [Demo.InA]),
    marshalGives_of (cf := 9) (f := 9) (by simp) (by rfl)⟩

/-- C29 is false for pointers at depths above 1000: in the list of C38_struct_counterexample the last node has a pointer to its own first field,
in which there is a number only. -/
theorem C29_pointer_counterexample : Acyclic Demo.WD Demo.heapD (.ptr (.struct 20)) (.ptr 0) ∧
    MarshalGives Demo.WD Demo.heapD (some (.ptr (.struct 20), .ptr 0)) (.err .recursive) :=
  ⟨acyclic_of_rank (S := Demo.InD) Demo.rankD Demo.inD_part (.inl ⟨rfl, 0, by omega, rfl⟩), C38_struct_counterexample.2⟩

/-- C29 is false for slices held in interfaces at depths from 1000: a list of 1001 nodes, the last of which holds `[]int{7}` in a field of type
`any`, is reported as recursive, because the address of the slice is remembered when the interface is met and met again when the
slice is. (The value does not depend on how its memory is laid out: all addresses are different.) -/
theorem C29_held_counterexample : Acyclic Demo.WL Demo.heapH (.ptr (.struct 22)) (.ptr 0) ∧ AddressesTell Demo.WL Demo.heapH (.ptr (.struct 22)) (.ptr 0) ∧
    MarshalGives Demo.WL Demo.heapH (some (.ptr (.struct 22), .ptr 0)) (.err .recursive) := by
  refine ⟨acyclic_of_rank (S := Demo.InH) Demo.rankH Demo.inH_part (.inl ⟨rfl, 0, by omega, rfl⟩), Demo.inH_tell, ?_⟩
  obtain ⟨tx, h1⟩ := Demo.listH_all 1000 (by omega) []
  refine (marshalGives_of_encT ⟨9, _, by rfl⟩ (.ptrStruct rfl rfl rfl trivial h1)).resolve_left fun h3 => ?_
  obtain ⟨-, he⟩ := marshalGives_ok_iff.1 h3
  cases he with
  | marshaler a => cases a
  | plain _ _ a => cases a
  | ptrStruct _ h _ _ x => cases h; exact Demo.listH_bad 1000 (by omega) [] _ x
  | ptrKind _ h a => cases h; cases a
  | ptrTyped _ h _ _ a => cases h; cases a
  | ptrIface _ h a => cases h; cases a

/-! ### C49 -/

/-- C49: on values that have the form of their types, as all Go values do, `Marshal` panics only if a MarshalPHP method does, or if
such a method is called on a nil interface or, with a value receiver, on a nil pointer. -/
theorem C49_panics (W : World) (h : Heap) (t : Ty) (v : GV) (hw : WellFormed W h t v) (p : Panic) (hg : MarshalGives W h (some (t, v)) (.panic p)) :
    ∃ t' v', Within W h t v t' v' ∧ HasMarshal W t' ∧
      (NilCall W t' v' ∨ h.marshal t' v' = .panic p ∨ ∃ dt dv, v' = .iface dt dv ∧ h.marshal dt dv = .panic p) := by
  obtain ⟨-, n, hn⟩ := hg
  obtain ⟨z, h1, -, h2, h3⟩ := marshal_panics hw (hn n n (Nat.le_refl _) (Nat.le_refl _))
  refine ⟨z.t, z.v, visits_within h1, marOf_iff.1 h2, ?_⟩
  rcases h3 with h3 | ⟨t', v', ⟨rfl, rfl⟩ | h3, h4⟩
  · exact .inl h3
  · exact .inr (.inl h4)
  · exact .inr (.inr ⟨t', v', h3, h4⟩)

-- a list of two nodes, and that it has no methods
example : WellFormed Demo.W Demo.heapS (.slice (.ptr (.struct 1))) (.slice 1 2) := by
  intro t v hw
  rcases Demo.shared_within hw with ⟨rfl, rfl⟩ | ⟨rfl, rfl | rfl⟩ | ⟨rfl, rfl⟩ | ⟨rfl, rfl⟩
  · exact .slice rfl
  · exact .ptr rfl
  · exact .ptrNil rfl
  · exact .struct rfl rfl
  · exact .int rfl

/-- C49 without methods: no panics. -/
theorem C49_no_methods (W : World) (h : Heap) (t : Ty) (v : GV) (hw : WellFormed W h t v) (hn : ∀ t' v', Within W h t v t' v' → ¬ HasMarshal W t')
    (p : Panic) : ¬ MarshalGives W h (some (t, v)) (.panic p) := by
  intro hg
  obtain ⟨t', v', h1, h2, -⟩ := C49_panics W h t v hw p hg
  exact hn t' v' h1 h2

/-- A nil pointer whose type has MarshalPHP with a value receiver makes `Marshal` panic. -/
theorem C49_nil_call : WellFormed Demo.WM Demo.heapM (.ptr (.named 10)) .ptrNil ∧
    MarshalGives Demo.WM Demo.heapM (some (.ptr (.named 10), .ptrNil)) (.panic .nilDeref) := by
  refine ⟨fun t v hw => ?_, marshalGives_of (cf := 9) (f := 9) (by simp) (by rfl)⟩
  have := closed_within (S := fun t v => t = .ptr (.named 10) ∧ v = .ptrNil) (fun t v t' v' hs hp => by obtain ⟨rfl, rfl⟩ := hs; cases hp) ⟨rfl, rfl⟩ hw
  obtain ⟨rfl, rfl⟩ := this
  exact .ptrNil rfl

end Verif

import Verif.Proofs.Again
import Verif.Props.Any
import Verif.Props.RoundTrip
/-
C40: what `Unmarshal` puts into an empty interface, given to `Marshal`, and the text decoded again.
-/
namespace Verif
open Spec

/-- C40 for texts without arrays: if `Unmarshal` into `any` succeeds and the value contains no `map[any]any`, then `Marshal` of the
value succeeds, and decoding that text succeeds with the same value, except that every `map[string]any` comes back as a
`map[any]any` with the same entries (`Again`). `Stored` says how the value lies in memory; the functions of strconv
are trusted for the numbers in it. What is missing for C40: arrays are rejected (`C40_array_partial`), objects change their type
(`C40_object_counterexample`). -/
theorem C40_objects_partial (W : World) (fuel : Nat) (data : Bytes) (hb : data.length < 2 ^ 63) (old v : Val)
    (hu : unmarshal W (fuel + 1) data (.ptr .any old) = (some v, .ok ())) (hna : ¬ HasArray v)
    (h : Heap) (g : GV) (hst : Stored h [] v g) (hflt : ∀ x, HasFloat x v → Finite64 x → Faithful64 W x) :
    ∃ tx, MarshalGives W h (argument g) (.ok tx) ∧
      (tx.length < 2 ^ 63 → ∃ w, unmarshal W (fuel + 1) tx (.ptr .any old) = (some w, .ok ()) ∧ Again v w) := by
  obtain ⟨d, rfl, h1, h2⟩ := (C14_any_exact W fuel data hb old v).1 hu
  obtain ⟨tx, h3, d', w, rfl, h4, h5, h6⟩ := stored_marshal hst hflt (shape_of h1 h2) hna
  exact ⟨_, h3, fun hl => ⟨w, (C14_any_exact W fuel _ hl old w).2 ⟨d', rfl, h5 hl, h4⟩, h6⟩⟩

/-- C40 for texts with arrays: `Marshal` returns no text for a value that contains a `map[any]any`, whatever the world, the
memory and the place in the value. -/
theorem C40_array_partial (W : World) (h : Heap) (v : Val) (g : GV) (hst : Stored h [] v g) (ha : HasArray v) (tx : Bytes) :
    ¬ MarshalGives W h (argument g) (.ok tx) := array_marshal ha hst

/-- A memory with a `map[string]any` of three entries at 6000, one of them the `map[string]any` at 6001; its entries are delivered
in another order when it is met at the top. At 6002 there is a `map[any]any`, at 6003 a `map[string]any` that holds it. -/
def Demo.anyHeap : Heap := { Demo.heap with
  iter := fun k _ p a =>
    match k, p, a with
    | .str, [], 6000 => [(.str (b! "c"), .iface (.map .str .any) (.map 6001)), (.str (b! "a"), .iface (.int .i64) (.int 5)), (.str (b! "b"), .ifaceNil)]
    | .str, _, 6000 => [(.str (b! "a"), .iface (.int .i64) (.int 5)), (.str (b! "b"), .ifaceNil), (.str (b! "c"), .iface (.map .str .any) (.map 6001))]
    | .str, _, 6001 => [(.str (b! "f"), .iface .f64 (.f64 0x3FE0000000000000))]
    | .any, _, 6002 => [(.iface (.int .i64) (.int 0), .iface (.int .i64) (.int 1))]
    | .str, _, 6003 => [(.str (b! "x"), .iface (.map .any .any) (.map 6002))]
    | _, _, _ => [] }

/-- The contents of the map at 6000. -/
def Demo.anyObject : Val := .iface (.map .str .any) (.map [(.str (b! "a"), .iface (.int .i64) (.int 5)), (.str (b! "b"), .ifaceNil),
  (.str (b! "c"), .iface (.map .str .any) (.map [(.str (b! "f"), .iface .f64 (.f64 0x3FE0000000000000))]))])

/-- The demo world, with a format for floats. -/
def Demo.WA : World := { Demo.WF with fmtF64 := fun _ _ => b! "0.5" }

theorem Demo.any_stored : Stored Demo.anyHeap [] Demo.anyObject (.iface (.map .str .any) (.map 6000)) := by
  refine .obj (gs := [(.str (b! "a"), .iface (.int .i64) (.int 5)), (.str (b! "b"), .ifaceNil), (.str (b! "c"), .iface (.map .str .any) (.map 6001))])
    (by simp) rfl (fun p => ?_) ?_ ?_
  · cases p with
    | nil => exact (List.Perm.swap _ _ _).trans (.cons _ (.swap _ _ _))
    | cons => exact .refl _
  · intro i x y h1 h2
    rcases i with _ | _ | _ | i <;> first | (cases h1; cases h2; exact ⟨_, rfl, rfl⟩) | simp at h1
  · intro i x y h1 h2
    rcases i with _ | _ | _ | i
    · cases h1; cases h2; exact .int
    · cases h1; cases h2; exact .nil
    · cases h1; cases h2
      refine .obj (gs := [(.str (b! "f"), .iface .f64 (.f64 0x3FE0000000000000))]) (by decide) rfl (fun p => .of_eq (by cases p <;> rfl)) ?_ ?_
      · intro i x y h1 h2
        rcases i with _ | i
        · cases h1; cases h2; exact ⟨_, rfl, rfl⟩
        · simp at h1
      · intro i x y h1 h2
        rcases i with _ | i
        · cases h1; cases h2; exact .float
        · simp at h1
    · simp at h1

/-- The hypotheses of `C40_objects_partial` can be met, and its conclusion seen. -/
example : unmarshal Demo.WA 1 (b! "O:8:\"stdClass\":3:{s:1:\"a\";i:5;s:1:\"b\";N;s:1:\"c\";O:1:\"A\":1:{s:1:\"f\";d:0.5;}}") (.ptr .any .ifaceNil) =
      (some Demo.anyObject, .ok ()) ∧ ¬ HasArray Demo.anyObject ∧ Stored Demo.anyHeap [] Demo.anyObject (.iface (.map .str .any) (.map 6000)) ∧
    (∀ x, HasFloat x Demo.anyObject → Faithful64 Demo.WA x) ∧
    MarshalGives Demo.WA Demo.anyHeap (some (.map .str .any, .map 6000))
      (.ok (b! "a:3:{s:1:\"c\";a:1:{s:1:\"f\";d:0.5;}s:1:\"a\";i:5;s:1:\"b\";N;}")) := by
  refine ⟨by krfl, fun h => ?_, Demo.any_stored, fun x h => ?_, marshalGives_of (cf := 9) (f := 9) (by simp) (by krfl)⟩
  · cases h with
    | inside hm hv =>
      simp at hm
      rcases hm with ⟨-, rfl⟩ | ⟨-, rfl⟩ | ⟨-, rfl⟩
      · cases hv
      · cases hv
      · cases hv with
        | inside hm hv => simp at hm; obtain ⟨-, rfl⟩ := hm; cases hv
  · cases h with
    | inside hm hv =>
      simp at hm
      rcases hm with ⟨-, rfl⟩ | ⟨-, rfl⟩ | ⟨-, rfl⟩
      · cases hv
      · cases hv
      · cases hv with
        | inside hm hv =>
          simp at hm
          obtain ⟨-, rfl⟩ := hm
          cases hv
          intro txt ht
          rw [fmtText64_iff.1 ht]
          exact ⟨⟨by decide, by decide, by unfold SpecialName; decide⟩, rfl⟩

/-- C40 is false: an array becomes a `map[any]any`, which `Marshal` rejects, also inside an object. -/
theorem C40_array_counterexample :
    unmarshal Demo.WA 1 (b! "a:1:{i:0;i:1;}") (.ptr .any .ifaceNil) =
      (some (.iface (.map .any .any) (.map [(.iface (.int .i64) (.int 0), .iface (.int .i64) (.int 1))])), .ok ()) ∧
    MarshalGives Demo.WA Demo.anyHeap (some (.map .any .any, .map 6002)) (.err (.unsupported "map key")) ∧
    unmarshal Demo.WA 1 (b! "O:1:\"A\":1:{s:1:\"x\";a:1:{i:0;i:1;}}") (.ptr .any .ifaceNil) =
      (some (.iface (.map .str .any) (.map [(.str (b! "x"), .iface (.map .any .any) (.map [(.iface (.int .i64) (.int 0), .iface (.int .i64) (.int 1))]))])), .ok ()) ∧
    MarshalGives Demo.WA Demo.anyHeap (some (.map .str .any, .map 6003)) (.err (.unsupported "map key")) :=
  ⟨by krfl, marshalGives_of (cf := 9) (f := 9) (by simp) (by krfl), by krfl, marshalGives_of (cf := 9) (f := 9) (by simp) (by krfl)⟩

/-- C40 is false: an object comes back as an array, so with another type, and the second result cannot be marshalled any more. -/
theorem C40_object_counterexample :
    unmarshal Demo.WA 1 (b! "O:1:\"A\":1:{s:1:\"f\";d:0.5;}") (.ptr .any .ifaceNil) =
      (some (.iface (.map .str .any) (.map [(.str (b! "f"), .iface .f64 (.f64 0x3FE0000000000000))])), .ok ()) ∧
    MarshalGives Demo.WA Demo.anyHeap (some (.map .str .any, .map 6001)) (.ok (b! "a:1:{s:1:\"f\";d:0.5;}")) ∧
    unmarshal Demo.WA 1 (b! "a:1:{s:1:\"f\";d:0.5;}") (.ptr .any .ifaceNil) =
      (some (.iface (.map .any .any) (.map [(.iface .str (.str (b! "f")), .iface .f64 (.f64 0x3FE0000000000000))])), .ok ()) :=
  ⟨by krfl, marshalGives_of (cf := 9) (f := 9) (by simp) (by krfl), by krfl⟩

/-- The hypotheses of `C40_array_partial` can be met. -/
example : Stored Demo.anyHeap [] (.iface (.map .any .any) (.map [(.iface (.int .i64) (.int 0), .iface (.int .i64) (.int 1))])) (.iface (.map .any .any) (.map 6002)) ∧
    HasArray (.iface (.map .any .any) (.map [(.iface (.int .i64) (.int 0), .iface (.int .i64) (.int 1))])) := by
  refine ⟨.arr (gs := [(.iface (.int .i64) (.int 0), .iface (.int .i64) (.int 1))]) (by simp) rfl (fun p => .of_eq (by cases p <;> rfl)) ?_ ?_, .here⟩
  all_goals
    intro i x y h1 h2
    rcases i with _ | i
    · cases h1; cases h2; exact .int
    · simp at h1

end Verif

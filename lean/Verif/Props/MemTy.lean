import Verif.Proofs.MemSame
import Verif.Props.Share
import Verif.Props.Safety
/-
C62: decoding into a well-typed memory in which anything may be shared and references may form cycles.
-/
namespace Verif
open Spec

/-- C62: a well-typed memory stays well-typed, whatever is shared in it and whatever the input is. Objects keep their types, and new ones may join. In
particular, everything that the place given to `Unmarshal` refers to afterwards exists and has the right type. This holds as well when decoding
fails or panics. -/
theorem C62_typed (W : World) (D : Ty → Prop) (hW : WorldOk W D) (hD : ∀ t, Documented t → D t) (U : Methods) (hU : TypedMethods W D U)
    (fuel : Nat) (data : Bytes) (t : Ty) (S : List ObjTy) (m : Mem) (l : Loc) (hm : MemTy W D S m) (hl : PlaceTy W S l t) :
    ∃ S', S <+: S' ∧ MemTy W D S' (unmarshalMem W U fuel data t l m).1 := unmarshalMem_keeps hW hD hU hm hl

/-- The outcome of decoding does not depend on what is shared: it is that of decoding into any valid tree of the type, for instance the zero value.
Interfaces with methods are excluded because what they hold decides what decoding does. -/
theorem C62_outcome (W : World) (D : Ty → Prop) (hW : WorldOk W D) (hz : FlatZeros W) (hD : ∀ t, Documented t → D t) (U : Methods)
    (hU : TypedMethods W D U) (hc : Confined U) (hs : SameOutcome W U) (fuel : Nat) (data : Bytes) (t : Ty)
    (hi : ∀ t' i, Reach W t t' → ¬ Plain W t' (.iface i)) (S : List ObjTy) (m : Mem) (l : Loc) (hm : MemTy W D S m) (hl : PlaceTy W S l t)
    (v : Val) (hv : HasTy W D t v) : (unmarshalMem W U fuel data t l m).2 = (unmarshal W fuel data (.ptr t v)).2 :=
  unmarshalMem_same hW hz hD hU hc hs hi hm hl hv

/-- So sharing and cycles add no panics to those of C10. -/
theorem C62_panics (W : World) (D : Ty → Prop) (hW : WorldOk W D) (hz : FlatZeros W) (hD : ∀ t, Documented t → D t) (hR : UserReturns W) (U : Methods)
    (hU : TypedMethods W D U) (hc : Confined U) (hs : SameOutcome W U) (fuel : Nat) (data : Bytes) (hb : data.length < 2 ^ 63) (t : Ty)
    (hi : ∀ t' i, Reach W t t' → ¬ Plain W t' (.iface i)) (S : List ObjTy) (m : Mem) (l : Loc) (hm : MemTy W D S m) (hl : PlaceTy W S l t)
    (p : Panic) (h : (unmarshalMem W U fuel data t l m).2 = .panic p) : PanicCause W t data p := by
  rw [C62_outcome W D hW hz hD U hU hc hs fuel data t hi S m l hm hl (W.zero t) (zero_hasTy hW t)] at h
  exact C10_panics_listed W D hW hD hR t data hb fuel (W.zero t) (zero_hasTy hW t) p h

/-- And they do not keep decoding from ending: the nesting needed depends on the type only, as in C11. -/
theorem C62_terminates (W : World) (D : Ty → Prop) (hW : WorldOk W D) (hz : FlatZeros W) (hD : ∀ t, Documented t → D t) (hR : UserReturns W)
    (U : Methods) (hU : TypedMethods W D U) (hc : Confined U) (hs : SameOutcome W U) (t : Ty) (hg : StructGuarded W t)
    (hi : ∀ t' i, Reach W t t' → ¬ Plain W t' (.iface i)) :
    ∃ fuel0, ∀ fuel, fuel0 ≤ fuel → ∀ (data : Bytes), data.length < 2 ^ 63 → ∀ S m l, MemTy W D S m → PlaceTy W S l t →
      (unmarshalMem W U fuel data t l m).2 ≠ .diverge := by
  obtain ⟨f0, h0⟩ := C11_terminates_partial W D hW hD hR t hg
  refine ⟨f0, fun fuel hf data hb S m l hm hl => ?_⟩
  rw [C62_outcome W D hW hz hD U hU hc hs fuel data t hi S m l hm hl (W.zero t) (zero_hasTy hW t)]
  exact h0 fuel hf data hb (W.zero t) (zero_hasTy hW t)

namespace Demo

theorem demo_typed (D : Ty → Prop) : TypedMethods W D U where
  fresh S m id s h := by
    refine ⟨S, List.prefix_refl _, h, ?_⟩
    intro g hg
    simp only [U] at hg
    split at hg
    · rename_i hid
      subst hid
      cases hg
      exact .int (k := .int) rfl (by constructor <;> simp [intMax] <;> omega)
    · cases hg
  held S m t g s h _ := ⟨S, List.prefix_refl _, h⟩

theorem demo_outcome : SameOutcome W U := by
  intro id s m
  simp only [U, W]
  split <;> rename_i h1 h2
  · split at h1 <;> cases h1
    simp_all
    subst h2
    rfl
  all_goals split at h1 <;> simp_all

/-- The types of the objects of `knot`. -/
def knotTys : List ObjTy := [.var (.array 2 (.struct 1)), .var (.int .int)]

theorem knot_typed (D : Ty → Prop) : MemTy W D knotTys knot where
  length := rfl
  cells a o c ho hc := by
    rcases a with _ | _ | a
    · cases ho
      cases hc
      refine .var (.arr rfl rfl ?_)
      intro h hh
      simp only [List.mem_cons, List.not_mem_nil, or_false] at hh
      rcases hh with rfl | rfl
      · refine .struct (id := 1) rfl rfl ?_
        intro i f h hf hh
        rcases i with _ | _ | i
        · cases hf; cases hh
          exact .ptr rfl ⟨_, rfl, .elem (n := 2) rfl (by omega) (.here rfl)⟩
        · cases hf; cases hh
          exact .int (k := .int) rfl (by constructor <;> decide)
        · cases hh
      · refine .struct (id := 1) rfl rfl ?_
        intro i f h hf hh
        rcases i with _ | _ | i
        · cases hf; cases hh
          exact .ptrNil rfl
        · cases hf; cases hh
          exact .int (k := .int) rfl (by constructor <;> decide)
        · cases hh
    · cases ho
      cases hc
      exact .var (.int (k := .int) rfl (by constructor <;> decide))
    · cases hc

theorem knot_place : PlaceTy W knotTys ⟨0, [0]⟩ (.struct 1) := ⟨_, rfl, .elem (n := 2) rfl (by omega) (.here rfl)⟩

theorem list_plain : ∀ t' i, Reach W (.struct 1) t' → ¬ Plain W t' (.iface i) := by
  intro t' i h hp
  rcases demo_list_types t' h with rfl | rfl | rfl <;> exact absurd hp.2 (by simp [World.resolve])

example := C62_typed W Documented (demo_ok _) (fun _ h => h) U (demo_typed _) 9 (b! "a:1:{s:4:\"next\";a:1:{s:4:\"next\";N;}}") (.struct 1) knotTys
  knot ⟨0, [0]⟩ (knot_typed _) knot_place

/-- The pointer to the node itself is set to nil on the way, and decoding goes on with the node. -/
example : (unmarshalMem W U 9 (b! "a:2:{s:4:\"next\";a:1:{s:4:\"next\";N;}s:1:\"n\";i:5;}") (.struct 1) ⟨0, [0]⟩ knot).1[0]? =
    some (.var (.arr [.struct [.ptrNil, .int 5], .struct [.ptrNil, .int 2]])) := by krfl

example (data : Bytes) : (unmarshalMem W U 9 data (.struct 1) ⟨0, [0]⟩ knot).2 = (unmarshal W 9 data (.ptr (.struct 1) (structZero 1))).2 :=
  C62_outcome W Documented (demo_ok _) demo_zeros (fun _ h => h) U (demo_typed _) demo_confined demo_outcome 9 data _ list_plain knotTys knot _ (knot_typed _)
    knot_place _ ((demo_ok _).structZero 1)

example := C62_panics W Documented (demo_ok _) demo_zeros (fun _ h => h) demo_user U (demo_typed _) demo_confined demo_outcome 9 (b! "a:0:{}") (by decide)
  (.struct 1) list_plain knotTys knot ⟨0, [0]⟩ (knot_typed _) knot_place

example := C62_terminates W Documented (demo_ok _) demo_zeros (fun _ h => h) demo_user U (demo_typed _) demo_confined demo_outcome (.struct 1)
  demo_list_guarded list_plain

end Demo
end Verif

import Verif.Props.Demo
import Verif.Proofs.Safety
/-
The demo world meets the assumptions made about worlds.
-/
namespace Verif.Demo
open Verif Spec

theorem demo_struct {D : Ty → Prop} {id : Nat} {vs : List Val} (hl : vs.length = (W.fields id).length)
    (h : ∀ p ∈ (W.fields id).zip vs, HasTy W D p.1.ty p.2) : HasTy W D (.struct id) (.struct vs) := by
  refine .struct rfl hl fun i f v hf hv => ?_
  have : ((W.fields id).zip vs)[i]? = some (f, v) := by
    rw [List.getElem?_zip_eq_some]; exact ⟨hf, hv⟩
  exact h _ (List.mem_of_getElem? this)

theorem demo_ok (D : Ty → Prop) : WorldOk W D where
  namedOk := by
    intro id n
    show (named id).under ≠ _
    unfold named
    split <;> simp
  structZero := by
    have h0 : ∀ k : IKind, InRange k 0 := inRange_zero
    have hs2 : HasTy W D (.struct 2) (.struct [.arr [.int 0, .int 0], .bool false]) := by
      refine demo_struct rfl fun p hp => ?_
      simp [W, fields] at hp
      rcases hp with rfl | rfl
      · exact .arr (n := 2) rfl rfl (by simp; exact .int rfl (h0 _))
      · exact .bool rfl
    intro id
    show HasTy W D (.struct id) (structZero id)
    unfold structZero
    split
    · refine demo_struct rfl fun p hp => ?_
      simp [W, fields] at hp
      rcases hp with rfl | rfl | rfl | rfl | rfl
      · exact .int rfl (h0 _)
      · exact .str rfl
      · exact .int rfl (h0 _)
      · exact .int rfl (h0 _)
      · exact .ptrNil rfl
    · refine demo_struct rfl fun p hp => ?_
      simp [W, fields] at hp
      rcases hp with rfl | rfl
      · exact .ptrNil rfl
      · exact .int rfl (h0 _)
    · exact hs2
    · refine demo_struct rfl fun p hp => ?_
      simp [W, fields] at hp
      subst hp
      exact .anyNil rfl
    · refine demo_struct rfl fun p hp => ?_
      simp [W, fields] at hp
      subst hp
      exact hs2
    · rename_i h0 h1 h2 h3 h4
      have : W.fields id = [] := by
        show fields id = []
        unfold fields
        split <;> first | rfl | exact absurd rfl ‹_›
      refine demo_struct (by rw [this]; rfl) fun p hp => ?_
      rw [this] at hp; cases hp
  namedZero := by
    intro id
    have hf : ∀ {id}, (id = 1 → False) → (id = 2 → False) → (id = 3 → False) → HasTy W D (.named id) (.int 0) := by
      intro id h1 h2 h3
      refine .int (k := .int) ?_ (inRange_zero _)
      show (named id).under = _
      unfold named
      split <;> first | rfl | (exfalso; simp_all)
    show HasTy W D (.named id) (namedZero id)
    unfold namedZero
    split
    · exact .sliceNil rfl
    · exact .arr (n := 1) rfl rfl (by simp; exact .ptrNil rfl)
    · refine .struct (id := 1) rfl rfl ?_
      intro i f v hf hv
      have hh : HasTy W D (.struct 1) (.struct [.ptrNil, .int 0]) := by
        refine demo_struct rfl fun p hp => ?_
        simp [W, fields] at hp
        rcases hp with rfl | rfl
        · exact .ptrNil rfl
        · exact .int rfl (inRange_zero _)
      cases hh with
      | struct hr hl h =>
        cases hr
        exact h i f v hf hv
    · rename_i h1 h2 h3
      exact hf h1 h2 h3
  ifaceZero := by
    intro id i h
    exfalso
    revert h
    show (named id).under = _ → _
    unfold named
    split <;> simp
  unmarshal := by
    intro id s v h
    simp only [W] at h
    split at h
    · rename_i h0
      subst h0
      cases h
      refine .int (k := .int) rfl ?_
      simp [InRange, intMax]
      omega
    · cases h
  unmarshalDyn := by
    intro t v s h
    exact h

theorem demo_user : UserReturns W where
  unmarshal := by
    intro id s
    simp only [W]
    split <;> trivial
  dyn := fun _ _ _ => trivial

end Verif.Demo

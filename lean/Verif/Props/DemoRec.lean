import Verif.Proofs.Acyclic
import Verif.Props.DemoDeep
/-
Values used by the examples and counterexamples about recursion.
-/
namespace Verif
open Spec

namespace Demo

/-- The values in a slice of two pointers to the same node. -/
def Shared (t : Ty) (v : GV) : Prop :=
  (t = .slice (.ptr (.struct 1)) ∧ v = .slice 1 2) ∨ (t = .ptr (.struct 1) ∧ (v = .ptr 3001 ∨ v = .ptrNil)) ∨
  (t = .struct 1 ∧ v = .struct [.ptrNil, .int 2]) ∨ (t = .int .int ∧ v = .int 2)

/-- Memory with a slice of two pointers to the same node. -/
def heapS : Heap := { heap with elems := fun | .ptr (.struct 1), 1, 2 => [.ptr 3001, .ptr 3001] | _, _, _ => [] }

def rankS : GV → Nat
  | .slice _ _ => 4
  | .ptr _ => 3
  | .ptrNil => 0
  | .struct _ => 2
  | _ => 0

theorem shared_part (t : Ty) (v : GV) (t' : Ty) (v' : GV) (hs : Shared t v) (hp : Part W heapS t v t' v') : Shared t' v' ∧ rankS v' < rankS v := by
  rcases hs with ⟨rfl, rfl⟩ | ⟨rfl, rfl | rfl⟩ | ⟨rfl, rfl⟩ | ⟨rfl, rfl⟩
  · cases hp with
    | slice hr hm =>
      cases hr
      have : v' = .ptr 3001 := by simpa [heapS] using hm
      subst this
      exact ⟨by simp [Shared], by simp [rankS]⟩
  · cases hp with
    | ptr hr => cases hr; exact ⟨by simp [Shared, heapS, heap, heapDeref], by simp [rankS, heapS, heap, heapDeref]⟩
  · cases hp
  · cases hp with
    | @field id vs f _ i hr h2 h3 h4 h5 =>
      cases hr
      rcases i with _ | _ | i
      · cases h2; cases h3; exact ⟨by simp [Shared], by simp [rankS]⟩
      · cases h2; cases h3; exact ⟨by simp [Shared], by simp [rankS]⟩
      · simp at h3
  · cases hp

theorem shared_within {t : Ty} {v : GV} (hw : Within W heapS (.slice (.ptr (.struct 1))) (.slice 1 2) t v) : Shared t v :=
  closed_within (fun t v t' v' a b => (shared_part t v t' v' a b).1) (by simp [Shared]) hw

theorem shared_rank {t t' : Ty} {v v' : GV} (hs : Shared t v) (hw : Inside W heapS t v t' v') : Shared t' v' ∧ rankS v' < rankS v := by
  obtain ⟨t1, v1, h1, h2⟩ := hw
  have h3 := shared_part _ _ _ _ hs h1
  clear h1 hs
  induction h2 with
  | refl => exact h3
  | step a _ ih => have h4 := shared_part _ _ _ _ h3.1 a; exact ih ⟨h4.1, by omega⟩

end Demo

namespace Demo

/-- Memory after `x := []any{1, nil}; x[1] = x[:1]`, with `x` at 1700 and `[]any{x}` at 1800. -/
def heapA : Heap where
  deref := fun _ _ => .int 0
  elems := fun
    | .any, 1800, 1 => [.iface (.slice .any) (.slice 1700 2)]
    | .any, 1700, 2 => [.iface (.int .int) (.int 1), .iface (.slice .any) (.slice 1700 1)]
    | .any, 1700, 1 => [.iface (.int .int) (.int 1)]
    | _, _, _ => []
  iter := fun _ _ _ _ => []
  marshal := fun _ _ => .ok []

/-- The values in `[]any{x}`. -/
def InA (t : Ty) (v : GV) : Prop :=
  (t = .slice .any ∧ (v = .slice 1800 1 ∨ v = .slice 1700 2 ∨ v = .slice 1700 1)) ∨
  (t = .any ∧ (v = .iface (.slice .any) (.slice 1700 2) ∨ v = .iface (.slice .any) (.slice 1700 1) ∨ v = .iface (.int .int) (.int 1))) ∨
  (t = .int .int ∧ v = .int 1)

def rankA : GV → Nat
  | .slice 1800 _ => 6
  | .iface (.slice .any) (.slice _ 2) => 5
  | .slice _ 2 => 4
  | .iface (.slice .any) _ => 3
  | .slice _ _ => 2
  | .iface _ _ => 1
  | _ => 0

theorem inA_part (t : Ty) (v : GV) (t' : Ty) (v' : GV) (hs : InA t v) (hp : Part W heapA t v t' v') : InA t' v' ∧ rankA v' < rankA v := by
  rcases hs with ⟨rfl, rfl | rfl | rfl⟩ | ⟨rfl, rfl | rfl | rfl⟩ | ⟨rfl, rfl⟩
  · cases hp with
    | slice hr hm =>
      cases hr
      have : v' = .iface (.slice .any) (.slice 1700 2) := by simpa [heapA] using hm
      subst this
      exact ⟨by simp [InA], by simp [rankA]⟩
  · cases hp with
    | slice hr hm =>
      cases hr
      have : v' = .iface (.int .int) (.int 1) ∨ v' = .iface (.slice .any) (.slice 1700 1) := by simpa [heapA] using hm
      rcases this with rfl | rfl
      · exact ⟨by simp [InA], by simp [rankA]⟩
      · exact ⟨by simp [InA], by simp [rankA]⟩
  · cases hp with
    | slice hr hm =>
      cases hr
      have : v' = .iface (.int .int) (.int 1) := by simpa [heapA] using hm
      subst this
      exact ⟨by simp [InA], by simp [rankA]⟩
  · cases hp; exact ⟨by simp [InA], by simp [rankA]⟩
  · cases hp; exact ⟨by simp [InA], by simp [rankA]⟩
  · cases hp; exact ⟨by simp [InA], by simp [rankA]⟩
  · cases hp

end Demo

namespace Demo

/-- The values in the list of `heapD`. -/
def InD (t : Ty) (v : GV) : Prop :=
  (t = .ptr (.struct 20) ∧ ∃ a, a ≤ 1000 ∧ v = .ptr a) ∨ (t = .struct 20 ∧ ∃ a, a ≤ 1000 ∧ v = node a) ∨
  (t = .ptr (.struct 21) ∧ ∃ a, v = .ptr a) ∨ (t = .struct 21 ∧ v = .struct [.int 7]) ∨ (t = .int .int ∧ v = .int 7) ∨
  ((∃ e, t = .ptr e) ∧ v = .ptrNil)

def rankD : Ty → GV → Nat
  | .ptr (.struct 20), .ptr a => 10 + 2 * (1002 - a)
  | .struct 20, .struct [_, _, .ptr a] => 10 + 2 * (1002 - a) + 1
  | .struct 20, _ => 10
  | .ptr (.struct 21), .ptr _ => 5
  | .struct 21, _ => 4
  | _, _ => 0

theorem inD_part (t : Ty) (v : GV) (t' : Ty) (v' : GV) (hs : InD t v) (hp : Part WD heapD t v t' v') : InD t' v' ∧ rankD t' v' < rankD t v := by
  rcases hs with ⟨rfl, a, ha, rfl⟩ | ⟨rfl, a, ha, rfl⟩ | ⟨rfl, a, rfl⟩ | ⟨rfl, rfl⟩ | ⟨rfl, rfl⟩ | ⟨⟨e, rfl⟩, rfl⟩
  · cases hp with
    | ptr hr =>
      cases hr
      refine ⟨.inr (.inl ⟨rfl, a, ha, rfl⟩), ?_⟩
      show rankD (.struct 20) (node a) < 10 + 2 * (1002 - a)
      unfold node
      split
      · simp only [rankD]; omega
      · simp only [rankD]; omega
  · by_cases h : a < 1000
    · have hn : node a = .struct [.struct [.int 7], .ptrNil, .ptr (a + 1)] := by rw [node, if_pos h]
      rw [hn] at hp ⊢
      cases hp with
      | @field id vs f _ i hr h2 h3 h4 h5 =>
        cases hr
        rcases i with _ | _ | _ | i
        · cases h2; cases h3; exact ⟨by simp [InD], by simp only [rankD]; omega⟩
        · cases h2; cases h3; exact ⟨by simp [InD], by simp only [rankD]; omega⟩
        · cases h2; cases h3; exact ⟨.inl ⟨rfl, a + 1, h, rfl⟩, by simp only [rankD]; omega⟩
        · simp at h3
    · have hn : node a = .struct [.struct [.int 7], .ptr a, .ptrNil] := by rw [node, if_neg h]
      rw [hn] at hp ⊢
      cases hp with
      | @field id vs f _ i hr h2 h3 h4 h5 =>
        cases hr
        rcases i with _ | _ | _ | i
        · cases h2; cases h3; exact ⟨by simp [InD], by simp [rankD]⟩
        · cases h2; cases h3; exact ⟨by simp [InD], by simp [rankD]⟩
        · cases h2; cases h3; exact ⟨by simp [InD], by simp [rankD]⟩
        · simp at h3
  · cases hp with
    | ptr hr => cases hr; exact ⟨by simp [InD, heapD], by simp [rankD]⟩
  · cases hp with
    | @field id vs f _ i hr h2 h3 h4 h5 =>
      cases hr
      rcases i with _ | i
      · cases h2; cases h3; exact ⟨by simp [InD], by simp [rankD]⟩
      · simp at h3
  · cases hp
  · cases hp

/-! ### A long list with a slice in an interface at its end -/

/-- Struct 22 is `P *S22 "p"; A any "a"`. -/
def WL : World := { Demo.W with
  fields := fun
    | 22 => [⟨b! "P", b! "p", true, false, .ptr (.struct 22)⟩, ⟨b! "A", b! "a", true, false, .any⟩]
    | i => Demo.fields i }

/-- The node at address `a` (0 to 1000). -/
def nodeH (a : Nat) : GV :=
  if a < 1000 then .struct [.ptr (a + 1), .ifaceNil] else .struct [.ptrNil, .iface (.slice (.int .int)) (.slice 5000 1)]

def heapH : Heap where
  deref := fun
    | .struct 22, a => nodeH a
    | _, _ => .int 0
  elems := fun
    | .int .int, 5000, 1 => [.int 7]
    | _, _, _ => []
  iter := fun _ _ _ _ => []
  marshal := fun _ _ => .ok []

/-- The values in the list. -/
def InH (t : Ty) (v : GV) : Prop :=
  (t = .ptr (.struct 22) ∧ ∃ a, a ≤ 1000 ∧ v = .ptr a) ∨ (t = .struct 22 ∧ ∃ a, a ≤ 1000 ∧ v = nodeH a) ∨
  (t = .any ∧ v = .iface (.slice (.int .int)) (.slice 5000 1)) ∨ (t = .slice (.int .int) ∧ v = .slice 5000 1) ∨ (t = .int .int ∧ v = .int 7) ∨
  (t = .any ∧ v = .ifaceNil) ∨ (t = .ptr (.struct 22) ∧ v = .ptrNil)

def rankH : Ty → GV → Nat
  | .ptr (.struct 22), .ptr a => 10 + 2 * (1002 - a)
  | .struct 22, .struct [.ptr a, _] => 10 + 2 * (1002 - a) + 1
  | .struct 22, _ => 10
  | .any, .iface _ _ => 5
  | .slice _, .slice _ _ => 4
  | _, _ => 0

theorem inH_part (t : Ty) (v : GV) (t' : Ty) (v' : GV) (hs : InH t v) (hp : Part WL heapH t v t' v') : InH t' v' ∧ rankH t' v' < rankH t v := by
  rcases hs with ⟨rfl, a, ha, rfl⟩ | ⟨rfl, a, ha, rfl⟩ | ⟨rfl, rfl⟩ | ⟨rfl, rfl⟩ | ⟨rfl, rfl⟩ | ⟨rfl, rfl⟩ | ⟨rfl, rfl⟩
  · cases hp with
    | ptr hr =>
      cases hr
      refine ⟨.inr (.inl ⟨rfl, a, ha, rfl⟩), ?_⟩
      show rankH (.struct 22) (nodeH a) < 10 + 2 * (1002 - a)
      unfold nodeH
      split
      · simp only [rankH]; omega
      · simp only [rankH]; omega
  · by_cases h : a < 1000
    · have hn : nodeH a = .struct [.ptr (a + 1), .ifaceNil] := by rw [nodeH, if_pos h]
      rw [hn] at hp ⊢
      cases hp with
      | @field id vs f _ i hr h2 h3 h4 h5 =>
        cases hr
        rcases i with _ | _ | i
        · cases h2; cases h3; exact ⟨.inl ⟨rfl, a + 1, h, rfl⟩, by simp only [rankH]; omega⟩
        · cases h2; cases h3; exact ⟨by simp [InH], by simp only [rankH]; omega⟩
        · simp at h3
    · have hn : nodeH a = .struct [.ptrNil, .iface (.slice (.int .int)) (.slice 5000 1)] := by rw [nodeH, if_neg h]
      rw [hn] at hp ⊢
      cases hp with
      | @field id vs f _ i hr h2 h3 h4 h5 =>
        cases hr
        rcases i with _ | _ | i
        · cases h2; cases h3; exact ⟨by simp [InH], by simp [rankH]⟩
        · cases h2; cases h3; exact ⟨by simp [InH], by simp [rankH]⟩
        · simp at h3
  · cases hp; exact ⟨by simp [InH], by simp [rankH]⟩
  · cases hp with
    | slice hr hm =>
      cases hr
      have : v' = .int 7 := by simpa [heapH] using hm
      subst this
      exact ⟨by simp [InH], by simp [rankH]⟩
  · cases hp
  · cases hp
  · cases hp

theorem inH_inside {t t' : Ty} {v v' : GV} (hs : InH t v) (hw : Inside WL heapH t v t' v') : InH t' v' ∧ rankH t' v' < rankH t v := by
  obtain ⟨t1, v1, h1, h2⟩ := hw
  have h3 := inH_part _ _ _ _ hs h1
  clear h1 hs
  induction h2 with
  | refl => exact h3
  | step a _ ih => have h4 := inH_part _ _ _ _ h3.1 a; exact ih ⟨h4.1, by omega⟩

theorem inH_located {t : Ty} {v : GV} {a : Nat} (hs : InH t v) (hl : Located WL t v a) :
    (t = .ptr (.struct 22) ∧ v = .ptr a ∧ a ≤ 1000) ∨ (t = .slice (.int .int) ∧ v = .slice 5000 1 ∧ a = 5000) := by
  rcases hs with ⟨rfl, b, hb, rfl⟩ | ⟨rfl, b, hb, rfl⟩ | ⟨rfl, rfl⟩ | ⟨rfl, rfl⟩ | ⟨rfl, rfl⟩ | ⟨rfl, rfl⟩ | ⟨rfl, rfl⟩
  · cases hl with
    | slice hr => cases hr
    | map hr => cases hr
    | ptr hr => exact .inl ⟨rfl, rfl, hb⟩
  · generalize nodeH b = v at hl
    cases hl <;> rename_i hr <;> first | cases hr | (rename_i h2; cases h2)
  · generalize GV.iface (.slice (.int .int)) (.slice 5000 1) = v at hl
    cases hl <;> rename_i hr <;> first | cases hr | (rename_i h2; cases h2)
  · generalize hs : GV.slice 5000 1 = v at hl
    cases hl with
    | slice hr => subst hs; exact .inr ⟨rfl, rfl, rfl⟩
    | map hr => cases hr
    | ptr hr => cases hr
  · generalize GV.int 7 = v at hl
    cases hl <;> rename_i hr <;> first | cases hr | (rename_i h2; cases h2)
  · generalize GV.ifaceNil = v at hl
    cases hl <;> rename_i hr <;> first | cases hr | (rename_i h2; cases h2)
  · generalize hn : GV.ptrNil = v at hl
    cases hl with
    | slice hr => cases hr
    | map hr => cases hr
    | ptr hr => cases hn

theorem inH_tell : AddressesTell WL heapH (.ptr (.struct 22)) (.ptr 0) := by
  intro t1 v1 t2 v2 a h1 h2 h3 h4
  have h5 : InH t1 v1 := closed_within (fun t v t' v' a b => (inH_part t v t' v' a b).1) (.inl ⟨rfl, 0, by omega, rfl⟩) h1
  have h6 := (inH_inside h5 h2).1
  rcases inH_located h5 h3 with ⟨rfl, rfl, h7⟩ | ⟨rfl, rfl, h7⟩ <;> rcases inH_located h6 h4 with ⟨rfl, rfl, h8⟩ | ⟨rfl, rfl, h8⟩
  · exact ⟨rfl, rfl⟩
  · omega
  · omega
  · exact ⟨rfl, rfl⟩

theorem wh_keep {f : Field} (k : Bytes) (h : structTag WL f = ⟨k, false, false⟩) : TagMeaning WL f k False (false = true) :=
  tagMeaning_iff.2 (by rw [h]; simp)

theorem written22 (v0 v1 : GV) : Written WL 0 (WL.fields 22) [v0, v1]
    [⟨0, b! "p", false, .ptr (.struct 22), v0⟩, ⟨1, b! "a", false, .any, v1⟩] :=
  .keep rfl (wh_keep _ rfl) (by decide) (by simp) (.keep rfl (wh_keep _ rfl) (by decide) (by simp) .nil)

theorem nodeH_of {st : Stack} {p : Path} {v0 v1 : GV} {t0 t1 : Bytes} (h0 : EncT WL heapH (.field false) st (0 :: p) (.ptr (.struct 22)) v0 t0)
    (h1 : EncT WL heapH (.field false) st (1 :: p) .any v1 t1) :
    ∃ tx, EncT WL heapH .kind st p (.struct 22) (.struct [v0, v1]) tx := by
  refine ⟨_, .struct (tx := fun j => match j with | 0 => t0 | _ => t1) rfl (written22 _ _) fun j w hj => ?_⟩
  rcases j with _ | _ | j
  · cases hj; exact h0
  · cases hj; exact h1
  · simp at hj

theorem nodeH_parts {st : Stack} {p : Path} {v0 v1 : GV} {tx : Bytes} (he : EncC WL heapH .kind st p (.struct 22) (.struct [v0, v1]) tx) :
    (∃ t1, EncC WL heapH (.field false) st (0 :: p) (.ptr (.struct 22)) v0 t1) ∧
    ∃ t2, EncC WL heapH (.field false) st (1 :: p) .any v1 t2 := by
  obtain ⟨ws, txs, hw, hf, -⟩ := encC_struct (id := 22) rfl he
  cases written_det hw (written22 v0 v1)
  exact ⟨⟨_, hf 0 _ rfl⟩, _, hf 1 _ rfl⟩

/-- Without recursion checks the list can be written. -/
theorem listH_all (k : Nat) (hk : k ≤ 1000) (p : Path) {st : Stack} : ∃ tx, EncT WL heapH .kind st p (.struct 22) (nodeH (1000 - k)) tx := by
  induction k generalizing p st with
  | zero =>
    refine nodeH_of (.fieldPtrNil rfl) (.fieldPlain rfl (.plain rfl (by simp) rfl (.iface rfl
      (.heldConcreteSlice (e := .int .int) (.iface rfl (.done rfl rfl)) rfl rfl trivial ⟨9, _, by rfl⟩ (.plain rfl (by simp) rfl
        (.slice (tx := fun _ => (Doc.int (intText 7)).text) rfl trivial rfl fun i v hi => ?_))))))
    rcases i with _ | i
    · cases hi; exact .plain rfl (by simp) rfl (.scalar (.int rfl))
    · simp [heapH] at hi
  | succ k ih =>
    obtain ⟨t, ht⟩ := ih (by omega) (0 :: p) (st := (1000 - k, true) :: st)
    have hn : nodeH (1000 - (k + 1)) = .struct [.ptr (1000 - k), .ifaceNil] := by
      rw [nodeH, if_pos (by omega), show 1000 - (k + 1) + 1 = 1000 - k by omega]
    rw [hn]
    exact nodeH_of (.fieldPtrStruct rfl rfl trivial (.plain rfl (by simp) rfl ht))
      (.fieldPlain rfl (.plain rfl (by simp) rfl (.iface rfl (.heldNil (.ifaceNil rfl)))))

/-- The slice at the end of the list is entered twice. -/
theorem endH_bad {st : Stack} (hd : 1000 ≤ depthOf st) {p : Path} {tx : Bytes}
    (he : EncC WL heapH (.field false) st p .any (.iface (.slice (.int .int)) (.slice 5000 1)) tx) : False := by
  have typed : ∀ tx, ¬ EncC WL heapH .typed ((5000, false) :: st) p (.slice (.int .int)) (.slice 5000 1) tx := by
    intro tx ht
    cases kind_of_typed (by rfl) (by rfl) (by simp) ht with
    | scalar h => cases h <;> rename_i hr <;> cases hr
    | slice hr hf =>
      rcases hf with ⟨-, h1⟩ | h1
      · rw [depthOf_false] at h1; omega
      · exact h1 (by simp [seenOf])
    | iface h => cases h
  have der : ∀ {t' v'}, Deref WL heapH .any (.iface (.slice (.int .int)) (.slice 5000 1)) (some (t', v')) → t' = .slice (.int .int) ∧ v' = .slice 5000 1 := by
    intro t' v' hd
    have := deref_det hd (.iface rfl (.done rfl rfl))
    cases this; exact ⟨rfl, rfl⟩
  have sc : ∀ {t v d}, WL.resolve t = .any → ¬ ScalarDoc WL t v d := by
    intro t v d hr h; cases h <;> simp_all
  cases he with
  | fieldPlain _ h =>
    cases kind_of_typed (by rfl) (by rfl) (by simp) h with
    | scalar h1 => exact sc (by rfl) h1
    | iface _ h =>
      cases h with
      | heldNil h1 => cases deref_det h1 (.iface (by rfl) (.done (by rfl) (by rfl)))
      | heldScalar h1 h2 => obtain ⟨rfl, rfl⟩ := der h1; cases h2 <;> rename_i hr <;> cases hr
      | heldConcreteSlice h1 _ _ _ _ h2 => obtain ⟨rfl, rfl⟩ := der h1; exact typed _ h2
      | heldSliceNil h1 => cases (der h1).2
      | heldSlice h1 h2 h3 => obtain ⟨rfl, h4⟩ := der h1; cases h2; cases h3
      | heldMapNil h1 => cases (der h1).2
      | heldMap h1 => cases (der h1).2
      | heldConcreteMap h1 => cases (der h1).2
      | heldStruct h1 h2 => obtain ⟨rfl, rfl⟩ := der h1; cases h2

theorem listH_bad (k : Nat) (hk : k ≤ 1000) (p : Path) (tx : Bytes) :
    ¬ EncC WL heapH .kind (upTo (1000 - k) ++ [(0, true)]) p (.struct 22) (nodeH (1000 - k)) tx := by
  induction k generalizing p tx with
  | zero =>
    intro he
    obtain ⟨-, t1, h1⟩ := nodeH_parts he
    refine endH_bad ?_ h1
    have hd : ∀ a, depthOf (upTo a ++ [(0, true)]) = a + 1 := fun a => by rw [depthOf_outer, depth_upTo]
    rw [hd]; omega
  | succ k ih =>
    have hn : nodeH (1000 - (k + 1)) = .struct [.ptr (1000 - k), .ifaceNil] := by
      rw [nodeH, if_pos (by omega), show 1000 - (k + 1) + 1 = 1000 - k by omega]
    rw [hn]
    intro he
    obtain ⟨⟨t2, h2⟩, -⟩ := nodeH_parts he
    have fin : ∀ t, ¬ EncC WL heapH .typed ((1000 - k, true) :: (upTo (1000 - (k + 1)) ++ [(0, true)])) (0 :: p) (.struct 22) (heapH.deref (.struct 22) (1000 - k)) t := by
      intro t ht
      have := kind_of_typed (by rfl) (by rfl) (by simp) ht
      refine ih (by omega) (0 :: p) t ?_
      rw [show (upTo (1000 - k) = (1000 - k, true) :: upTo (1000 - (k + 1))) by
        obtain ⟨n, hn⟩ : ∃ n, 1000 - k = n + 1 := ⟨1000 - k - 1, by omega⟩
        rw [show 1000 - (k + 1) = n by omega, hn]; rfl]
      exact this
    cases h2 with
    | fieldPlain h => cases h
    | fieldPtrStruct h1 _ _ h => cases h1; exact fin _ h
    | fieldPtr h1 h => cases h1; cases h

end Demo
end Verif

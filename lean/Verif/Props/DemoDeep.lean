import Verif.Proofs.Pointer
import Verif.Proofs.EncStruct
import Verif.Props.DemoEnc
/-
A long list whose last node has a pointer into itself, used by the counterexamples about recursion checks.
-/
namespace Verif
open Spec

/-- Struct 20 is `V S21 "v"; Q *S21 "q"; P *S20 "p"`, struct 21 is `X int "x"`. -/
def Demo.WD : World := { Demo.W with
  fields := fun
    | 20 => [⟨b! "V", b! "v", true, false, .struct 21⟩, ⟨b! "Q", b! "q", true, false, .ptr (.struct 21)⟩, ⟨b! "P", b! "p", true, false, .ptr (.struct 20)⟩]
    | 21 => [⟨b! "X", b! "x", true, false, .int .int⟩]
    | i => Demo.fields i }

/-- The node at address `a` (0 to 1000): `P` points to the next one; in the last one `Q` points to its own field `V`, which has the
address of the node. -/
def Demo.node (a : Nat) : GV :=
  if a < 1000 then .struct [.struct [.int 7], .ptrNil, .ptr (a + 1)] else .struct [.struct [.int 7], .ptr a, .ptrNil]

/-- The list in memory. -/
def Demo.heapD : Heap where
  deref := fun
    | .struct 20, a => Demo.node a
    | .struct 21, _ => .struct [.int 7]
    | _, _ => .int 0
  elems := fun _ _ _ => []
  iter := fun _ _ _ _ => []
  marshal := fun _ _ => .err (.unsupported "")

namespace Demo

theorem wd_mar (t : Ty) : WD.marOf t = false := noMarshaler t

theorem wd_keep {f : Field} (k : Bytes) (h : structTag WD f = ⟨k, false, false⟩) : TagMeaning WD f k False (false = true) :=
  tagMeaning_iff.2 (by rw [h]; simp)

theorem written20 (v0 v1 v2 : GV) : Written WD 0 (WD.fields 20) [v0, v1, v2]
    [⟨0, b! "v", false, .struct 21, v0⟩, ⟨1, b! "q", false, .ptr (.struct 21), v1⟩, ⟨2, b! "p", false, .ptr (.struct 20), v2⟩] :=
  .keep rfl (wd_keep _ rfl) (by decide) (by simp) (.keep rfl (wd_keep _ rfl) (by decide) (by simp)
    (.keep rfl (wd_keep _ rfl) (by decide) (by simp) .nil))

theorem written21 (v0 : GV) : Written WD 0 (WD.fields 21) [v0] [⟨0, b! "x", false, .int .int, v0⟩] :=
  .keep rfl (wd_keep _ rfl) (by decide) (by simp) .nil

theorem inner_ok (st : Stack) (p : Path) : ∃ tx, EncC WD heapD .typed st p (.struct 21) (.struct [.int 7]) tx :=
  ⟨_, .plain rfl (by simp) rfl (.struct (tx := fun _ => (Doc.int (intText 7)).text) rfl (written21 _) fun j w hj => by
    rcases j with _ | j
    · cases hj; exact .fieldPlain rfl (.plain rfl (by simp) rfl (.scalar (.int rfl)))
    · simp at hj)⟩

theorem node_of {st : Stack} {p : Path} {v1 v2 : GV} {t1 t2 : Bytes} (h1 : EncC WD heapD (.field false) st (1 :: p) (.ptr (.struct 21)) v1 t1)
    (h2 : EncC WD heapD (.field false) st (2 :: p) (.ptr (.struct 20)) v2 t2) :
    ∃ tx, EncC WD heapD .kind st p (.struct 20) (.struct [.struct [.int 7], v1, v2]) tx := by
  obtain ⟨t0, h0⟩ := inner_ok st (0 :: p)
  refine ⟨_, .struct (tx := fun j => match j with | 0 => t0 | 1 => t1 | _ => t2) rfl (written20 _ _ _) fun j w hj => ?_⟩
  rcases j with _ | _ | _ | j
  · cases hj; exact .fieldPlain rfl h0
  · cases hj; exact h1
  · cases hj; exact h2
  · simp at hj

theorem node_parts {st : Stack} {p : Path} {v0 v1 v2 : GV} {tx : Bytes} (he : EncC WD heapD .kind st p (.struct 20) (.struct [v0, v1, v2]) tx) :
    (∃ t1, EncC WD heapD (.field false) st (1 :: p) (.ptr (.struct 21)) v1 t1) ∧
    ∃ t2, EncC WD heapD (.field false) st (2 :: p) (.ptr (.struct 20)) v2 t2 := by
  obtain ⟨ws, txs, hw, hf, -⟩ := encC_struct (id := 20) rfl he
  cases written_det hw (written20 v0 v1 v2)
  exact ⟨⟨_, hf 1 _ rfl⟩, _, hf 2 _ rfl⟩

/-- The addresses of the nodes from `a` down to 1. -/
def upTo : Nat → Stack
  | 0 => []
  | a + 1 => (a + 1, true) :: upTo a

theorem depth_upTo (a : Nat) : depthOf (upTo a) = a := by
  induction a with
  | zero => rfl
  | succ a ih => simp only [upTo, depthOf, List.filter_cons] at *; simp [ih]

theorem seen_upTo {a : Nat} (h : a ≤ 1000) : seenOf (upTo a) = [] := by
  induction a with
  | zero => rfl
  | succ a ih => simp only [upTo, seenOf, depth_upTo]; rw [if_pos (by simp; omega)]; exact ih (by omega)

/-- Passed by value, the list is written. -/
theorem list_ok (k : Nat) (hk : k ≤ 1000) (p : Path) : ∃ tx, EncC WD heapD .kind (upTo (1000 - k)) p (.struct 20) (node (1000 - k)) tx := by
  induction k generalizing p with
  | zero =>
    obtain ⟨t, ht⟩ := inner_ok ((1000, true) :: upTo 1000) (1 :: p)
    exact node_of (.fieldPtrStruct rfl rfl (.inr (by rw [seen_upTo (by omega)]; simp)) ht) (.fieldPtrNil rfl)
  | succ k ih =>
    obtain ⟨t, ht⟩ := ih (by omega) (2 :: p)
    have hn : node (1000 - (k + 1)) = .struct [.struct [.int 7], .ptrNil, .ptr (1000 - k)] := by
      rw [node, if_pos (by omega), show 1000 - (k + 1) + 1 = 1000 - k by omega]
    rw [hn]
    refine node_of (t2 := t) (.fieldPtrNil rfl) (.fieldPtrStruct rfl rfl (.inl ⟨rfl, by rw [depth_upTo]; omega⟩) (.plain rfl (by simp) rfl ?_))
    rw [show ((1000 - k, true) :: upTo (1000 - (k + 1))) = upTo (1000 - k) by rw [show 1000 - k = (1000 - (k + 1)) + 1 by omega]; rfl]
    exact ht

/-- Behind a pointer it is not. -/
theorem list_bad (k : Nat) (hk : k ≤ 1000) (p : Path) (tx : Bytes) : ¬ EncC WD heapD .kind (upTo (1000 - k) ++ [(0, true)]) p (.struct 20) (node (1000 - k)) tx := by
  induction k generalizing p tx with
  | zero =>
    intro he
    obtain ⟨⟨t1, h1⟩, -⟩ := node_parts he
    cases h1 with
    | fieldPlain h => cases h
    | fieldPtrStruct _ _ h _ =>
      have hd : ∀ a, depthOf (upTo a ++ [(0, true)]) = a + 1 := fun a => by rw [depthOf_outer, depth_upTo]
      rcases h with ⟨-, h⟩ | h
      · rw [hd] at h; omega
      · apply h
        have hs : ∀ a, 999 ≤ a → a + 1 ∈ seenOf (upTo (a + 1) ++ [(0, true)]) := fun a ha => by
          simp only [upTo, List.cons_append, seenOf, hd]
          rw [if_neg (by simp; omega)]
          exact List.mem_cons_self
        exact hs 999 (by omega)
    | fieldPtr h1 h => cases h1; cases h
  | succ k ih =>
    have hn : node (1000 - (k + 1)) = .struct [.struct [.int 7], .ptrNil, .ptr (1000 - k)] := by
      rw [node, if_pos (by omega), show 1000 - (k + 1) + 1 = 1000 - k by omega]
    rw [hn]
    intro he
    obtain ⟨-, t2, h2⟩ := node_parts he
    have fin : ∀ t, ¬ EncC WD heapD .typed ((1000 - k, true) :: (upTo (1000 - (k + 1)) ++ [(0, true)])) (2 :: p) (.struct 20) (heapD.deref (.struct 20) (1000 - k)) t := by
      intro t ht
      have := kind_of_typed (by rfl) (by rfl) (by simp) ht
      refine ih (by omega) (2 :: p) t ?_
      rw [show (upTo (1000 - k) = (1000 - k, true) :: upTo (1000 - (k + 1))) by
        obtain ⟨n, hn⟩ : ∃ n, 1000 - k = n + 1 := ⟨1000 - k - 1, by omega⟩
        rw [show 1000 - (k + 1) = n by omega, hn]; rfl]
      exact this
    cases h2 with
    | fieldPlain h => cases h
    | fieldPtrStruct h1 _ _ h => cases h1; exact fin _ h
    | fieldPtr h1 h => cases h1; cases h

end Demo
end Verif

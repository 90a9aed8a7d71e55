import Verif.Proofs.Work
import Verif.Props.DemoEnc
/-
A linked list of any length, used to show that the bound on the bytes moved by `Marshal` is reached.
-/
namespace Verif.Demo
open Verif

/-- A memory with the nodes of a linked list at the addresses 0, 1, 2, …; node `k + 1` points to node `k`. -/
def chain : Heap where
  deref := fun _ a => .struct [match a with | 0 => .ptrNil | k + 1 => .ptr k, .int 0]
  elems := fun _ _ _ => []
  iter := fun _ _ _ _ => []
  marshal := fun _ _ => .ok []

/-- The text of a list of `k + 1` nodes. -/
def chainText : Nat → Bytes
  | 0 => b! "a:2:{s:4:\"next\";N;s:1:\"n\";i:0;}"
  | k + 1 => b! "a:2:{s:4:\"next\";" ++ chainText k ++ b! "s:1:\"n\";i:0;}"

theorem chainText_length (k : Nat) : (chainText k).length = 29 * k + 31 := by
  induction k with
  | zero => rfl
  | succ k ih => simp only [chainText, List.length_append, ih, List.length_cons, List.length_nil]; omega

/-- The fields of a node. -/
theorem chain_fields : efields W 0 (W.fields 1) = [⟨0, b! "next", false, false, .ptr (.struct 1)⟩, ⟨1, b! "n", false, false, .int .int⟩] := by rfl

/-- Bytes appended for a list of `k + 1` nodes. -/
def chainWork : Nat → Nat
  | 0 => 56
  | k + 1 => chainWork k + 29 * k + 83

theorem next_eq (sb : Bytes) : appendString sb (b! "next") = sb ++ b! "s:4:\"next\";" := by rw [appendString_eq]; rfl
theorem n_eq (sb : Bytes) : appendString sb (b! "n") = sb ++ b! "s:1:\"n\";" := by rw [appendString_eq]; rfl
theorem zero_eq (sb : Bytes) : appendIntBytes sb 0 = sb ++ b! "i:0;" := by rw [appendIntBytes_eq]; rfl
theorem begin_eq (b : Bytes) : appendArrayBegin b 2 = b ++ b! "a:2:{" := (arrayBegin_eq b 2).trans rfl

theorem intField (f cf : Nat) (p : Path) (c : Ctx) (b : Bytes) :
    (encF W chain cf (f + 1)).comp p (.int .int) c b (.int 0) = (c, .ok (b ++ b! "i:0;")) ∧
    (encFWork W chain cf (f + 1)).comp p (.int .int) c b (.int 0) = { bytes := 4, bufs := 0 } := by
  refine ⟨?_, ?_⟩
  · rw [← zero_eq]; rfl
  · show appended b (.ok (appendIntBytes b 0)) = _
    rw [zero_eq]
    simp [appended]

theorem chain_run (k : Nat) : ∀ (f : Nat), k + 2 ≤ f → ∀ (p : Path) (c : Ctx) (b : Bytes), (∀ x ∈ c.seen, k ≤ x) →
    (∃ c', (encF W chain 9 f).comp p (.struct 1) c b (chain.deref (.struct 1) k) = (c', .ok (b ++ chainText k))) ∧
    (encFWork W chain 9 f).comp p (.struct 1) c b (chain.deref (.struct 1) k) = { bytes := chainWork k, bufs := k + 1 } := by
  induction k with
  | zero =>
    intro f hf p c b _
    obtain ⟨f, rfl⟩ : ∃ f', f = f' + 2 := ⟨f - 2, by omega⟩
    have e1 : (encF W chain 9 (f + 2)).comp p (.struct 1) c b (chain.deref (.struct 1) 0) =
        encodeStruct (fun fl => encodeField W chain (f + 1) ((encF W chain 9 (f + 1)).comp (fl.idx :: p)) fl) 2
          (efields W 0 (W.fields 1)) c b (.struct [.ptrNil, .int 0]) := rfl
    have e2 : (encFWork W chain 9 (f + 2)).comp p (.struct 1) c b (chain.deref (.struct 1) 0) =
        encodeStructWork (fun fl => encodeField W chain (f + 1) ((encF W chain 9 (f + 1)).comp (fl.idx :: p)) fl)
          (fun fl => encodeFieldWork W chain (f + 1) ((encFWork W chain 9 (f + 1)).comp (fl.idx :: p)) fl) 2
          (efields W 0 (W.fields 1)) c b (.struct [.ptrNil, .int 0]) := rfl
    rw [e1, e2, chain_fields]
    have g1 : ∀ (c : Ctx) (sb : Bytes), encodeField W chain (f + 1) ((encF W chain 9 (f + 1)).comp (0 :: p)) ⟨0, b! "next", false, false, .ptr (.struct 1)⟩ c sb .ptrNil =
        (c, .ok (appendNull sb)) := fun c sb => rfl
    have g2 : ∀ (c : Ctx) (sb : Bytes), encodeFieldWork W chain (f + 1) ((encFWork W chain 9 (f + 1)).comp (0 :: p)) ⟨0, b! "next", false, false, .ptr (.struct 1)⟩ c sb .ptrNil =
        { bytes := 2, bufs := 0 } := fun c sb => by
      show appended sb (.ok (appendNull sb)) = _
      simp [appended, appendNull]
    have g3 : ∀ (c : Ctx) (sb : Bytes), encodeField W chain (f + 1) ((encF W chain 9 (f + 1)).comp (1 :: p)) ⟨1, b! "n", false, false, .int .int⟩ c sb (.int 0) =
        (c, .ok (sb ++ b! "i:0;")) := fun c sb => (intField f 9 (1 :: p) c sb).1
    have g4 : ∀ (c : Ctx) (sb : Bytes), encodeFieldWork W chain (f + 1) ((encFWork W chain 9 (f + 1)).comp (1 :: p)) ⟨1, b! "n", false, false, .int .int⟩ c sb (.int 0) =
        { bytes := 4, bufs := 0 } := fun c sb => (intField f 9 (1 :: p) c sb).2
    simp only [encodeStruct, encodeStructWork, fieldsLoop, fieldsLoopWork, List.length_cons, List.length_nil, List.getElem?_cons_zero,
      List.getElem?_cons_succ, g1, g2, g3, g4, andThen, workOk, Bool.false_and, next_eq, n_eq, appendNull]
    refine ⟨⟨c, ?_⟩, ?_⟩
    · simp [chainText, begin_eq]
    · simp [appended, Work.then, Work.none, chainWork, begin_eq]
  | succ k ih =>
    intro f hf p c b hs
    obtain ⟨f, rfl⟩ : ∃ f', f = f' + 2 := ⟨f - 2, by omega⟩
    have e1 : (encF W chain 9 (f + 2)).comp p (.struct 1) c b (chain.deref (.struct 1) (k + 1)) =
        encodeStruct (fun fl => encodeField W chain (f + 1) ((encF W chain 9 (f + 1)).comp (fl.idx :: p)) fl) 2
          (efields W 0 (W.fields 1)) c b (.struct [.ptr k, .int 0]) := rfl
    have e2 : (encFWork W chain 9 (f + 2)).comp p (.struct 1) c b (chain.deref (.struct 1) (k + 1)) =
        encodeStructWork (fun fl => encodeField W chain (f + 1) ((encF W chain 9 (f + 1)).comp (fl.idx :: p)) fl)
          (fun fl => encodeFieldWork W chain (f + 1) ((encFWork W chain 9 (f + 1)).comp (fl.idx :: p)) fl) 2
          (efields W 0 (W.fields 1)) c b (.struct [.ptr k, .int 0]) := rfl
    rw [e1, e2, chain_fields]
    have hns : k ∉ c.seen := fun hk => by have := hs k hk; omega
    have g1 : ∀ (sb : Bytes), (∃ c', encodeField W chain (f + 1) ((encF W chain 9 (f + 1)).comp (0 :: p)) ⟨0, b! "next", false, false, .ptr (.struct 1)⟩ c sb (.ptr k) =
        (c', .ok (sb ++ chainText k))) ∧ encodeFieldWork W chain (f + 1) ((encFWork W chain 9 (f + 1)).comp (0 :: p)) ⟨0, b! "next", false, false, .ptr (.struct 1)⟩ c sb (.ptr k) =
        { bytes := chainWork k, bufs := k + 1 } := fun sb => by
      show (∃ c', checkRecursive (fun c b => (encF W chain 9 (f + 1)).comp (0 :: p) (.struct 1) c b (chain.deref (.struct 1) k)) k c sb = _) ∧
        checkRecursiveWork (fun c b => (encFWork W chain 9 (f + 1)).comp (0 :: p) (.struct 1) c b (chain.deref (.struct 1) k)) k c sb = _
      simp only [checkRecursive, checkRecursiveWork, List.contains_eq_mem, hns, decide_false, Bool.and_false]
      obtain ⟨⟨c1, h1⟩, h2⟩ := ih (f + 1) (by omega) (0 :: p)
        { seen := if decide (c.depth + 1 > 1000) = true then k :: c.seen else c.seen, depth := c.depth + 1 } sb (by
          intro x hx
          dsimp only at hx
          split at hx
          · rcases List.mem_cons.1 hx with rfl | hx
            · exact Nat.le_refl _
            · have := hs x hx; omega
          · have := hs x hx; omega)
      simp only [Bool.false_eq_true, if_false]
      rw [h1, h2]
      exact ⟨⟨_, rfl⟩, rfl⟩
    have g3 : ∀ (c : Ctx) (sb : Bytes), encodeField W chain (f + 1) ((encF W chain 9 (f + 1)).comp (1 :: p)) ⟨1, b! "n", false, false, .int .int⟩ c sb (.int 0) =
        (c, .ok (sb ++ b! "i:0;")) := fun c sb => (intField f 9 (1 :: p) c sb).1
    have g4 : ∀ (c : Ctx) (sb : Bytes), encodeFieldWork W chain (f + 1) ((encFWork W chain 9 (f + 1)).comp (1 :: p)) ⟨1, b! "n", false, false, .int .int⟩ c sb (.int 0) =
        { bytes := 4, bufs := 0 } := fun c sb => (intField f 9 (1 :: p) c sb).2
    obtain ⟨⟨c1, h1⟩, h2⟩ := g1 ([] ++ b! "s:4:\"next\";")
    simp only [encodeStruct, encodeStructWork, fieldsLoop, fieldsLoopWork, List.length_cons, List.length_nil, List.getElem?_cons_zero,
      List.getElem?_cons_succ, h1, h2, g3, g4, andThen, workOk, Bool.false_and, next_eq, n_eq]
    refine ⟨⟨c1, ?_⟩, ?_⟩
    · simp [chainText, begin_eq]
    · simp [appended, Work.then, Work.none, chainWork, chainText_length, begin_eq]; omega

theorem chainWork_eq (k : Nat) : 2 * chainWork k = 29 * (k * k) + 137 * k + 112 := by
  induction k with
  | zero => rfl
  | succ k ih =>
    have : (k + 1) * (k + 1) = k * k + 2 * k + 1 := by rw [Nat.succ_mul, Nat.mul_succ]; omega
    simp only [chainWork, this]
    omega

end Verif.Demo

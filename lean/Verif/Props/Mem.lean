import Verif.Proofs.MemSim
import Verif.Props.Demo
/-
C60: decoding into a memory in which values refer to each other.
-/
namespace Verif
open Spec

/-- C60: if the place behind the pointer given to `Unmarshal` holds a tree that shares nothing within itself, then decoding does there what
it does to the tree: the outcome is the same, and the place holds the resulting tree afterwards, which again shares nothing within itself. No
other memory changes, and the new tree is made of objects of the old tree and of new objects. The only array that it may have slices into
beyond those is the copy of the input, which is new. This holds as well when decoding fails. -/
theorem C60_memory (W : World) (hW : FlatZeros W) (U : Methods) (hU : Agrees W U) (fuel : Nat) (data : Bytes) (t : Ty)
    (S : Nat → List HV → Prop) (m : Mem) (l : Loc) (v : Val) (fp : List Nat) (hh : Holds S m l v fp) :
    ∃ S' v' fp', (∀ a hs, S a hs → S' a hs) ∧ (∀ a hs, S' a hs → S a hs ∨ (a = m.length ∧ hs = data.map fun c => .uint c.toNat)) ∧
      unmarshal W fuel data (.ptr t v) = (some v', (unmarshalMem W U fuel data t l m).2) ∧
      Holds S' (unmarshalMem W U fuel data t l m).1 l v' fp' ∧ OnlyAt l fp m (unmarshalMem W U fuel data t l m).1 fp' :=
  unmarshalMem_sim hW hU hh

/-- A second place in the same memory that has nothing in common with the first one keeps its tree, and has nothing in common with the decoded
one either. So values decoded one after the other are independent of each other. -/
theorem C60_separate (W : World) (hW : FlatZeros W) (U : Methods) (hU : Agrees W U) (fuel : Nat) (data : Bytes) (t : Ty)
    (S : Nat → List HV → Prop) (m : Mem) (l l2 : Loc) (v v2 : Val) (fp fp2 : List Nat) (hh : Holds S m l v fp) (h2 : Holds S m l2 v2 fp2)
    (hd : ∀ a ∈ l2.obj :: fp2, a ∉ l.obj :: fp) :
    ∃ S' v' fp', unmarshal W fuel data (.ptr t v) = (some v', (unmarshalMem W U fuel data t l m).2) ∧
      Holds S' (unmarshalMem W U fuel data t l m).1 l v' fp' ∧ Holds S' (unmarshalMem W U fuel data t l m).1 l2 v2 fp2 ∧
      ∀ a ∈ l2.obj :: fp2, a ∉ l.obj :: fp' := by
  obtain ⟨S', v', fp', hS1, hS2, ho, h3, h4⟩ := C60_memory W hW U hU fuel data t S m l v fp hh
  have hlt : ∀ a ∈ l2.obj :: fp2, a < m.length := by
    intro a ha
    rcases List.mem_cons.1 ha with rfl | ha
    · exact h2.lt
    · obtain ⟨g, -, hg⟩ := h2.value
      exact owns_lt hg a ha
  have hsame : ∀ a ∈ l2.obj :: fp2, (unmarshalMem W U fuel data t l m).1[a]? = m[a]? := by
    intro a ha
    have := hd a ha
    exact h4.same a (hlt a ha) (fun e => this (e ▸ List.mem_cons_self)) fun e => this (List.mem_cons_of_mem _ e)
  refine ⟨S', v', fp', ho, h3, ⟨?_, h2.unshared, h3.kept, ?_⟩, ?_⟩
  · obtain ⟨g, h5, h6⟩ := h2.value
    exact ⟨g, by rw [read_congr (hsame _ List.mem_cons_self)]; exact h5, owns_frame hS1 h6 fun a ha => hsame a (List.mem_cons_of_mem _ ha)⟩
  · intro a hs ha hm
    rcases hS2 a hs ha with h | ⟨rfl, -⟩
    · exact h2.apart a hs h hm
    · have := hlt _ hm
      omega
  · intro a ha hm
    rcases List.mem_cons.1 hm with rfl | hm
    · exact hd _ ha List.mem_cons_self
    · rcases h4.parts a hm with h | h
      · exact hd a ha (List.mem_cons_of_mem _ h)
      · have := hlt a ha
        omega

/-- A new variable with the zero value of its type is such a place, in any memory. -/
theorem C60_new_variable (W : World) (hW : FlatZeros W) (t : Ty) (S : Nat → List HV → Prop) (m : Mem) (hS : Kept S m) :
    Holds S (m.new (.var (flat (W.zero t)))) ⟨m.length, []⟩ (W.zero t) [] := holds_new hS (zero_refFree hW t)

namespace Demo

/-- The methods of the demo world on memory. -/
def U : Methods where
  fresh id s m := (m, if id = 0 then .ok (.int (s.length % 100)) else .err .invalidUnmarshal)
  held _ _ _ m := (m, .ok ())

theorem demo_zeros : FlatZeros W where
  struct id := by
    show RefFree (structZero id)
    unfold structZero
    split <;> simp [RefFree, RefFreeAll]
  named id := by
    show RefFree (namedZero id)
    unfold namedZero
    split <;> simp [RefFree, RefFreeAll]
  ptr id e := by
    show (named id).under = _ → _
    unfold named
    split <;> simp

theorem demo_agrees : Agrees W U where
  fresh S id s m hS := by
    refine ⟨Nat.le_refl _, fun _ _ => rfl, ?_⟩
    simp only [U, W]
    by_cases h : id = 0
    · simp only [h, if_true]
      exact ⟨[], .int, List.nodup_nil, by simp⟩
    · simp [h]
  held S t h v fp s m ho hn _ _ := ⟨rfl, Nat.le_refl _, fun _ _ _ => rfl, fp, ho, hn, fun _ h => .inl h⟩

/-- A list of two nodes, and a variable that has nothing to do with it. -/
def mem : Mem := [.var (.struct [.ptr 1 [], .int 1]), .var (.struct [.ptrNil, .int 2]), .var (.str (b! "x"))]

theorem demo_holds : Holds (fun _ _ => False) mem ⟨0, []⟩ (.struct [.ptr (.struct [.ptrNil, .int 2]), .int 1]) [1] where
  value := ⟨_, rfl, .struct (.cons (b := []) (.ptr (fp := []) rfl (.struct (.cons (b := []) .ptrNil (.cons (b := []) .int .nil))))
    (.cons (b := []) .int .nil))⟩
  unshared := by simp
  kept _ _ h := h.elim
  apart _ _ h := h.elim

/-- Decoding `{next: {next: {n: 3}, n: 4}}` there keeps the second node, which gets a new third one, and adds the copy of the input. -/
example : (unmarshalMem W U 9 (b! "a:1:{s:4:\"next\";a:2:{s:4:\"next\";a:1:{s:1:\"n\";i:3;}s:1:\"n\";i:4;}}") (.struct 1) ⟨0, []⟩ mem).1.eraseIdx 3 =
    [.var (.struct [.ptr 1 [], .int 1]), .var (.struct [.ptr 4 [], .int 4]), .var (.str (b! "x")), .var (.struct [.ptrNil, .int 3])] := by krfl

example : (unmarshal W 9 (b! "a:1:{s:4:\"next\";a:2:{s:4:\"next\";a:1:{s:1:\"n\";i:3;}s:1:\"n\";i:4;}}")
    (.ptr (.struct 1) (.struct [.ptr (.struct [.ptrNil, .int 2]), .int 1]))).1 =
    some (.struct [.ptr (.struct [.ptr (.struct [.ptrNil, .int 3]), .int 4]), .int 1]) := by krfl

example := C60_memory W demo_zeros U demo_agrees 9 (b! "a:1:{s:4:\"next\";a:2:{s:4:\"next\";a:1:{s:1:\"n\";i:3;}s:1:\"n\";i:4;}}") (.struct 1) _ _ _ _ _
  demo_holds

/-- The variable beside the list. -/
example := C60_separate W demo_zeros U demo_agrees 9 (b! "a:1:{s:4:\"next\";a:2:{s:4:\"next\";a:1:{s:1:\"n\";i:3;}s:1:\"n\";i:4;}}") (.struct 1) _ _
  ⟨0, []⟩ ⟨2, []⟩ _ (.str (b! "x")) _ [] demo_holds
  { value := ⟨_, rfl, .str⟩, unshared := by simp, kept := fun _ _ h => h.elim, apart := fun _ _ h => h.elim } (by simp)

example := C60_new_variable W demo_zeros (.struct 0) (fun _ _ => False) mem fun _ _ h => h.elim

/-- A list node that points to itself. -/
def loop : Mem := [.var (.struct [.ptr 0 [], .int 1])]

end Demo

/-- That the tree shares nothing is needed: if a list node points to itself, then decoding `{next: {n: 5}}` into it changes the `n` of the node,
about which the document says nothing. On a tree it stays 1, whatever comes after the second node. -/
theorem C60_shared_witness :
    (unmarshalMem Demo.W Demo.U 9 (b! "a:1:{s:4:\"next\";a:1:{s:1:\"n\";i:5;}}") (.struct 1) ⟨0, []⟩ Demo.loop).1.take 1 = [.var (.struct [.ptr 0 [], .int 5])] ∧
    (unmarshalMem Demo.W Demo.U 9 (b! "a:1:{s:4:\"next\";a:1:{s:1:\"n\";i:5;}}") (.struct 1) ⟨0, []⟩ Demo.loop).2 = .ok () ∧
    ∀ rest, unmarshal Demo.W 9 (b! "a:1:{s:4:\"next\";a:1:{s:1:\"n\";i:5;}}") (.ptr (.struct 1) (.struct [.ptr (.struct [rest, .int 1]), .int 1])) =
      (some (.struct [.ptr (.struct [rest, .int 5]), .int 1]), .ok ()) := by
  refine ⟨by krfl, by krfl, fun rest => by krfl⟩

end Verif

import Verif.Props.RoundTrip
import Verif.Proofs.CompileFacts
import Verif.Proofs.Containers
import Verif.Spec.Order
/-
A struct in the demo memory, with the types it uses and its parts; for the examples about round trips.
-/
namespace Verif
open Spec

theorem needs_ptr {W : World} {t e t' : Ty} (hr : W.resolve t = .ptr e) (h : Needs W t t') : t' = e := by
  cases h <;> (have hp := ‹Plain W t _›.2; rw [hr] at hp; cases hp; try rfl)

theorem needs_struct {W : World} {t t' : Ty} {id : Nat} (hr : W.resolve t = .struct id) (h : Needs W t t') : ∃ f ∈ W.fields id, t' = f.ty := by
  cases h <;> (have hp := ‹Plain W t _›.2; rw [hr] at hp; cases hp)
  exact ⟨_, by assumption, rfl⟩

theorem needs_scalar {W : World} {t t' : Ty} (hr : ScalarKind (W.resolve t)) (h : Needs W t t') : False := by
  cases h <;> (have hp := ‹Plain W t _›.2; rw [hp] at hr; exact hr)

/-- Struct 30: `F float64 "f,omitempty"`; 31: `X int "-,omitempty"`; 32: `B bool "b,string"`, `I int8 "i,string"`, `U uint64 "u,string,omitempty"`;
33: `X int "x"`, `Y int "x"`; 34: `I int8 "i,string,omitempty"`. -/
def Demo.WC : World := { Demo.WF with
  fields := fun
    | 30 => [⟨b! "F", b! "f,omitempty", true, false, .f64⟩]
    | 31 => [⟨b! "X", b! "-,omitempty", true, false, .int .int⟩]
    | 32 => [⟨b! "B", b! "b,string", true, false, .bool⟩, ⟨b! "I", b! "i,string", true, false, .int .i8⟩, ⟨b! "U", b! "u,string,omitempty", true, false, .uint .u64⟩]
    | 33 => [⟨b! "X", b! "x", true, false, .int .int⟩, ⟨b! "Y", b! "x", true, false, .int .int⟩]
    | 34 => [⟨b! "I", b! "i,string,omitempty", true, false, .int .i8⟩]
    | i => Demo.fields i
  structZero := fun
    | 30 => .struct [.f64 0]
    | 31 => .struct [.int 0]
    | 32 => .struct [.bool false, .int 0, .uint 0]
    | 33 => .struct [.int 0, .int 0]
    | 34 => .struct [.int 0]
    | i => Demo.structZero i }

theorem Demo.zeroOk : ZeroOk Demo.WC := by
  refine ⟨fun id => ?_, fun id => ?_⟩
  · rcases id with _ | _ | _ | _ | id <;> rfl
  · show Demo.WC.structZero id = .struct ((Demo.WC.fields id).map fun f => Demo.WC.zero f.ty)
    unfold Demo.WC
    dsimp only
    split <;> try rfl
    rcases id with _ | _ | _ | _ | _ | id <;> rfl

theorem Demo.convert32 : Convert32 Demo.WC := ⟨rfl, rfl, by unfold NaN32; decide⟩

theorem Demo.wc_mar (t : Ty) : Demo.WC.marOf t = false := Demo.noMarshaler t

theorem Demo.uses0 {t' : Ty} (hu : Uses Demo.WC (.ptr (.struct 0)) t') :
    t' ∈ [Ty.ptr (.struct 0), .struct 0, .int .int, .str, .ptr (.int .i64), .int .i64] := by
  induction hu with
  | refl => simp
  | step _ hn ih =>
    simp only [List.mem_cons, List.not_mem_nil, or_false] at ih
    rcases ih with rfl | rfl | rfl | rfl | rfl | rfl
    · rw [needs_ptr rfl hn]; simp
    · obtain ⟨f, hf, rfl⟩ := needs_struct (id := 0) rfl hn
      simp [Demo.WC, Demo.fields] at hf
      rcases hf with rfl | rfl | rfl | rfl | rfl <;> simp
    · exact (needs_scalar (by simp [ScalarKind, World.resolve]) hn).elim
    · exact (needs_scalar (by simp [ScalarKind, World.resolve]) hn).elim
    · rw [needs_ptr rfl hn]; simp
    · exact (needs_scalar (by simp [ScalarKind, World.resolve]) hn).elim

theorem Demo.ordinary0 {t' : Ty} (hu : Uses Demo.WC (.ptr (.struct 0)) t') : Ordinary Demo.WC t' := by
  have := Demo.uses0 hu
  simp only [List.mem_cons, List.not_mem_nil, or_false] at this
  rcases this with rfl | rfl | rfl | rfl | rfl | rfl <;> exact ⟨rfl, Demo.wc_mar _, by simp [World.resolve, OrdinaryKind]⟩

/-- The parts of the struct at 3200. -/
abbrev Demo.parts : List (Ty × GV) := [(.ptr (.struct 0), .ptr 3200), (.struct 0, .struct [.int 7, .str [], .int 1, .int 2, .ptr 2000]), (.int .int, .int 7),
  (.str, .str []), (.ptr (.int .i64), .ptr 2000), (.int .i64, .int 42)]

theorem Demo.parts_closed {t t' : Ty} {v v' : GV} (hp : Part Demo.WC Demo.heap t v t' v') (hm : (t, v) ∈ Demo.parts) : (t', v') ∈ Demo.parts := by
  simp only [List.mem_cons, Prod.mk.injEq, List.not_mem_nil, or_false] at hm
  rcases hm with ⟨rfl, rfl⟩ | ⟨rfl, rfl⟩ | ⟨rfl, rfl⟩ | ⟨rfl, rfl⟩ | ⟨rfl, rfl⟩ | ⟨rfl, rfl⟩
  · cases hp with | ptr hr => cases hr; simp [Demo.heap, Demo.heapDeref]
  · generalize hv : GV.struct [.int 7, .str [], .int 1, .int 2, .ptr 2000] = v at hp
    cases hp with
    | ptr => cases hv
    | slice => cases hv
    | array => cases hv
    | map => cases hv
    | iface => cases hv
    | field hr hf hx he hk =>
      rename_i i
      cases hr
      cases hv
      rcases i with _ | _ | _ | _ | _ | i
      · simp [Demo.WC, Demo.fields] at hf hx; subst hf hx; simp
      · simp [Demo.WC, Demo.fields] at hf hx; subst hf hx; simp
      · simp [Demo.WC, Demo.fields] at hf; subst hf; cases he
      · simp [Demo.WC, Demo.fields] at hf; subst hf; exact absurd (hasKey_iff.2 rfl) hk
      · simp [Demo.WC, Demo.fields] at hf hx; subst hf hx; simp
      · simp at hx
  · cases hp
  · cases hp
  · cases hp with | ptr hr => cases hr; simp [Demo.heap, Demo.heapDeref]
  · cases hp

theorem Demo.within3200 {t' : Ty} {v' : GV} (hw : Within Demo.WC Demo.heap (.ptr (.struct 0)) (.ptr 3200) t' v') : (t', v') ∈ Demo.parts := by
  have : ∀ {t v t1 v1}, Within Demo.WC Demo.heap t v t1 v1 → (t, v) ∈ Demo.parts → (t1, v1) ∈ Demo.parts := fun hw hm => by
    induction hw with
    | refl => exact hm
    | step hp _ ih => exact ih (Demo.parts_closed hp hm)
  exact this hw (by simp)

theorem Demo.fit3200 {t' : Ty} {v' : GV} (hw : Within Demo.WC Demo.heap (.ptr (.struct 0)) (.ptr 3200) t' v') : Fit Demo.WC Demo.heap t' v' := by
  have := Demo.within3200 hw
  simp only [List.mem_cons, Prod.mk.injEq, List.not_mem_nil, or_false] at this
  rcases this with ⟨rfl, rfl⟩ | ⟨rfl, rfl⟩ | ⟨rfl, rfl⟩ | ⟨rfl, rfl⟩ | ⟨rfl, rfl⟩ | ⟨rfl, rfl⟩
  · intro e he; cases he; simp [Demo.heap, Demo.heapDeref]
  · trivial
  · intro k hk; cases hk; unfold InRange; decide
  · trivial
  · intro e he; cases he; simp [Demo.heap, Demo.heapDeref]
  · intro k hk; cases hk; unfold InRange; decide

/-- The document written for it. -/
def Demo.doc3200 : Doc := .arr (b! "2") [(.str (b! "1") (b! "a"), .int (b! "7")), (.str (b! "1") (b! "e"), .str (b! "2") (b! "42"))]

theorem Demo.doc3200_lax : Lax 1 Demo.doc3200 := by
  have d1 : LenText (b! "1") 1 := ⟨by unfold IsDigits; decide, rfl, by decide⟩
  refine .arr (by unfold IsDigits; decide) (fun k v hm => ?_) (fun k v hm => ?_) <;> simp at hm <;> rcases hm with ⟨rfl, rfl⟩ | ⟨rfl, rfl⟩
  · exact .str d1
  · exact .str d1
  · exact .int (.pos (by unfold IsDigits; decide))
  · exact .str ⟨by unfold IsDigits; decide, rfl, by decide⟩

/-! The type `[1][1]…[]int` and a value with a nil slice inside. -/

def Demo.nestTy : Nat → Ty
  | 0 => .slice (.int .int)
  | k + 1 => .array 1 (Demo.nestTy k)

def Demo.nestVal : Nat → GV
  | 0 => .sliceNil
  | k + 1 => .arr [Demo.nestVal k]

def Demo.nestDoc : Nat → Doc
  | 0 => .null
  | k + 1 => .arr (natText 1) [(.int (natText 0), Demo.nestDoc k)]

theorem Demo.nest_compile (k : Nat) (s : List Ty) : ∃ f s', compileE Demo.WC f s (Demo.nestTy k) = .ok s' := by
  induction k generalizing s with
  | zero =>
    by_cases h : s.contains (Ty.slice (.int .int))
    · exact ⟨2, s, by simp only [compileE, Demo.nestTy, Demo.wc_mar, World.resolve, compileESlice, h, if_true]; rfl⟩
    · exact ⟨2, Ty.slice (.int .int) :: s, by simp only [compileE, Demo.nestTy, Demo.wc_mar, World.resolve, compileESlice, h]; rfl⟩
  | succ k ih =>
    obtain ⟨f, s', h⟩ := ih []
    exact ⟨f + 1, s, by simp [compileE, Demo.nestTy, Demo.wc_mar, World.resolve, h]⟩

theorem Demo.nest_text (k : Nat) : (Demo.nestDoc (k + 1)).text = arrText 1 idxDoc fun _ => (Demo.nestDoc k).text := by
  simp [Demo.nestDoc, Doc.text, pairsText, arrText, bodyText, idxDoc]

theorem Demo.nest_enc (k : Nat) (p : Path) : EncC Demo.WC Demo.heap .typed [] p (Demo.nestTy k) (Demo.nestVal k) (Demo.nestDoc k).text := by
  induction k generalizing p with
  | zero => exact .plain (Demo.wc_mar _) (by simp [Demo.nestTy]) rfl (.sliceNil rfl)
  | succ k ih =>
    rw [Demo.nest_text]
    refine .plain (Demo.wc_mar _) (by simp [Demo.nestTy]) rfl (.array (n := 1) (e := Demo.nestTy k) (vs := [Demo.nestVal k]) rfl rfl fun i v hv => ?_)
    rcases i with _ | i
    · cases hv; exact ih _
    · simp at hv

theorem Demo.nest_compileD (k : Nat) : compileD Demo.WC (k + 2) [] (Demo.nestTy k) = .ok () := by
  induction k with
  | zero => rfl
  | succ k ih => exact ih

theorem Demo.nest_reject {k n : Nat} {v v' : Val} (h : DecDoc Demo.WC (Demo.nestTy k) n (Demo.nestDoc k) v v') : k < n := by
  induction k generalizing n v v' with
  | zero =>
    rcases n with _ | n
    · cases h with
      | bytesNull hp hb => cases hp.2; cases hb
      | _ => simp_all [Plain, World.resolve, World.unmOf, Demo.nestTy]
    · omega
  | succ k ih =>
    obtain ⟨m, rfl⟩ : ∃ m, n = m + 1 := by
      rcases n with _ | n
      · cases h
        all_goals simp_all [Plain, World.resolve, World.unmOf, Demo.nestTy]
      · exact ⟨n, rfl⟩
    obtain ⟨-, vs, -, h⟩ := (decDoc_array_iff (l := 1) (e := Demo.nestTy k) ⟨rfl, rfl⟩).1 h
    cases h with
    | store _ _ _ h _ => exact Nat.succ_lt_succ (ih h)
    | skip h _ hi =>
      have := intText_unique h (.pos (natText_digits 0))
      rw [natText_val] at this
      simp at hi
      omega

theorem Demo.nest_depth (k : Nat) : (Demo.nestDoc k).depth = k := by
  induction k with
  | zero => rfl
  | succ k ih => simp [Demo.nestDoc, Doc.depth, pairsDepth, ih]

theorem Demo.nest_length (k : Nat) : (Demo.nestDoc k).text.length = 10 * k + 2 := by
  induction k with
  | zero => rfl
  | succ k ih =>
    have h1 : (natText 1).length = 1 := rfl
    have h0 : (natText 0).length = 1 := rfl
    simp [Demo.nestDoc, Doc.text, pairsText, ih, h0, h1]
    omega

theorem Demo.nest_lax (k : Nat) : Lax k (Demo.nestDoc k) := by
  induction k with
  | zero => exact .null
  | succ k ih =>
    refine .arr (natText_digits 1) (fun a b hm => ?_) (fun a b hm => ?_) <;> simp at hm <;> obtain ⟨rfl, rfl⟩ := hm
    · exact .int (.pos (natText_digits 0))
    · exact ih

/-- The demo memory with its map iterated in the other order. -/
def Demo.heap' : Heap := { Demo.heap with
  iter := fun
    | .str, .int .int, [], 5000 => [(.str (b! "k"), .int 1), (.str (b! "l"), .int 2)]
    | k, e, p, a => Demo.heap.iter k e p a }

theorem Demo.reordered : Reordered Demo.heap Demo.heap' := by
  have hi : ∀ k e p a, Demo.heap'.iter k e p a = if k = .str ∧ e = .int .int ∧ a = 5000 then [(.str (b! "k"), .int 1), (.str (b! "l"), .int 2)] else [] := by
    intro k e p a
    by_cases h : k = .str ∧ e = .int .int ∧ a = 5000
    · obtain ⟨rfl, rfl, rfl⟩ := h
      cases p <;> rfl
    · simp only [h, if_false]
      show (match k, e, p, a with
        | .str, .int .int, [], 5000 => [(.str (b! "k"), .int 1), (.str (b! "l"), .int 2)]
        | k, e, p, a => Demo.heapIter k e p a) = []
      split
      · simp at h
      · unfold Demo.heapIter
        split <;> first | rfl | simp at h
  refine ⟨rfl, rfl, fun k e p p' a => ?_⟩
  rw [hi]
  by_cases h : k = .str ∧ e = .int .int ∧ a = 5000
  · obtain ⟨rfl, rfl, rfl⟩ := h
    cases p with
    | nil => exact .swap _ _ _
    | cons => exact .refl _
  · simp only [h, if_false]
    show (Demo.heapIter k e p a).Perm []
    unfold Demo.heapIter
    split <;> first | exact .refl _ | simp at h

end Verif

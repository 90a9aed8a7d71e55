import Verif.Proofs.Return
import Verif.Props.Reorder
import Verif.Props.Composite
import Verif.Props.Range
/-
C93: a value comes back even if the entries of the text are put into another order on the way.
-/
namespace Verif
open Spec

/-- C93: what `Marshal` writes for a value has no key twice in an array; and whichever order the entries are put into before `Unmarshal` reads the text, at
any depth, the value comes back: `v1` is the value as `C06_roundtrip_partial` has it, and what is stored differs from it in the order in which maps list their
entries only. The hypotheses are those of `C06_roundtrip_partial`, for the types of all fields, and that strconv writes floats without semicolons. -/
theorem C93_rearranged (W : World) (h : Heap) (hz : ZeroOk W) (hc : Convert32 W) (hf : FloatTextsOk W) (t : Ty) (v : GV)
    (hty : ∀ t', Reach W t t' → Ordinary W t') (hfit : ∀ t' v', Within W h t v t' v' → Fit W h t' v')
    (tx : Bytes) (hm : MarshalGives W h (some (t, v)) (.ok tx)) (hl : tx.length < 2 ^ 63) (fuel : Nat) (hcomp : compileD W fuel [] t = .ok ()) :
    ∃ d, tx = d.text ∧ KeysOnce d ∧ (Levels 10000 d → ∀ d', Rearranged d d' →
      ∃ v1 v2, SameVal W h t v v1 ∧ unmarshal W fuel d'.text (.ptr t (W.zero t)) = (some v2, .ok ()) ∧ SameMaps True v1 v2) := by
  have hu : ∀ t', Uses W t t' → Ordinary W t' := fun t' hu => hty t' (reach_of_uses hu)
  obtain ⟨d, rfl, hd⟩ := encG_writable (marshalGives_ok_iff.1 hm).2 fun t' v' hw => sound_of_fit hu hcomp hw (hfit t' v' hw)
  have hlax : Lax d.depth d := lax_of_strict (wf_writable hf (hd hl) hl)
  refine ⟨d, rfl, once_writable (hd hl), fun hlv d' hs => ?_⟩
  obtain ⟨v1, h1, h2⟩ := C06_roundtrip_partial W h hz hc t v hu hfit d.text hm hl ⟨d, _, rfl, hlax, hlv⟩ fuel hcomp
  obtain ⟨v2, h3, h4⟩ := C92_value W t (fun t' i hr hp => by have := (hty t' hr).kind; rw [hp.2] at this; exact this)
    (fun t' k e hr hp => (hty k (.step hr (.mapKey hp))).unm) (fun t' id d d' v hr hx => by rw [(hty t' hr).unm] at hx; cases hx)
    (W.zero t) v1 fuel d d' hs (once_writable (hd hl)) ⟨_, hlax⟩ hl h2
  exact ⟨v1, v2, h1, h3, h4⟩

/-- C93: without maps in the type, the very value that comes back from the text as it was written. -/
theorem C93_same (W : World) (h : Heap) (hz : ZeroOk W) (hc : Convert32 W) (hf : FloatTextsOk W) (t : Ty) (v : GV)
    (hty : ∀ t', Reach W t t' → Ordinary W t' ∧ ∀ k e, W.resolve t' ≠ .map k e) (hfit : ∀ t' v', Within W h t v t' v' → Fit W h t' v')
    (tx : Bytes) (hm : MarshalGives W h (some (t, v)) (.ok tx)) (hl : tx.length < 2 ^ 63) (fuel : Nat) (hcomp : compileD W fuel [] t = .ok ()) :
    ∃ d, tx = d.text ∧ (Levels 10000 d → ∃ v', SameVal W h t v v' ∧ ∀ d', Rearranged d d' →
      unmarshal W fuel d'.text (.ptr t (W.zero t)) = (some v', .ok ())) := by
  have hu : ∀ t', Uses W t t' → Ordinary W t' := fun t' hu => (hty t' (reach_of_uses hu)).1
  obtain ⟨d, rfl, hd⟩ := encG_writable (marshalGives_ok_iff.1 hm).2 fun t' v' hw => sound_of_fit hu hcomp hw (hfit t' v' hw)
  have hlax : Lax d.depth d := lax_of_strict (wf_writable hf (hd hl) hl)
  refine ⟨d, rfl, fun hlv => ?_⟩
  obtain ⟨v1, h1, h2⟩ := C06_roundtrip_partial W h hz hc t v hu hfit d.text hm hl ⟨d, _, rfl, hlax, hlv⟩ fuel hcomp
  have no : ∀ t' k, Reach W t t' → Plain W t' k → OrdinaryKind k := fun t' k hr hp => by have := (hty t' hr).1.kind; rwa [hp.2] at this
  exact ⟨v1, h1, fun d' hs => (C92_equal W t (fun t' i hr => ⟨no t' _ hr, no t' _ hr⟩) (fun t' k e hr hp => (hty t' hr).2 k e hp.2)
    (fun t' id d d' v hr hx => by rw [(hty t' hr).1.unm] at hx; cases hx) (W.zero t) v1 fuel d d' hs (once_writable (hd hl)) ⟨_, hlax⟩ hl).1 h2⟩

namespace Demo

theorem reach0 {t' : Ty} (hr : Reach WC (.ptr (.struct 0)) t') :
    t' = .ptr (.struct 0) ∨ t' = .struct 0 ∨ t' = .int .int ∨ t' = .str ∨ t' = .ptr (.int .i64) ∨ t' = .int .i64 := by
  induction hr with
  | refl => simp
  | step _ hc ih =>
    rcases ih with rfl | rfl | rfl | rfl | rfl | rfl <;> cases hc with
    | field h hf =>
      first
        | (cases h.2; done)
        | (cases h.2
           simp only [WC, fields, List.mem_cons, List.not_mem_nil, or_false] at hf
           rcases hf with rfl | rfl | rfl | rfl | rfl <;> simp)
    | _ h => cases h.2 <;> simp

theorem reachMap {t' : Ty} (hr : Reach WC (.map .str (.int .int)) t') : t' = .map .str (.int .int) ∨ t' = .str ∨ t' = .int .int := by
  induction hr with
  | refl => simp
  | step _ hc ih =>
    rcases ih with rfl | rfl | rfl <;> cases hc with
    | field h hf => cases h.2
    | _ h => cases h.2 <;> simp

theorem fitMap {t' : Ty} {v' : GV} (hw : Within WC heap (.map .str (.int .int)) (.map 5000) t' v') : Fit WC heap t' v' := by
  have hi : ∀ p x, x ∈ heap.iter .str (.int .int) p 5000 → x = (.str (b! "k"), .int 1) ∨ x = (.str (b! "l"), .int 2) := by
    intro p x hx
    cases p <;> simp only [heap, heapIter, List.mem_cons, List.not_mem_nil, or_false] at hx
    · exact hx.symm
    · exact hx
  cases hw with
  | refl =>
    intro k e p hr
    cases hr
    refine ⟨?_, fun x hx => ?_⟩
    · cases p <;> simp [heap, heapIter]
    · rcases hi p x hx with rfl | rfl <;> trivial
  | step hp hw =>
    cases hp with
    | map hr hm =>
      cases hr
      have : ∃ i : Int, v' = .int i ∧ 0 ≤ i ∧ i ≤ 2 ∧ t' = .int .int := by
        rcases hi _ _ hm with h | h <;> cases h <;> cases hw with
        | refl => exact ⟨_, rfl, by omega, by omega, rfl⟩
        | step hp => cases hp
      obtain ⟨i, rfl, h1, h2, rfl⟩ := this
      intro k hk
      cases hk
      have : intMax .int = 9223372036854775807 := rfl
      unfold InRange
      omega

end Demo

-- a map[string]int
example : ∃ d, b! "a:2:{s:1:\"l\";i:2;s:1:\"k\";i:1;}" = d.text ∧ KeysOnce d ∧ (Levels 10000 d → ∀ d', Rearranged d d' → ∃ v1 v2,
    SameVal Demo.WC Demo.heap (.map .str (.int .int)) (.map 5000) v1 ∧
    unmarshal Demo.WC 4 d'.text (.ptr (.map .str (.int .int)) .mapNil) = (some v2, .ok ()) ∧ SameMaps True v1 v2) :=
  C93_rearranged Demo.WC Demo.heap Demo.zeroOk Demo.convert32 Demo.wc_floats (.map .str (.int .int)) (.map 5000)
    (fun t' hr => by rcases Demo.reachMap hr with rfl | rfl | rfl <;> exact ⟨rfl, Demo.wc_mar _, by simp [World.resolve, OrdinaryKind]⟩)
    (fun _ _ => Demo.fitMap) _ (marshalGives_of (cf := 9) (f := 9) (by simp) (by rfl)) (by decide) 4 (by rfl)

example : unmarshal Demo.WC 4 (b! "a:2:{s:1:\"k\";i:1;s:1:\"l\";i:2;}") (.ptr (.map .str (.int .int)) .mapNil) =
    (some (.map [(.str (b! "k"), .int 1), (.str (b! "l"), .int 2)]), .ok ()) := by rfl

-- a pointer to the struct `A int "a"`, `B string "b,omitempty"`, unexported `c`, `D int "-"`, `E *int64 "e,string"`
example : ∃ d, Demo.doc3200.text = d.text ∧ (Levels 10000 d → ∃ v', SameVal Demo.WC Demo.heap (.ptr (.struct 0)) (.ptr 3200) v' ∧
    ∀ d', Rearranged d d' → unmarshal Demo.WC 4 d'.text (.ptr (.ptr (.struct 0)) .ptrNil) = (some v', .ok ())) :=
  C93_same Demo.WC Demo.heap Demo.zeroOk Demo.convert32 Demo.wc_floats (.ptr (.struct 0)) (.ptr 3200)
    (fun t' hr => by rcases Demo.reach0 hr with rfl | rfl | rfl | rfl | rfl | rfl <;>
      exact ⟨⟨rfl, Demo.wc_mar _, by simp [World.resolve, OrdinaryKind]⟩, fun k e h => by cases h⟩)
    (fun _ _ => Demo.fit3200) _ (marshalGives_of (cf := 9) (f := 9) (by simp) (by rfl)) (by decide) 4 (by rfl)

example : Demo.doc3200.text = (b! "a:2:{s:1:\"a\";i:7;s:1:\"e\";s:2:\"42\";}") ∧
    unmarshal Demo.WC 4 (b! "a:2:{s:1:\"e\";s:2:\"42\";s:1:\"a\";i:7;}") (.ptr (.ptr (.struct 0)) .ptrNil) =
      (some (.ptr (.struct [.int 7, .str [], .int 0, .int 0, .ptr (.int 42)])), .ok ()) := ⟨by rfl, by rfl⟩

end Verif

import Verif.Proofs.Used
import Verif.Props.DemoBack
import Verif.Props.DemoEnc
import Verif.Props.DemoFacts
/-
A world with one struct type, a linked list, for the examples of C79.
-/
namespace Verif
open Spec Demo

/-- A world with one struct type: `Next *S1 "next"`, `N int "n"`. -/
def Demo.WZ : World := { Demo.WF with
  fields := fun | 1 => Demo.fields 1 | _ => []
  structZero := fun | 1 => .struct [.ptrNil, .int 0] | _ => .struct []
  named := fun _ => ⟨.int .int, false, .none⟩
  namedZero := fun _ => .int 0
  unmarshal := fun _ _ => .err .invalidUnmarshal }

theorem Demo.wz_struct {vs : List Val} (hl : vs.length = 2) (h : ∀ p ∈ (Demo.WZ.fields 1).zip vs, HasTy Demo.WZ (fun _ => True) p.1.ty p.2) :
    HasTy Demo.WZ (fun _ => True) (.struct 1) (.struct vs) := by
  refine .struct (id := 1) rfl hl fun i f v hf hv => ?_
  have : ((Demo.WZ.fields 1).zip vs)[i]? = some (f, v) := by
    rw [List.getElem?_zip_eq_some]; exact ⟨hf, hv⟩
  exact h _ (List.mem_of_getElem? this)

theorem Demo.wz_s1 {x : Val} {n : Int} (hx : HasTy Demo.WZ (fun _ => True) (.ptr (.struct 1)) x) (hn : InRange .int n) :
    HasTy Demo.WZ (fun _ => True) (.struct 1) (.struct [x, .int n]) := by
  refine Demo.wz_struct rfl fun p hp => ?_
  simp [Demo.WZ, Demo.fields] at hp
  rcases hp with rfl | rfl
  · exact hx
  · exact .int rfl hn

theorem Demo.wz_ok : WorldOk Demo.WZ fun _ => True where
  namedOk := fun _ _ h => by cases h
  structZero := fun id => by
    show HasTy Demo.WZ (fun _ => True) (.struct id) (Demo.WZ.structZero id)
    by_cases h : id = 1
    · subst h; exact Demo.wz_s1 (.ptrNil rfl) (inRange_zero _)
    · have h1 : Demo.WZ.structZero id = .struct [] := by simp only [Demo.WZ]
      have h2 : Demo.WZ.fields id = [] := by simp only [Demo.WZ]
      rw [h1]
      exact .struct (id := id) rfl (by rw [h2]; rfl) fun i f v hf => by rw [h2] at hf; cases hf
  namedZero := fun id => .int (k := .int) rfl (inRange_zero _)
  ifaceZero := fun _ _ h => by cases h
  unmarshal := fun _ _ _ h => by cases h
  unmarshalDyn := fun _ _ _ h => h

theorem Demo.wz_zero : ZeroOk Demo.WZ := by
  refine ⟨fun id => rfl, fun id => ?_⟩
  by_cases h : id = 1
  · subst h; rfl
  · have h1 : Demo.WZ.structZero id = .struct [] := by simp only [Demo.WZ]
    have h2 : Demo.WZ.fields id = [] := by simp only [Demo.WZ]
    rw [h1, h2]; rfl

theorem Demo.wz_mar (t : Ty) : Demo.WZ.marOf t = false := by
  have hi : ∀ i, Demo.WZ.ifaceMar i = false := fun _ => rfl
  have hn : ∀ id, (Demo.WZ.named id).mar = .none := fun _ => rfl
  unfold World.marOf
  split <;> simp only [hi, hn] <;> rfl

theorem Demo.wz_uses {t : Ty} (h : Uses Demo.WZ (.struct 1) t) : t = .struct 1 ∨ t = .ptr (.struct 1) ∨ t = .int .int := by
  induction h with
  | refl => exact .inl rfl
  | step _ hn ih =>
    rcases ih with rfl | rfl | rfl
    · obtain ⟨f, hf, rfl⟩ := needs_struct (id := 1) rfl hn
      simp [Demo.WZ, Demo.fields] at hf
      rcases hf with rfl | rfl <;> simp
    · rw [needs_ptr rfl hn]; simp
    · exact (needs_scalar (by simp [ScalarKind, World.resolve]) hn).elim

theorem Demo.wz_ordinary {t : Ty} (h : Uses Demo.WZ (.struct 1) t) : Ordinary Demo.WZ t := by
  rcases Demo.wz_uses h with rfl | rfl | rfl <;> exact ⟨rfl, Demo.wz_mar _, by simp [World.resolve, OrdinaryKind]⟩

theorem Demo.wz_field {f : Field} (hf : f ∈ Demo.WZ.fields 1) : Visible f ∧ ¬ HasKey Demo.WZ f [45] ∧ ¬ HasOmitempty Demo.WZ f := by
  have : f = ⟨b! "Next", b! "next", true, false, .ptr (.struct 1)⟩ ∨ f = ⟨b! "N", b! "n", true, false, .int .int⟩ := by
    simpa [Demo.WZ, Demo.fields] using hf
  rcases this with rfl | rfl <;> refine ⟨⟨rfl, by simp⟩, fun h => ?_, fun ⟨k, s, h⟩ => ?_⟩
  · rw [hasKey_iff] at h; revert h; decide
  · have := (tagMeaning_iff.1 h).2.1; revert this; decide
  · rw [hasKey_iff] at h; revert h; decide
  · have := (tagMeaning_iff.1 h).2.1; revert this; decide

theorem Demo.wz_whole {t : Ty} (h : InPlace Demo.WZ (.struct 1) t) : Whole Demo.WZ t := by
  rcases Demo.wz_uses (uses_of_inPlace h) with rfl | rfl | rfl <;>
    refine ⟨fun _ _ => Demo.wz_mar _, fun _ _ h => ?_, fun _ h => ?_, fun _ h => ?_, fun id h f hf => ?_⟩ <;> cases h.2
  exact Demo.wz_field hf

/-- The struct at 7 has no next one. -/
def Demo.heapZ : Heap := { Demo.heap with deref := fun _ _ => .struct [.ptrNil, .int 8] }

abbrev Demo.partsZ : List (Ty × GV) := [(.struct 1, .struct [.ptr 7, .int 3]), (.ptr (.struct 1), .ptr 7), (.int .int, .int 3), (.struct 1, .struct [.ptrNil, .int 8]),
  (.ptr (.struct 1), .ptrNil), (.int .int, .int 8)]

theorem Demo.wz_part {t t' : Ty} {v v' : GV} (hp : Part Demo.WZ Demo.heapZ t v t' v') (hm : (t, v) ∈ Demo.partsZ) : (t', v') ∈ Demo.partsZ := by
  have hs : ∀ {x n}, Part Demo.WZ Demo.heapZ (.struct 1) (.struct [x, .int n]) t' v' → (t', v') = (.ptr (.struct 1), x) ∨ (t', v') = (.int .int, .int n) := by
    intro x n hp
    generalize hv : GV.struct [x, .int n] = v at hp
    cases hp with
    | @field _ _ _ _ i hr hf hx _ _ =>
      cases hr; cases hv
      rcases i with _ | _ | i
      · cases hf; cases hx; exact .inl rfl
      · cases hf; cases hx; exact .inr rfl
      · simp at hx
    | ptr => cases hv
    | slice => cases hv
    | array => cases hv
    | map => cases hv
    | iface => cases hv
  simp only [List.mem_cons, Prod.mk.injEq, List.not_mem_nil, or_false] at hm
  rcases hm with ⟨rfl, rfl⟩ | ⟨rfl, rfl⟩ | ⟨rfl, rfl⟩ | ⟨rfl, rfl⟩ | ⟨rfl, rfl⟩ | ⟨rfl, rfl⟩
  · rcases hs hp with h | h <;> rw [h] <;> simp
  · cases hp with | ptr hr => cases hr; simp [Demo.heapZ]
  · cases hp
  · rcases hs hp with h | h <;> rw [h] <;> simp
  · cases hp
  · cases hp

theorem Demo.wz_fit {t' : Ty} {v' : GV} (hw : Within Demo.WZ Demo.heapZ (.struct 1) (.struct [.ptr 7, .int 3]) t' v') : Fit Demo.WZ Demo.heapZ t' v' := by
  have hw' : ∀ {t v t' v'}, Within Demo.WZ Demo.heapZ t v t' v' → (t, v) ∈ Demo.partsZ → (t', v') ∈ Demo.partsZ := fun h => by
    clear hw
    induction h with
    | refl => exact id
    | step hp _ ih => exact fun hm => ih (Demo.wz_part hp hm)
  have := hw' hw (by simp)
  simp only [List.mem_cons, Prod.mk.injEq, List.not_mem_nil, or_false] at this
  rcases this with ⟨rfl, rfl⟩ | ⟨rfl, rfl⟩ | ⟨rfl, rfl⟩ | ⟨rfl, rfl⟩ | ⟨rfl, rfl⟩ | ⟨rfl, rfl⟩
  · trivial
  · intro e he; cases he; simp [Demo.heapZ]
  · intro k hk; cases hk; unfold InRange; decide
  · trivial
  · trivial
  · intro k hk; cases hk; unfold InRange; decide

/-- What is written for it. -/
def Demo.docZ : Doc := .arr (b! "2") [(.str (b! "4") (b! "next"), .arr (b! "2") [(.str (b! "4") (b! "next"), .null), (.str (b! "1") (b! "n"), .int (b! "8"))]),
  (.str (b! "1") (b! "n"), .int (b! "3"))]

theorem Demo.wz_marshal : MarshalGives Demo.WZ Demo.heapZ (some (.struct 1, .struct [.ptr 7, .int 3])) (.ok Demo.docZ.text) :=
  marshalGives_of (cf := 9) (f := 9) (by simp) (by rfl)

end Verif

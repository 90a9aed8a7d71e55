import Verif.Props.Any
import Verif.Props.Safety
/-
Preparing a type for decoding: decoder half of C34.
-/
namespace Verif
open Spec Demo

/-- C34 for the decoder, weakened: preparing a type ends whenever its recursion passes through structs. Missing: other
recursive types, for which `C34_decoder_diverges` shows that preparation never ends. -/
theorem C34_decoder_ends_partial (W : World) (t : Ty) (hg : StructGuarded W t) :
    ∃ fuel0, ∀ fuel, fuel0 ≤ fuel → (compileD W fuel [] t = .ok () ∨ ∃ e, compileD W fuel [] t = .err e) := by
  obtain ⟨f0, h0⟩ := ends_of_guarded hg
  refine ⟨f0, fun fuel hf => ?_⟩
  rw [compileD_mono h0 hf]
  cases h : compileD W f0 [] t with
  | ok u => exact .inl rfl
  | err e => exact .inr ⟨e, rfl⟩
  | diverge => exact absurd h h0
  | panic p => exact absurd h compileD_noPanic

/-- A linked list. -/
example : StructGuarded Demo.W (.struct 1) := demo_list_guarded
example : compileD Demo.W 9 [] (.struct 1) = .ok () := rfl

/-- Types whose components of the single-component kinds (pointer, slice, array, without Unmarshaler) go on forever. -/
def EndlessTypes (W : World) (S : Ty → Prop) : Prop :=
  ∀ t, S t → ∃ e, S e ∧ (Plain W t (.ptr e) ∨ (Plain W t (.slice e) ∧ W.isByte e = false) ∨ ∃ n, Plain W t (.array n e))

/-- C34 is false of the decoder: preparing a type that is recursive through slices, arrays or pointers only, like
`type T []T`, never returns; so `Unmarshal` into such a variable never returns either, whatever the (non-empty) input. -/
theorem C34_decoder_diverges (W : World) (S : Ty → Prop) (hS : EndlessTypes W S) (t : Ty) (ht : S t) (fuel : Nat) :
    compileD W fuel [] t = .diverge ∧
    ∀ data v, data ≠ [] → unmarshal W fuel data (.ptr t v) = (some v, .diverge) := by
  have key : ∀ fuel busy t, S t → compileD W fuel busy t = .diverge := by
    intro fuel
    induction fuel with
    | zero => intros; rfl
    | succ f ih =>
      intro busy t ht
      obtain ⟨e, he, h | ⟨h, hb⟩ | ⟨n, h⟩⟩ := hS t ht
      · rw [compileD, h.1, h.2]; simp only [ih busy e he]; rfl
      · rw [compileD, h.1, h.2]; simp only [hb, ih busy e he]; rfl
      · rw [compileD, h.1, h.2]; simp only [ih busy e he]
  refine ⟨key _ _ _ ht, fun data v hd => ?_⟩
  rw [unmarshal_ptr hd, unmarshalInto, key _ _ _ ht]
  rfl

/-- `type T []T` and `type A [1]*A`. -/
theorem C34_decoder_counterexample (fuel : Nat) :
    compileD Demo.W fuel [] (.named 1) = .diverge ∧ compileD Demo.W fuel [] (.named 2) = .diverge := by
  have h : EndlessTypes Demo.W fun t => t = .named 1 ∨ t = .named 2 ∨ t = .ptr (.named 2) := by
    rintro t (rfl | rfl | rfl)
    · exact ⟨_, .inl rfl, .inr (.inl ⟨⟨rfl, rfl⟩, rfl⟩)⟩
    · exact ⟨_, .inr (.inr rfl), .inr (.inr ⟨1, rfl, rfl⟩)⟩
    · exact ⟨_, .inr (.inl rfl), .inl ⟨rfl, rfl⟩⟩
  exact ⟨(C34_decoder_diverges Demo.W _ h _ (.inl rfl) fuel).1, (C34_decoder_diverges Demo.W _ h _ (.inr (.inl rfl)) fuel).1⟩

end Verif

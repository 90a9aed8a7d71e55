import Verif.Proofs.Range
import Verif.Proofs.Reorder
import Verif.Proofs.RoundTree
/-
What is written has no key twice.
-/
namespace Verif
open Spec

variable {W : World} {h : Heap}

theorem reach_of_uses {t t' : Ty} (hu : Uses W t t') : Reach W t t' := by
  induction hu with
  | refl => exact .refl
  | step _ hn ih =>
    refine .step ih ?_
    cases hn with
    | ptr a => exact .ptr a
    | slice a => exact .slice a
    | array a => exact .array a
    | mapKey a => exact .mapKey a
    | mapVal a => exact .mapVal a
    | field a b _ => exact .field a b

/-- A writable document has no key twice. -/
theorem once_writable {d : Doc} (hd : Writable W d) : KeysOnce d := by
  induction hd with
  | null => exact .null
  | bool => exact .bool
  | int => exact .int
  | f64 => exact .float
  | f32 => exact .float
  | str => exact .str
  | @arr es hk hn _ ih =>
    refine .arr ?_ fun k x hm => ih _ hm
    cases hk with
    | str hk =>
      refine hn.imp_of_mem fun {a b} ha hb hne => ?_
      obtain ⟨s, hs⟩ := hk a ha
      obtain ⟨s', hs'⟩ := hk b hb
      rw [hs, hs'] at hne ⊢
      exact .strs fun he => hne (by rw [he])
    | int hk =>
      refine hn.imp_of_mem fun {a b} ha hb hne => ?_
      obtain ⟨i, hi, -⟩ := hk a ha
      obtain ⟨j, hj, -⟩ := hk b hb
      rw [hi, hj] at hne ⊢
      exact .ints (intText_spec i) (intText_spec j) fun he => hne (by rw [he])
    | uint hk =>
      refine hn.imp_of_mem fun {a b} ha hb hne => ?_
      obtain ⟨i, hi, -⟩ := hk a ha
      obtain ⟨j, hj, -⟩ := hk b hb
      rw [hi, hj] at hne ⊢
      exact .ints (intText_spec (i : Int)) (intText_spec (j : Int)) fun he => hne (by rw [Int.ofNat.inj he])

/-- Values that come back are values as Go has them. -/
theorem sound_of_fit {t t' : Ty} {v v' : GV} (hty : ∀ t', Uses W t t' → Ordinary W t') {fuel : Nat} (hcomp : compileD W fuel [] t = .ok ())
    (hw : Within W h t v t' v') (hf : Fit W h t' v') : Sound W h t' v' := by
  have hu := within_uses hty hw .refl
  have ho := hty _ hu
  refine ⟨ho.mar, ?_, fun a k e p hv hr => ?_, fun id hr i j f g k hi hj ef eg kf kg hk => ?_⟩
  · cases v' <;> first | exact hf | trivial
  · subst hv; exact hf k e p hr
  · have vis : ∀ {f : Field}, f.exported = true → HasKey W f k → Visible f := fun {f} he hkf =>
      ⟨he, fun ht => hk (by
        have := hasKey_iff.1 hkf
        rw [← this]; simp [structTag, ht]; rfl)⟩
    exact (compileD_uses hcomp hu).keys id ⟨ho.unm, hr⟩ i j f g k hi hj (vis ef kf) (vis eg kg) kf kg

end Verif

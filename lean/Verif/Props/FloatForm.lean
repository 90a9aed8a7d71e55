import Verif.Props.DemoFloat
import Verif.Proofs.FloatForm
/-
C66: which of the two forms of a float is written.
-/
namespace Verif
open Spec

/-- Whether a number with the given bits is written with an exponent, by the limits `lo` and `hi`. -/
def Scientific (lo hi mag : Nat) : Prop := mag ≠ 0 ∧ (mag < lo ∨ hi ≤ mag)

/-- A finite float64 is written in the form with an exponent exactly when it is not zero and its absolute value is below the float64
nearest to 0.000001, or at least 10^21. -/
theorem C66_float64 (W : World) (h : Heap) (t : Ty) (ht : Plain W t .f64) (hm : W.marOf t = false) (x : UInt64) (hx : Finite64 x)
    (lo hi : Nat) (hlo : Near64 1 (10 ^ 6) lo) (hhi : Near64 (10 ^ 21) 1 hi) :
    (Scientific lo hi (mag64 x) → MarshalGives W h (some (t, .f64 x)) (.ok (b! "d:" ++ W.fmtF64 true x ++ b! ";"))) ∧
    (¬ Scientific lo hi (mag64 x) → MarshalGives W h (some (t, .f64 x)) (.ok (b! "d:" ++ W.fmtF64 false x ++ b! ";"))) := by
  rw [near64_unique (by decide) hlo near64_micro, near64_unique (by decide) hhi near64_e21]
  have hs := sci64_iff hx
  constructor
  · intro h1
    exact marshal_scalar hm (.f64 ht.2 (float_out64 hx (.inl ⟨hs.2 h1, rfl⟩)))
  · intro h1
    exact marshal_scalar hm (.f64 ht.2 (float_out64 hx (.inr ⟨fun h => h1 (hs.1 h), rfl⟩)))

/-- The limits exist, 1.0 is between them and 1e-7 and 1e300 are not. -/
example : Near64 1 (10 ^ 6) 0x3EB0C6F7A0B5ED8D ∧ Near64 (10 ^ 21) 1 0x444B1AE4D6E2EF50 ∧
    ¬ Scientific 0x3EB0C6F7A0B5ED8D 0x444B1AE4D6E2EF50 (mag64 0x3FF0000000000000) ∧
    Scientific 0x3EB0C6F7A0B5ED8D 0x444B1AE4D6E2EF50 (mag64 0xBE7AD7F29ABCAF48) ∧
    Scientific 0x3EB0C6F7A0B5ED8D 0x444B1AE4D6E2EF50 (mag64 0x7E37E43C8800759C) :=
  ⟨near64_micro, near64_e21, by unfold Scientific; decide, by unfold Scientific; decide, by unfold Scientific; decide⟩

/-- The same for float32, with the float32 nearest to 0.000001 and to 10^21. -/
theorem C66_float32 (W : World) (h : Heap) (t : Ty) (ht : Plain W t .f32) (hm : W.marOf t = false) (x : UInt32) (hx : Finite32 x)
    (lo hi : Nat) (hlo : Near32 1 (10 ^ 6) lo) (hhi : Near32 (10 ^ 21) 1 hi) :
    (Scientific lo hi (mag32 x) → MarshalGives W h (some (t, .f32 x)) (.ok (b! "d:" ++ W.fmtF32 true x ++ b! ";"))) ∧
    (¬ Scientific lo hi (mag32 x) → MarshalGives W h (some (t, .f32 x)) (.ok (b! "d:" ++ W.fmtF32 false x ++ b! ";"))) := by
  rw [near32_unique (by decide) hlo near32_micro, near32_unique (by decide) hhi near32_e21]
  have hs := sci32_iff hx
  constructor
  · intro h1
    exact marshal_scalar hm (.f32 ht.2 (float_out32 hx (.inl ⟨hs.2 h1, rfl⟩)))
  · intro h1
    exact marshal_scalar hm (.f32 ht.2 (float_out32 hx (.inr ⟨fun h => h1 (hs.1 h), rfl⟩)))

example : Near32 1 (10 ^ 6) 0x358637BD ∧ Near32 (10 ^ 21) 1 0x6258D727 ∧ ¬ Scientific 0x358637BD 0x6258D727 (mag32 0xC0000000) ∧
    Scientific 0x358637BD 0x6258D727 (mag32 1) := ⟨near32_micro, near32_e21, by unfold Scientific; decide, by unfold Scientific; decide⟩

end Verif

import Verif.Proofs.FloatText
import Verif.Proofs.RoundScalar
/-
Helper lemmas about the limits between the two forms of floats.
-/
namespace Verif
open Spec

set_option exponentiation.threshold 2100

theorem near64_micro : Near64 1 (10 ^ 6) 0x3EB0C6F7A0B5ED8D :=
  near64_of (by decide) (by decide) (by decide) (by decide +kernel) (by decide +kernel)

theorem near64_e21 : Near64 (10 ^ 21) 1 0x444B1AE4D6E2EF50 :=
  near64_of (by decide) (by decide) (by decide) (by decide +kernel) (by decide +kernel)

theorem near32_micro : Near32 1 (10 ^ 6) 0x358637BD :=
  near32_of (by decide) (by decide) (by decide) (by decide +kernel) (by decide +kernel)

theorem near32_e21 : Near32 (10 ^ 21) 1 0x6258D727 :=
  near32_of (by decide) (by decide) (by decide) (by decide +kernel) (by decide +kernel)

theorem and_mag64 (x : UInt64) : (x &&& 0x7FFFFFFFFFFFFFFF).toNat = mag64 x := by
  unfold mag64
  rw [UInt64.toNat_and, show (0x7FFFFFFFFFFFFFFF : UInt64).toNat = 2 ^ 63 - 1 from rfl, Nat.and_two_pow_sub_one_eq_mod]

theorem and_mag32 (x : UInt32) : (x &&& 0x7FFFFFFF).toNat = mag32 x := by
  unfold mag32
  rw [UInt32.toNat_and, show (0x7FFFFFFF : UInt32).toNat = 2 ^ 31 - 1 from rfl, Nat.and_two_pow_sub_one_eq_mod]

theorem not_nan64 {x : UInt64} (h : Finite64 x) : ¬ NaN64 x := by
  intro h1
  unfold NaN64 at h1
  unfold Finite64 at h
  rw [UInt64.lt_iff_toNat_lt] at *
  omega

theorem not_nan32 {x : UInt32} (h : Finite32 x) : ¬ NaN32 x := by
  intro h1
  unfold NaN32 at h1
  unfold Finite32 at h
  rw [UInt32.lt_iff_toNat_lt] at *
  omega

theorem sci64_iff {x : UInt64} (h : Finite64 x) :
    Sci64 x ↔ mag64 x ≠ 0 ∧ (mag64 x < 0x3EB0C6F7A0B5ED8D ∨ 0x444B1AE4D6E2EF50 ≤ mag64 x) := by
  unfold Sci64
  rw [UInt64.lt_iff_toNat_lt, UInt64.le_iff_toNat_le, ne_eq, ← UInt64.toNat_inj, and_mag64]
  exact ⟨fun h => h.2, fun h1 => ⟨not_nan64 h, h1⟩⟩

theorem sci32_iff {x : UInt32} (h : Finite32 x) :
    Sci32 x ↔ mag32 x ≠ 0 ∧ (mag32 x < 0x358637BD ∨ 0x6258D727 ≤ mag32 x) := by
  unfold Sci32
  rw [UInt32.lt_iff_toNat_lt, UInt32.le_iff_toNat_le, ne_eq, ← UInt32.toNat_inj, and_mag32]
  exact ⟨fun h => h.2, fun h1 => ⟨not_nan32 h, h1⟩⟩

theorem float_out64 {W : World} {x : UInt64} {txt : Bytes} (h : Finite64 x) (ht : FmtText64 W x txt) : FloatOut64 W x txt :=
  .finite (not_nan64 h) (by rintro rfl; exact absurd (finite64_iff.1 h) (by decide)) (by rintro rfl; exact absurd (finite64_iff.1 h) (by decide)) ht

theorem float_out32 {W : World} {x : UInt32} {txt : Bytes} (h : Finite32 x) (ht : FmtText32 W x txt) : FloatOut32 W x txt :=
  .finite (not_nan32 h) (by rintro rfl; exact absurd (finite32_iff.1 h) (by decide)) (by rintro rfl; exact absurd (finite32_iff.1 h) (by decide)) ht

end Verif

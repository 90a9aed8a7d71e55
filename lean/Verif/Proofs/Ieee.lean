import Verif.Proofs.Near
import Verif.Proofs.RoundScalar
/-
Rounding to float64 and then to float32, and the bits of floats.
-/
namespace Verif
open Spec

set_option exponentiation.threshold 2100

/-- Rounding twice. `G` are the coarse numbers, `F` the fine ones, which contain the means of neighbouring coarse ones. -/
theorem round_twice {F G : Nat → Nat} (hF : Incr F) (hG : Incr G) {tf tg P Q den num n k : Nat} (hP : 0 < P) (hQ : 0 < Q) (hd : 0 < den)
    (hmid : ∀ n, n < tg → ∃ h, h ≤ tf ∧ 2 * F h = (G n + G (n + 1)) * Q)
    (h1 : Nearest (fun m => G m * den) tg (num * P) n) (hn : n < tg) (h2 : Nearest (fun m => F m * den) tf (num * (P * Q)) k) :
    ∃ n', Nearest (fun m => G m * (P * Q)) tg (F k * P) n' ∧
      (∀ h, h + 1 = n → (G h + G n) * Q ≤ 2 * F k) ∧ 2 * F k ≤ (G n + G (n + 1)) * Q ∧
      (n' = n ∨ (n % 2 = 1 ∧ n' = n + 1 ∧ 2 * F k = (G n + G (n + 1)) * Q) ∨
        (n % 2 = 1 ∧ n' + 1 = n ∧ 2 * F k = (G n' + G n) * Q)) := by
  have iF := incr_scale hF hd
  have iG := incr_scale hG hd
  have iQ := incr_scale hG hQ
  -- the bounds pass to the fine number
  have hup : 2 * F k ≤ (G n + G (n + 1)) * Q := by
    obtain ⟨m, m1, m2⟩ := hmid n hn
    have a := h1.above iG hn
    have b : num * P * 2 ≤ (G n + G (n + 1)) * den := by rw [Nat.add_mul]; omega
    have c : num * (P * Q) ≤ F m * den := by
      have := Nat.mul_le_mul_right Q b
      have e1 : num * P * 2 * Q = 2 * (num * (P * Q)) := by simp only [Nat.mul_comm, Nat.mul_left_comm, Nat.mul_assoc]
      have e2 : (G n + G (n + 1)) * den * Q = 2 * (F m * den) := by
        rw [← Nat.mul_assoc, m2, Nat.mul_assoc, Nat.mul_assoc, Nat.mul_comm den]
      omega
    have := hF.le (h2.le iF m1 c)
    omega
  have hdown : ∀ h, h + 1 = n → (G h + G n) * Q ≤ 2 * F k := by
    rintro h rfl
    obtain ⟨m, m1, m2⟩ := hmid h (by omega)
    have a := h1.below iG h rfl
    have b : (G h + G (h + 1)) * den ≤ num * P * 2 := by rw [Nat.add_mul]; omega
    have c : F m * den ≤ num * (P * Q) := by
      have := Nat.mul_le_mul_right Q b
      have e1 : num * P * 2 * Q = 2 * (num * (P * Q)) := by simp only [Nat.mul_comm, Nat.mul_left_comm, Nat.mul_assoc]
      have e2 : (G h + G (h + 1)) * den * Q = 2 * (F m * den) := by
        rw [← Nat.mul_assoc, m2, Nat.mul_assoc, Nat.mul_assoc, Nat.mul_comm den]
      omega
    have := hF.le (h2.ge iF m1 c)
    omega
  have hconv : ∀ n', Nearest (fun m => G m * Q) tg (F k) n' → Nearest (fun m => G m * (P * Q)) tg (F k * P) n' := fun n' h => by
    have h' := (nearest_mul (T := fun m => G m * Q) hP).2 h
    have e : (fun m => G m * (P * Q)) = (fun m => G m * Q * P) := by
      funext m; rw [Nat.mul_assoc, Nat.mul_comm Q P]
    rw [e]; exact h'
  by_cases hu : 2 * F k = (G n + G (n + 1)) * Q
  · by_cases he : n % 2 = 0
    · refine ⟨n, hconv n (nearest_of iQ (by omega) (fun h hh => ?_) (fun _ => .inr ⟨by rw [hu, Nat.add_mul], he⟩)), hdown, hup, .inl rfl⟩
      have := hdown h hh
      rw [Nat.add_mul] at this
      omega
    · refine ⟨n + 1, hconv _ (nearest_of iQ (by omega) (fun h hh => ?_) (fun h => ?_)), hdown, hup, .inr (.inl ⟨by omega, rfl, hu⟩)⟩
      · obtain rfl : h = n := by omega
        exact .inr ⟨by rw [hu, Nat.add_mul], by omega⟩
      · have := iQ (n + 1) (n + 1 + 1) (by omega)
        have := iQ n (n + 1) (by omega)
        dsimp only at *
        rw [Nat.add_mul] at hu
        omega
  · by_cases hl : ∃ h, h + 1 = n ∧ (G h + G n) * Q = 2 * F k
    · obtain ⟨h, rfl, hl⟩ := hl
      by_cases he : (h + 1) % 2 = 0
      · refine ⟨h + 1, hconv _ (nearest_of iQ (by omega) (fun h' hh => ?_) (fun _ => ?_)), hdown, hup, .inl rfl⟩
        · obtain rfl : h' = h := by omega
          exact .inr ⟨by rw [← hl, Nat.add_mul], he⟩
        · rw [Nat.add_mul] at hup hu
          omega
      · refine ⟨h, hconv _ (nearest_of iQ (by omega) (fun h' hh => ?_) (fun _ => ?_)), hdown, hup, .inr (.inr ⟨by omega, rfl, hl.symm⟩)⟩
        · have := iQ h' h (by omega)
          have := iQ h (h + 1) (by omega)
          dsimp only at *
          rw [Nat.add_mul] at hl
          omega
        · exact .inr ⟨by rw [← hl, Nat.add_mul], by omega⟩
    · refine ⟨n, hconv _ (nearest_of iQ (by omega) (fun h hh => ?_) (fun _ => ?_)), hdown, hup, .inl rfl⟩
      · have a := hdown h hh
        have b : ¬ (G h + G n) * Q = 2 * F k := fun e => hl ⟨h, hh, e⟩
        rw [Nat.add_mul] at a b
        omega
      · rw [Nat.add_mul] at hup hu
        omega

theorem units64_inf : units64 inf64 = 2 ^ 2098 := by
  have := unitsP_at (p := 52) (k := 2 ^ 52) (j := 2046) (Nat.le_refl _) (by decide)
  rw [units64_eq, Nat.pow_add 2 52 2046, ← this]

theorem units32_inf : units32 inf32 = 2 ^ 277 := by
  have := unitsP_at (p := 23) (k := 2 ^ 23) (j := 254) (Nat.le_refl _) (by decide)
  rw [units32_eq, Nat.pow_add 2 23 254, ← this]

theorem mid_exists (n : Nat) (hn : n < inf32) : ∃ h, h ≤ inf64 ∧ 2 * units64 h = (units32 n + units32 (n + 1)) * 2 ^ 925 := by
  obtain ⟨k, j, h1, h2, h3⟩ := unitsP_succ 23 n
  obtain ⟨h, hh⟩ := unitsP_rep (p := 52) (2 * k + 1) (j + 924) (by omega)
  have e : 2 * units64 h = (units32 n + units32 (n + 1)) * 2 ^ 925 := by
    rw [units64_eq, units32_eq, hh, h2, h3, ← Nat.add_mul, show k + (k + 1) = 2 * k + 1 by omega, Nat.pow_add, Nat.pow_succ 2 924]
    simp only [Nat.mul_comm, Nat.mul_left_comm, Nat.mul_assoc]
  refine ⟨h, ?_, e⟩
  refine (unitsP_incr 52).le_of ?_
  rw [← units64_eq, units64_inf]
  have a := (unitsP_incr 23).le (show n ≤ inf32 by omega)
  have b := (unitsP_incr 23).le (show n + 1 ≤ inf32 by omega)
  rw [← units32_eq, units32_inf] at a b
  have c := Nat.mul_le_mul_right (2 ^ 925) (Nat.add_le_add a b)
  have d : (2 ^ 277 + 2 ^ 277) * 2 ^ 925 = 2 * 2 ^ 1202 := by
    rw [← Nat.two_mul, Nat.mul_assoc, ← Nat.pow_add]
  have f : (2 : Nat) ^ 1202 ≤ 2 ^ 2098 := Nat.pow_le_pow_right (by omega) (by omega)
  generalize (2 : Nat) ^ 1202 = x at *
  generalize (2 : Nat) ^ 2098 = y at *
  generalize (2 : Nat) ^ 277 = z at *
  generalize (2 : Nat) ^ 925 = w at *
  omega

/-- The double rounding of the decoder for float32. -/
theorem double_round {num den n k : Nat} (hd : 0 < den) (h1 : Near32 num den n) (hn : n < inf32) (h2 : Near64 num den k) :
    ∃ n', Near32 (units64 k) (2 ^ 1074) n' ∧ 2 * units64 k ≤ (units32 n + units32 (n + 1)) * 2 ^ 925 ∧
      (n' = n ∨ (n % 2 = 1 ∧ n' = n + 1 ∧ 2 * units64 k = (units32 n + units32 (n + 1)) * 2 ^ 925) ∨
        (n % 2 = 1 ∧ n' + 1 = n ∧ 2 * units64 k = (units32 n' + units32 n) * 2 ^ 925)) := by
  have e : (2 : Nat) ^ 1074 = 2 ^ 149 * 2 ^ 925 := by rw [← Nat.pow_add]
  unfold Near64 at h2
  unfold Near32
  rw [e] at h2 ⊢
  obtain ⟨n', a, -, b, c⟩ := round_twice (unitsP_incr 52) (unitsP_incr 23) (Nat.pow_pos (by omega)) (Nat.pow_pos (by omega)) hd mid_exists h1 hn h2
  exact ⟨n', a, b, c⟩

end Verif

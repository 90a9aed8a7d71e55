import Verif.Proofs.FloatText
import Verif.Props.RoundTrip
/-
An environment whose strconv and conversions do what `Strconv` asks. Floats are written with all their digits, except for
two float32 numbers that are written as strconv does.
-/
namespace Verif
open Spec

set_option exponentiation.threshold 2100

namespace Demo

/-- `-123e-1074` -/
def exactText (neg : Bool) (m : Nat) : Bytes := (if neg then [45] else []) ++ natText m ++ b! "e-1074"

open Classical in
/-- The nearest float64 to a decimal text. -/
noncomputable def nearestF64 (s : Bytes) : Option UInt64 :=
  match decimalOf s with
  | some (neg, m, e) => if h : ∃ n, Near64 (decNum m e) (decDen e) n ∧ n < inf64 then some (float64 neg h.choose) else none
  | none => none

open Classical in
/-- The nearest float32 to a float64. -/
noncomputable def nearestF32 (x : UInt64) : UInt32 :=
  if x = 0x7FF0000000000000 then 0x7F800000 else if x = 0xFFF0000000000000 then 0xFF800000
  else if x = 0x7FF8000000000001 then 0x7FC00000
  else if h : ∃ n, Near32 (units64 (mag64 x)) (2 ^ 1074) n then float32 (neg64 x) h.choose else 0

/-- A world with exact arithmetic. -/
noncomputable def WX : World := { Demo.W with
  parseF64 := nearestF64
  toF32 := nearestF32
  fmtF64 := fun _ x => exactText (neg64 x) (units64 (mag64 x) * 5 ^ 1074)
  fmtF32 := fun _ x =>
    if x = 0x15AE43FD then b! "7.038531e-26" else if x = 0x7F7FFFFF then b! "3.4028235e+38"
    else exactText (neg32 x) (units32 (mag32 x) * 2 ^ 925 * 5 ^ 1074) }

theorem takeWhile_append_stop {ds r : Bytes} (h : ∀ c ∈ ds, IsDigit c) (hr : r.takeWhile isDig = []) :
    (ds ++ r).takeWhile isDig = ds ∧ (ds ++ r).dropWhile isDig = r := by
  induction ds with
  | nil =>
    refine ⟨by simpa using hr, ?_⟩
    have := List.takeWhile_append_dropWhile (p := isDig) (l := r)
    rw [hr] at this
    simpa using this
  | cons c ds ih =>
    obtain ⟨a, b⟩ := ih fun x hx => h x (List.mem_cons_of_mem _ hx)
    have hc : isDig c = true := by simpa [isDig] using h c List.mem_cons_self
    simp [hc, a, b]

theorem unsignedOf_exact (m : Nat) : unsignedOf (natText m ++ b! "e-1074") = some (m, -1074) := by
  have hd := natText_digits m
  obtain ⟨a, b⟩ := takeWhile_append_stop (r := b! "e-1074") hd.2 (by decide)
  unfold unsignedOf
  rw [a, b, if_neg hd.1]
  have : fracOf (b! "e-1074") = some ([], b! "e-1074") := by rfl
  rw [this]
  have : expoOf (b! "e-1074") = some (-1074) := by rfl
  simp [this, natText_val]

theorem decimalOf_exact (neg : Bool) (m : Nat) : decimalOf (exactText neg m) = some (neg, m, -1074) := by
  cases neg with
  | true =>
    show (unsignedOf (natText m ++ b! "e-1074")).map (fun p => (true, p)) = _
    rw [unsignedOf_exact]; rfl
  | false =>
    have hd := natText_digits m
    have h : decimalOf (natText m ++ b! "e-1074") = (unsignedOf (natText m ++ b! "e-1074")).map fun p => (false, p) := by
      cases hn : natText m with
      | nil => exact absurd hn hd.1
      | cons c cs =>
        have hc : c ≠ 45 := by
          rintro rfl
          have := hd.2 45 (by rw [hn]; simp)
          revert this; decide
        unfold decimalOf
        split
        · rename_i h; cases h; exact absurd rfl hc
        · rfl
    show decimalOf (natText m ++ b! "e-1074") = _
    rw [h, unsignedOf_exact]; rfl

theorem near64_exact {n : Nat} (h : n ≤ inf64) : Near64 (decNum (units64 n * 5 ^ 1074) (-1074)) (decDen (-1074)) n := by
  have := nearest_self (T := fun m => units64 m * decDen (-1074)) (incr_scale (unitsP_incr 52) (decDen_pos _)) (top := inf64) h
  have e : decNum (units64 n * 5 ^ 1074) (-1074) * 2 ^ 1074 = units64 n * decDen (-1074) := by
    unfold decNum decDen
    rw [show (-1074 : Int).toNat = 0 by rfl, show (-(-1074 : Int)).toNat = 1074 by rfl, Nat.pow_zero, Nat.mul_one, Nat.mul_assoc, ← Nat.mul_pow]
  unfold Near64
  rw [e]
  exact this

theorem near32_exact {n : Nat} (h : n ≤ inf32) : Near32 (decNum (units32 n * 2 ^ 925 * 5 ^ 1074) (-1074)) (decDen (-1074)) n := by
  have := nearest_self (T := fun m => units32 m * decDen (-1074)) (incr_scale (unitsP_incr 23) (decDen_pos _)) (top := inf32) h
  have e : decNum (units32 n * 2 ^ 925 * 5 ^ 1074) (-1074) * 2 ^ 149 = units32 n * decDen (-1074) := by
    unfold decNum decDen
    rw [show (-1074 : Int).toNat = 0 by rfl, show (-(-1074 : Int)).toNat = 1074 by rfl, Nat.pow_zero, Nat.mul_one, Nat.mul_assoc, Nat.mul_assoc,
      show (10 : Nat) = 2 * 5 by rfl, Nat.mul_pow, show (1074 : Nat) = 149 + 925 by rfl, Nat.pow_add 2]
  unfold Near32
  rw [e]
  exact this

/-- The float32 0x15AE43FD is the nearest to 7.038531e-26. -/
theorem near_odd : Near32 (decNum 7038531 (-32)) (decDen (-32)) 0x15AE43FD :=
  near32_of (by decide) (by decide) (by decide) (by decide +kernel) (by decide +kernel)

/-- MaxFloat32 is the nearest to 3.4028235e+38. -/
theorem near_max : Near32 (decNum 34028235 31) (decDen 31) 0x7F7FFFFF :=
  near32_of (by decide) (by decide) (by decide) (by decide +kernel) (by decide +kernel)

theorem units64_le {n : Nat} (h : n < 2 ^ 63) : units64 n * 5 ^ 1074 < 10 ^ 2000 := by
  have a := (unitsP_incr 52) n (2 ^ 52 + 2047 * 2 ^ 52) (by omega)
  rw [unitsP_at (Nat.le_refl _) (by decide), ← units64_eq] at a
  have b : 2 ^ 52 * 2 ^ 2047 * 5 ^ 1074 < 10 ^ 2000 := by decide +kernel
  exact Nat.lt_trans ((Nat.mul_lt_mul_right (Nat.pow_pos (by omega))).2 a) b

theorem units32_le {n : Nat} (h : n < 2 ^ 31) : units32 n * 2 ^ 925 * 5 ^ 1074 < 10 ^ 2000 := by
  have a := (unitsP_incr 23) n (2 ^ 23 + 255 * 2 ^ 23) (by omega)
  rw [unitsP_at (Nat.le_refl _) (by decide), ← units32_eq] at a
  have b : 2 ^ 23 * 2 ^ 255 * 2 ^ 925 * 5 ^ 1074 < 10 ^ 2000 := by decide +kernel
  exact Nat.lt_trans ((Nat.mul_lt_mul_right (Nat.pow_pos (by omega))).2 ((Nat.mul_lt_mul_right (Nat.pow_pos (by omega))).2 a)) b

theorem exactText_length {neg : Bool} {m : Nat} (h : m < 10 ^ 2000) : (exactText neg m).length < 2 ^ 62 := by
  have := natText_length (k := 2000) (by omega) h
  unfold exactText
  simp only [List.length_append]
  have : (if neg then [45] else ([] : Bytes)).length ≤ 1 := by split <;> simp
  have : (b! "e-1074" : Bytes).length = 6 := rfl
  omega

theorem strconv : Strconv WX where
  parse := fun {s neg m e n} h hn hlt => by
    have hex : ∃ n, Near64 (decNum m e) (decDen e) n ∧ n < inf64 := ⟨n, hn, hlt⟩
    show nearestF64 s = _
    unfold nearestF64
    rw [h]
    dsimp only
    rw [dif_pos hex, near64_unique (decDen_pos e) hex.choose_spec.1 hn]
  range := fun {s neg m e} h hn => by
    have hex : ¬ ∃ n, Near64 (decNum m e) (decDen e) n ∧ n < inf64 := fun ⟨n, h1, h2⟩ => by
      have := near64_unique (decDen_pos e) h1 hn
      omega
    show nearestF64 s = _
    unfold nearestF64
    rw [h]
    dsimp only
    rw [dif_neg hex]
  fmt64 := fun {x} hx _ => ⟨_, _, decimalOf_exact _ _, near64_exact (Nat.le_of_lt (finite64_iff.1 hx))⟩
  fmt32 := fun {x} hx _ => by
    show ∃ m e, decimalOf (if x = 0x15AE43FD then b! "7.038531e-26" else if x = 0x7F7FFFFF then b! "3.4028235e+38" else _) = _ ∧ _
    by_cases h1 : x = 0x15AE43FD
    · subst h1; exact ⟨7038531, -32, by rfl, near_odd⟩
    · by_cases h2 : x = 0x7F7FFFFF
      · subst h2; exact ⟨34028235, 31, by rfl, near_max⟩
      · rw [if_neg h1, if_neg h2]
        exact ⟨_, _, decimalOf_exact _ _, near32_exact (Nat.le_of_lt (finite32_iff.1 hx))⟩
  short64 := fun _ x => exactText_length (units64_le (by unfold mag64; omega))
  short32 := fun _ x => by
    show (if x = 0x15AE43FD then b! "7.038531e-26" else if x = 0x7F7FFFFF then b! "3.4028235e+38" else _ : Bytes).length < _
    split
    · decide
    · split
      · decide
      · exact exactText_length (units32_le (by unfold mag32; omega))
  toF32 := fun {x n} hx hn => by
    have hex : ∃ n, Near32 (units64 (mag64 x)) (2 ^ 1074) n := ⟨n, hn⟩
    show nearestF32 x = _
    unfold nearestF32
    rw [if_neg (by rintro rfl; revert hx; unfold Finite64; decide), if_neg (by rintro rfl; revert hx; unfold Finite64; decide),
      if_neg (by rintro rfl; revert hx; unfold Finite64; decide), dif_pos hex, near32_unique (Nat.pow_pos (by omega)) hex.choose_spec hn]
  special := by
    refine ⟨?_, ?_, ?_⟩
    · show nearestF32 0x7FF0000000000000 = 0x7F800000; unfold nearestF32; rw [if_pos rfl]
    · show nearestF32 0xFFF0000000000000 = 0xFF800000; unfold nearestF32; rw [if_neg (by decide), if_pos rfl]
    · show NaN32 (nearestF32 0x7FF8000000000001); unfold nearestF32; rw [if_neg (by decide), if_neg (by decide), if_pos rfl]; unfold NaN32; decide

end Demo

theorem read_odd {W : World} (hs : Strconv W) {t : Ty} (ht : Plain W t .f32) {fuel : Nat} (hf : 0 < fuel) {old : Val} :
    unmarshal W fuel (b! "d:7.038531e-26;") (.ptr t old) = (some (.f32 0x15AE43FE), .ok ()) := by
  have hk : Near64 (decNum 7038531 (-32)) (decDen (-32)) 0x3AB5C87FB0000000 :=
    near64_of (by decide) (by decide) (by decide) (by decide +kernel) (by decide +kernel)
  have hr := (read32 hs ht (s := b! "7.038531e-26") (by rfl) (by decide) hk hf (old := old)).1 (by decide)
  have hc : W.toF32 (float64 false 0x3AB5C87FB0000000) = 0x15AE43FE := by
    refine hs.toF32 (x := float64 false 0x3AB5C87FB0000000) (n := 0x15AE43FE) (by unfold Finite64; decide) ?_
    refine nearest_of (T := fun m => units32 m * 2 ^ 1074) (incr_scale (unitsP_incr 23) (Nat.pow_pos (by omega))) (by decide)
      (fun k hk => .inr ?_) (fun _ => .inl ?_)
    · obtain rfl : k = 0x15AE43FD := by omega
      exact ⟨by decide +kernel, by decide⟩
    · decide +kernel
  rw [hc] at hr
  exact hr

theorem read_max {W : World} (hs : Strconv W) {t : Ty} (ht : Plain W t .f32) {fuel : Nat} (hf : 0 < fuel) {old : Val} :
    ∃ e, unmarshal W fuel (b! "d:3.4028235e+38;") (.ptr t old) = (some old, .err e) := by
  have hk : Near64 (decNum 34028235 31) (decDen 31) 0x47EFFFFFE54DAFF8 :=
    near64_of (by decide) (by decide) (by decide) (by decide +kernel) (by decide +kernel)
  exact (read32 hs ht (s := b! "3.4028235e+38") (by rfl) (by decide) hk hf (old := old)).2 (by decide)

end Verif

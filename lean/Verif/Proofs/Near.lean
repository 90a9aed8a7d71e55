import Verif.Spec.Ieee
/-
Nearest numbers: rounding in an increasing sequence, and its application to float64 and float32.
-/
namespace Verif
open Spec

/-! ### Increasing sequences -/

/-- Position `n` of the sequence is nearest to `A`, even if tied. -/
def Nearest (T : Nat → Nat) (top A n : Nat) : Prop :=
  n ≤ top ∧ ∀ m, m ≤ top → m ≠ n → gap A (T n) < gap A (T m) ∨ (gap A (T n) = gap A (T m) ∧ n % 2 = 0)

/-- Strictly increasing. -/
def Incr (T : Nat → Nat) : Prop := ∀ a b, a < b → T a < T b

theorem Incr.le {T : Nat → Nat} (h : Incr T) {a b : Nat} (hab : a ≤ b) : T a ≤ T b := by
  rcases Nat.lt_or_eq_of_le hab with h1 | rfl
  · exact Nat.le_of_lt (h _ _ h1)
  · exact Nat.le_refl _

theorem Incr.le_of {T : Nat → Nat} (h : Incr T) {a b : Nat} (hab : T a ≤ T b) : a ≤ b := by
  rcases Nat.lt_or_ge b a with h1 | h1
  · have := h _ _ h1; omega
  · exact h1

theorem Incr.lt_of {T : Nat → Nat} (h : Incr T) {a b : Nat} (hab : T a < T b) : a < b := by
  rcases Nat.lt_or_ge a b with h1 | h1
  · exact h1
  · have := h.le h1; omega

/-- It is enough to look at the neighbours. -/
theorem nearest_of {T : Nat → Nat} (hT : Incr T) {top A n : Nat} (hn : n ≤ top)
    (h1 : ∀ k, k + 1 = n → T k + T n < 2 * A ∨ (T k + T n = 2 * A ∧ n % 2 = 0))
    (h2 : n < top → 2 * A < T n + T (n + 1) ∨ (2 * A = T n + T (n + 1) ∧ n % 2 = 0)) : Nearest T top A n := by
  refine ⟨hn, fun m hm hne => ?_⟩
  unfold gap
  rcases Nat.lt_or_gt_of_ne hne with h | h
  · obtain ⟨k, rfl⟩ : ∃ k, n = k + 1 := ⟨n - 1, by omega⟩
    have a1 := hT.le (show m ≤ k by omega)
    have a2 := hT k (k + 1) (by omega)
    have a3 := h1 k rfl
    have a4 := hT m (k + 1) (by omega)
    by_cases hkn : k + 1 < top
    · have := h2 hkn
      have := hT (k + 1) (k + 1 + 1) (by omega)
      omega
    · omega
  · have a1 := hT.le (show n + 1 ≤ m by omega)
    have a2 := hT n (n + 1) (by omega)
    have a3 := h2 (by omega)
    have a4 := hT n m h
    omega

theorem Nearest.below {T : Nat → Nat} (hT : Incr T) {top A n : Nat} (h : Nearest T top A n) (k : Nat) (hk : k + 1 = n) :
    T k + T n < 2 * A ∨ (T k + T n = 2 * A ∧ n % 2 = 0) := by
  have := h.2 k (by have := h.1; omega) (by omega)
  have := hT k n (by omega)
  unfold gap at *
  omega

theorem Nearest.above {T : Nat → Nat} (hT : Incr T) {top A n : Nat} (h : Nearest T top A n) (hn : n < top) :
    2 * A < T n + T (n + 1) ∨ (2 * A = T n + T (n + 1) ∧ n % 2 = 0) := by
  have := h.2 (n + 1) (by omega) (by omega)
  have := hT n (n + 1) (by omega)
  unfold gap at *
  omega

/-- Rounding is monotone towards members of the sequence. -/
theorem Nearest.le {T : Nat → Nat} (hT : Incr T) {top A n m : Nat} (h : Nearest T top A n) (hm : m ≤ top) (hA : A ≤ T m) : n ≤ m := by
  rcases Nat.lt_or_ge m n with h1 | h1
  · have := h.2 m hm (by omega)
    have := hT m n h1
    unfold gap at *
    omega
  · exact h1

theorem Nearest.ge {T : Nat → Nat} (hT : Incr T) {top A n m : Nat} (h : Nearest T top A n) (hm : m ≤ top) (hA : T m ≤ A) : m ≤ n := by
  rcases Nat.lt_or_ge n m with h1 | h1
  · have := h.2 m hm (by omega)
    have := hT n m h1
    unfold gap at *
    omega
  · exact h1

theorem Nearest.unique {T : Nat → Nat} (hT : Incr T) {top A n m : Nat} (h : Nearest T top A n) (h' : Nearest T top A m) : n = m := by
  rcases Nat.lt_trichotomy n m with h1 | h1 | h1
  · have a := h.2 m h'.1 (by omega)
    have b := h'.2 n h.1 (by omega)
    have hm : m = n + 1 := by
      rcases Nat.lt_or_ge (n + 1) m with h2 | h2
      · have c := h.2 (n + 1) (by have := h'.1; omega) (by omega)
        have d := h'.2 (n + 1) (by have := h'.1; omega) (by omega)
        have := hT n (n + 1) (by omega)
        have := hT (n + 1) m h2
        unfold gap at *
        omega
      · omega
    omega
  · exact h1
  · have a := h.2 m h'.1 (by omega)
    have b := h'.2 n h.1 (by omega)
    have hm : n = m + 1 := by
      rcases Nat.lt_or_ge (m + 1) n with h2 | h2
      · have c := h.2 (m + 1) (by have := h.1; omega) (by omega)
        have d := h'.2 (m + 1) (by have := h.1; omega) (by omega)
        have := hT m (m + 1) (by omega)
        have := hT (m + 1) n h2
        unfold gap at *
        omega
      · omega
    omega

theorem nearest_exists {T : Nat → Nat} (hT : Incr T) (top A : Nat) : ∃ n, Nearest T top A n := by
  induction top with
  | zero => exact ⟨0, Nat.le_refl _, fun m hm hne => by omega⟩
  | succ top ih =>
    obtain ⟨n, hn⟩ := ih
    by_cases hlt : n < top
    · refine ⟨n, nearest_of hT (by omega) (hn.below hT) (fun _ => hn.above hT hlt)⟩
    · have : n = top := by have := hn.1; omega
      subst this
      have hi := hT n (n + 1) (by omega)
      by_cases hc : 2 * A < T n + T (n + 1) ∨ (2 * A = T n + T (n + 1) ∧ n % 2 = 0)
      · exact ⟨n, nearest_of hT (by omega) (hn.below hT) (fun _ => hc)⟩
      · refine ⟨n + 1, nearest_of hT (Nat.le_refl _) (fun k hk => ?_) (fun h => by omega)⟩
        have : k = n := by omega
        subst this
        omega

theorem nearest_self {T : Nat → Nat} (hT : Incr T) {top n : Nat} (hn : n ≤ top) : Nearest T top (T n) n := by
  refine ⟨hn, fun m _ hne => ?_⟩
  unfold gap
  rcases Nat.lt_or_gt_of_ne hne with h | h <;> have := hT _ _ h <;> omega

/-! ### The numbers of a binary format -/

/-- A float with `p` explicit bits of mantissa, in units of the smallest one. -/
def unitsP (p n : Nat) : Nat := if n < 2 ^ p then n else (2 ^ p + n % 2 ^ p) * 2 ^ (n / 2 ^ p - 1)

theorem unitsP_small {p n : Nat} (h : n < 2 ^ (p + 1)) : unitsP p n = n := by
  unfold unitsP
  split
  · rfl
  · rename_i h1
    have hp : 0 < 2 ^ p := Nat.pow_pos (by omega)
    rw [Nat.pow_succ] at h
    have h2 : n / 2 ^ p = 1 := by
      rw [Nat.div_eq_iff hp]; omega
    have h3 := Nat.div_add_mod n (2 ^ p)
    rw [h2] at h3 ⊢
    simp only [Nat.sub_self, Nat.pow_zero, Nat.mul_one] at *
    omega

theorem unitsP_at {p k j : Nat} (h1 : 2 ^ p ≤ k) (h2 : k < 2 ^ (p + 1)) : unitsP p (k + j * 2 ^ p) = k * 2 ^ j := by
  have hp : 0 < 2 ^ p := Nat.pow_pos (by omega)
  rw [Nat.pow_succ] at h2
  have h3 : ¬ k + j * 2 ^ p < 2 ^ p := by have := Nat.zero_le (j * 2 ^ p); omega
  have h4 : k / 2 ^ p = 1 := by rw [Nat.div_eq_iff hp]; omega
  have h5 := Nat.div_add_mod k (2 ^ p)
  rw [h4, Nat.mul_one] at h5
  unfold unitsP
  rw [if_neg h3, Nat.add_mul_mod_self_right, Nat.add_mul_div_right _ _ hp, h4, h5, Nat.add_sub_cancel_left]

/-- Every number with `p + 1` bits times a power of two is a float. -/
theorem unitsP_rep {p : Nat} (k j : Nat) (hk : k < 2 ^ (p + 1)) : ∃ n, unitsP p n = k * 2 ^ j := by
  induction j generalizing k with
  | zero => exact ⟨k, by rw [unitsP_small hk]; simp⟩
  | succ j ih =>
    by_cases h : k < 2 ^ p
    · obtain ⟨n, hn⟩ := ih (2 * k) (by rw [Nat.pow_succ]; omega)
      exact ⟨n, by rw [hn, Nat.pow_succ, Nat.mul_comm 2 k, Nat.mul_assoc, Nat.mul_comm (2 ^ j) 2]⟩
    · exact ⟨k + (j + 1) * 2 ^ p, unitsP_at (by omega) hk⟩

/-- Position of a float: below `2^(p+1)` it is the number itself, above it is `k * 2^j`. -/
theorem unitsP_split {p : Nat} (n : Nat) (h : 2 ^ p ≤ n) : ∃ k j, 2 ^ p ≤ k ∧ k < 2 ^ (p + 1) ∧ n = k + j * 2 ^ p := by
  have hp : 0 < 2 ^ p := Nat.pow_pos (by omega)
  refine ⟨2 ^ p + n % 2 ^ p, n / 2 ^ p - 1, by omega, ?_, ?_⟩
  · have := Nat.mod_lt n hp
    rw [Nat.pow_succ]; omega
  · have h1 := Nat.div_add_mod n (2 ^ p)
    have h2 : 1 ≤ n / 2 ^ p := (Nat.le_div_iff_mul_le hp).2 (by omega)
    obtain ⟨q, hq⟩ : ∃ q, n / 2 ^ p = q + 1 := ⟨n / 2 ^ p - 1, by omega⟩
    rw [hq, Nat.mul_add, Nat.mul_one, Nat.mul_comm] at h1
    rw [hq]
    simp only [Nat.add_sub_cancel]
    omega

theorem unitsP_succ (p n : Nat) : ∃ k j, k < 2 ^ (p + 1) ∧ unitsP p n = k * 2 ^ j ∧ unitsP p (n + 1) = (k + 1) * 2 ^ j := by
  by_cases h : n < 2 ^ p
  · refine ⟨n, 0, by rw [Nat.pow_succ]; omega, ?_, ?_⟩
    · rw [unitsP_small (by rw [Nat.pow_succ]; omega)]; simp
    · rw [unitsP_small (by rw [Nat.pow_succ]; omega)]; simp
  · obtain ⟨k, j, h1, h2, rfl⟩ := unitsP_split (p := p) n (by omega)
    refine ⟨k, j, h2, unitsP_at h1 h2, ?_⟩
    by_cases h3 : k + 1 < 2 ^ (p + 1)
    · have := unitsP_at (p := p) (k := k + 1) (j := j) (by omega) h3
      rw [← this]; congr 1; omega
    · have h4 : k + 1 = 2 ^ (p + 1) := by omega
      have h5 : k + j * 2 ^ p + 1 = 2 ^ p + (j + 1) * 2 ^ p := by
        rw [Nat.pow_succ] at h4; rw [Nat.add_mul]; omega
      rw [h5, unitsP_at (Nat.le_refl _) (by rw [Nat.pow_succ]; have : 0 < 2 ^ p := Nat.pow_pos (by omega); omega), h4, Nat.pow_succ, Nat.pow_succ, Nat.mul_assoc, Nat.mul_comm (2 ^ j) 2]

theorem unitsP_incr (p : Nat) : Incr (unitsP p) := by
  have h1 : ∀ n, unitsP p n < unitsP p (n + 1) := fun n => by
    obtain ⟨k, j, -, h2, h3⟩ := unitsP_succ p n
    rw [h2, h3, Nat.add_mul]
    have : 0 < 2 ^ j := Nat.pow_pos (by omega)
    omega
  intro a b hab
  induction b with
  | zero => omega
  | succ b ih =>
    rcases Nat.lt_or_eq_of_le (Nat.le_of_lt_succ hab) with h | rfl
    · exact Nat.lt_trans (ih h) (h1 b)
    · exact h1 _

theorem units64_eq : units64 = unitsP 52 := rfl
theorem units32_eq : units32 = unitsP 23 := rfl

theorem incr_scale {T : Nat → Nat} (hT : Incr T) {d : Nat} (hd : 0 < d) : Incr (fun n => T n * d) :=
  fun a b h => (Nat.mul_lt_mul_right hd).2 (hT a b h)

theorem gap_mul (a b d : Nat) : gap (a * d) (b * d) = gap a b * d := by
  unfold gap; rw [← Nat.sub_mul, ← Nat.sub_mul, ← Nat.add_mul]

theorem nearest_mul {T : Nat → Nat} {top A n d : Nat} (hd : 0 < d) :
    Nearest (fun n => T n * d) top (A * d) n ↔ Nearest T top A n := by
  unfold Nearest
  simp only [gap_mul, Nat.mul_lt_mul_right hd, Nat.mul_left_inj (Nat.ne_of_gt hd)]

end Verif

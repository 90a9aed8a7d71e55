import Verif.Proofs.Ieee
/-
Floats written and read by strconv: the bits, the texts, and what the decoder makes of them.
-/
namespace Verif
open Spec

set_option exponentiation.threshold 2100

/-! ### Bits -/

theorem finite64_iff {x : UInt64} : Finite64 x ↔ mag64 x < inf64 := by
  unfold Finite64 mag64
  rw [UInt64.lt_iff_toNat_lt, UInt64.toNat_and]
  have hm : (0x7FFFFFFFFFFFFFFF : UInt64).toNat = 2 ^ 63 - 1 := rfl
  rw [hm, Nat.and_two_pow_sub_one_eq_mod]
  exact Iff.rfl

theorem finite32_iff {x : UInt32} : Finite32 x ↔ mag32 x < inf32 := by
  unfold Finite32 mag32
  rw [UInt32.lt_iff_toNat_lt, UInt32.toNat_and]
  have hm : (0x7FFFFFFF : UInt32).toNat = 2 ^ 31 - 1 := rfl
  rw [hm, Nat.and_two_pow_sub_one_eq_mod]
  exact Iff.rfl

theorem float64_toNat {s : Bool} {n : Nat} (hn : n < 2 ^ 63) : (float64 s n).toNat = if s then 2 ^ 63 + n else n := by
  unfold float64
  rw [UInt64.toNat_ofNat']
  split <;> omega

theorem float32_toNat {s : Bool} {n : Nat} (hn : n < 2 ^ 31) : (float32 s n).toNat = if s then 2 ^ 31 + n else n := by
  unfold float32
  rw [UInt32.toNat_ofNat']
  split <;> omega

theorem mag64_float64 {s : Bool} {n : Nat} (hn : n < 2 ^ 63) : mag64 (float64 s n) = n := by
  unfold mag64
  rw [float64_toNat hn]
  split <;> omega

theorem neg64_float64 {s : Bool} {n : Nat} (hn : n < 2 ^ 63) : neg64 (float64 s n) = s := by
  unfold neg64
  rw [float64_toNat hn]
  cases s <;> simp <;> omega

theorem float64_self (x : UInt64) : float64 (neg64 x) (mag64 x) = x := by
  rw [← UInt64.toNat_inj, float64_toNat (by unfold mag64; omega)]
  unfold neg64 mag64
  have := x.toNat_lt
  simp only [decide_eq_true_eq]
  split <;> omega

theorem float32_self (x : UInt32) : float32 (neg32 x) (mag32 x) = x := by
  rw [← UInt32.toNat_inj, float32_toNat (by unfold mag32; omega)]
  unfold neg32 mag32
  have := x.toNat_lt
  simp only [decide_eq_true_eq]
  split <;> omega

/-- MaxFloat32 as a float64. -/
abbrev max64 : Nat := 0x47EFFFFFE0000000

theorem fits32_iff {s : Bool} {k : Nat} (hk : k < inf64) : Fits32 (float64 s k) ↔ k ≤ max64 := by
  unfold Fits32
  rw [UInt64.le_iff_toNat_le, UInt64.le_iff_toNat_le, UInt64.toNat_and]
  have hm : (0x7FFFFFFFFFFFFFFF : UInt64).toNat = 2 ^ 63 - 1 := rfl
  have h1 : (0x47EFFFFFE0000000 : UInt64).toNat = max64 := rfl
  have h2 : (0x7FF0000000000000 : UInt64).toNat = inf64 := rfl
  rw [hm, Nat.and_two_pow_sub_one_eq_mod, h1, h2]
  have := mag64_float64 (s := s) (n := k) (by simp only [inf64] at hk; omega)
  unfold mag64 at this
  rw [this]
  omega

theorem units64_max : units64 max64 = units32 0x7F7FFFFF * 2 ^ 925 := by
  have h1 := unitsP_at (p := 52) (k := 0x1FFFFFE0000000) (j := 0x47D) (by decide) (by decide)
  have h2 := unitsP_at (p := 23) (k := 0xFFFFFF) (j := 0xFD) (by decide) (by decide)
  have e1 : 0x1FFFFFE0000000 + 0x47D * 2 ^ 52 = max64 := by decide
  have e2 : 0xFFFFFF + 0xFD * 2 ^ 23 = 0x7F7FFFFF := by decide
  rw [e1] at h1
  rw [e2] at h2
  rw [units64_eq, units32_eq, h1, h2, show (0x1FFFFFE0000000 : Nat) = 0xFFFFFF * 2 ^ 29 by decide, Nat.mul_assoc]

/-! ### Texts -/

theorem all_dig {ds : Bytes} (h : ds.all isDig = true) : ∀ c ∈ ds, IsDigit c := by
  intro c hc
  have := List.all_eq_true.1 h c hc
  simpa [isDig] using this

theorem takeWhile_dig (s : Bytes) : ∀ c ∈ s.takeWhile isDig, IsDigit c := by
  induction s with
  | nil => simp
  | cons a s ih =>
    intro c hc
    rw [List.takeWhile_cons] at hc
    split at hc
    · rename_i h
      rcases List.mem_cons.1 hc with rfl | hc
      · simpa [isDig] using h
      · exact ih c hc
    · simp at hc

theorem not_dig_semi {c : Byte} (h : IsDigit c) : c ≠ 59 := by
  rintro rfl; revert h; unfold IsDigit; decide

theorem expoOf_semi {s : Bytes} {e : Int} (h : expoOf s = some e) : 59 ∉ s := by
  unfold expoOf at h
  split at h
  · simp
  · split at h
    · rename_i c
      obtain ⟨c1, c2, -, c3, -⟩ := c
      intro hm
      rcases List.mem_cons.1 hm with h1 | h1
      · rcases c1 with rfl | rfl <;> revert h1 <;> decide
      · rcases List.mem_cons.1 h1 with h1 | h1
        · rcases c2 with rfl | rfl <;> revert h1 <;> decide
        · exact not_dig_semi (all_dig c3 _ h1) rfl
    · simp at h
  · simp at h

theorem fracOf_semi {s fd r : Bytes} (h : fracOf s = some (fd, r)) (hr : 59 ∉ r) : 59 ∉ s := by
  unfold fracOf at h
  split at h
  · rename_i s'
    split at h
    · simp at h
    · simp only [Option.some.injEq, Prod.mk.injEq] at h
      rw [← h.2] at hr
      intro hm
      rcases List.mem_cons.1 hm with h1 | h1
      · revert h1; decide
      · rw [← List.takeWhile_append_dropWhile (p := isDig) (l := s'), List.mem_append] at h1
        rcases h1 with h1 | h1
        · exact not_dig_semi (takeWhile_dig _ _ h1) rfl
        · exact hr h1
  · simp only [Option.some.injEq, Prod.mk.injEq] at h
    rw [h.2]; exact hr

theorem unsignedOf_semi {s : Bytes} {p : Nat × Int} (h : unsignedOf s = some p) : 59 ∉ s ∧ s.takeWhile isDig ≠ [] := by
  unfold unsignedOf at h
  split at h
  · simp at h
  · rename_i hne
    refine ⟨?_, hne⟩
    split at h
    · simp at h
    · rename_i fd r hf
      simp only [Option.map_eq_some_iff] at h
      obtain ⟨e, he, -⟩ := h
      have := fracOf_semi hf (expoOf_semi he)
      intro hm
      rw [← List.takeWhile_append_dropWhile (p := isDig) (l := s), List.mem_append] at hm
      rcases hm with h1 | h1
      · exact not_dig_semi (takeWhile_dig _ _ h1) rfl
      · exact this h1

/-- The decimal texts are not mistaken for anything else. -/
theorem decimalOf_number {s : Bytes} {p : Bool × Nat × Int} (h : decimalOf s = some p) : NumberText s := by
  refine ⟨?_, ?_, ?_⟩
  · rintro rfl; rw [show decimalOf [] = none by rfl] at h; cases h
  · unfold decimalOf at h
    split at h
    · simp only [Option.map_eq_some_iff] at h
      obtain ⟨_, h, -⟩ := h
      intro hm
      rcases List.mem_cons.1 hm with h1 | h1
      · revert h1; decide
      · exact (unsignedOf_semi h).1 h1
    · simp only [Option.map_eq_some_iff] at h
      obtain ⟨_, h, -⟩ := h
      exact (unsignedOf_semi h).1
  · rintro (rfl | rfl | rfl)
    · rw [show decimalOf [73, 78, 70] = none by rfl] at h; cases h
    · rw [show decimalOf [45, 73, 78, 70] = none by rfl] at h; cases h
    · rw [show decimalOf [78, 65, 78] = none by rfl] at h; cases h

theorem decDen_pos (e : Int) : 0 < decDen e := Nat.pow_pos (by omega)

theorem near64_exists (num : Nat) {den : Nat} (hd : 0 < den) : ∃ n, Near64 num den n :=
  nearest_exists (incr_scale (unitsP_incr 52) hd) _ _

theorem near32_exists (num : Nat) {den : Nat} (hd : 0 < den) : ∃ n, Near32 num den n :=
  nearest_exists (incr_scale (unitsP_incr 23) hd) _ _

theorem near64_unique {num den n m : Nat} (hd : 0 < den) (h1 : Near64 num den n) (h2 : Near64 num den m) : n = m :=
  Nearest.unique (incr_scale (unitsP_incr 52) hd) h1 h2

theorem near32_unique {num den n m : Nat} (hd : 0 < den) (h1 : Near32 num den n) (h2 : Near32 num den m) : n = m :=
  Nearest.unique (incr_scale (unitsP_incr 23) hd) h1 h2

/-! ### Reading back -/

theorem fmtText64_dec {W : World} (hs : Strconv W) {x : UInt64} (hx : Finite64 x) {txt : Bytes} (h : FmtText64 W x txt) :
    ∃ m e, decimalOf txt = some (neg64 x, m, e) ∧ Near64 (decNum m e) (decDen e) (mag64 x) := by
  rcases h with ⟨-, rfl⟩ | ⟨-, rfl⟩ <;> exact hs.fmt64 hx _

theorem fmtText32_dec {W : World} (hs : Strconv W) {x : UInt32} (hx : Finite32 x) {txt : Bytes} (h : FmtText32 W x txt) :
    ∃ m e, decimalOf txt = some (neg32 x, m, e) ∧ Near32 (decNum m e) (decDen e) (mag32 x) := by
  rcases h with ⟨-, rfl⟩ | ⟨-, rfl⟩ <;> exact hs.fmt32 hx _

theorem faithful64_of {W : World} (hs : Strconv W) {x : UInt64} (hx : Finite64 x) : Faithful64 W x := by
  intro txt h
  obtain ⟨m, e, h1, h2⟩ := fmtText64_dec hs hx h
  refine ⟨decimalOf_number h1, ?_⟩
  rw [hs.parse h1 h2 (finite64_iff.1 hx), float64_self]

/-- What reading a decimal text as a float64 and converting it gives, in terms of the float32 nearest to the text. -/
theorem reads32_dec {W : World} (hs : Strconv W) {txt : Bytes} {neg : Bool} {m : Nat} {e : Int} {n : Nat}
    (h : decimalOf txt = some (neg, m, e)) (hn : Near32 (decNum m e) (decDen e) n) (hf : n < inf32) :
    ∃ k n', Near64 (decNum m e) (decDen e) k ∧ k < inf64 ∧ W.parseF64 txt = some (float64 neg k) ∧
      W.toF32 (float64 neg k) = float32 neg n' ∧ (n ≠ 0x7F7FFFFF → k ≤ max64) ∧
      (n' = n ∨ (n % 2 = 1 ∧ n' = n + 1 ∧ 2 * units64 k = (units32 n + units32 (n + 1)) * 2 ^ 925) ∨
        (n % 2 = 1 ∧ n' + 1 = n ∧ 2 * units64 k = (units32 n' + units32 n) * 2 ^ 925)) := by
  obtain ⟨k, hk⟩ := near64_exists (decNum m e) (decDen_pos e)
  obtain ⟨n', h1, h2, h3⟩ := double_round (decDen_pos e) hn hf hk
  have hlt : k < inf64 := by
    refine (unitsP_incr 52).lt_of ?_
    rw [← units64_eq, units64_inf]
    have a := (unitsP_incr 23).le (show n ≤ inf32 by omega)
    have b := (unitsP_incr 23).le (show n + 1 ≤ inf32 by omega)
    rw [← units32_eq, units32_inf] at a b
    have c := Nat.mul_le_mul_right (2 ^ 925) (Nat.add_le_add a b)
    have d : (2 ^ 277 + 2 ^ 277) * 2 ^ 925 = 2 * 2 ^ 1202 := by rw [← Nat.two_mul, Nat.mul_assoc, ← Nat.pow_add]
    have f : (2 : Nat) ^ 1202 < 2 ^ 2098 := Nat.pow_lt_pow_right (by omega) (by omega)
    generalize (2 : Nat) ^ 1202 = x at *
    generalize (2 : Nat) ^ 2098 = y at *
    generalize (2 : Nat) ^ 277 = z at *
    generalize (2 : Nat) ^ 925 = w at *
    omega
  have h63 : k < 2 ^ 63 := by simp only [inf64] at hlt; omega
  refine ⟨k, n', hk, hlt, hs.parse h hk hlt, ?_, fun hne => ?_, h3⟩
  · have := hs.toF32 (x := float64 neg k) (n := n') (finite64_iff.2 (by rw [mag64_float64 h63]; exact hlt)) (by rw [mag64_float64 h63]; exact h1)
    rw [neg64_float64 h63] at this
    exact this
  · by_cases hlt' : n < 0x7F7FFFFF
    · refine (unitsP_incr 52).le_of ?_
      rw [← units64_eq, units64_max]
      have a := (unitsP_incr 23).le (show n ≤ 0x7F7FFFFF by omega)
      have b := (unitsP_incr 23).le (show n + 1 ≤ 0x7F7FFFFF by omega)
      rw [← units32_eq] at a b
      have c := Nat.mul_le_mul_right (2 ^ 925) (Nat.add_le_add a b)
      rw [← Nat.two_mul, Nat.mul_assoc] at c
      omega
    · exfalso
      simp only [inf32] at hf
      omega

theorem faithful32_of_even {W : World} (hs : Strconv W) {x : UInt32} (hx : Finite32 x) (he : x.toNat % 2 = 0) : Faithful32 W x := by
  intro txt h
  obtain ⟨m, e, h1, h2⟩ := fmtText32_dec hs hx h
  obtain ⟨k, n', a, b, c, d, f, g⟩ := reads32_dec hs h1 h2 (finite32_iff.1 hx)
  have hm : mag32 x % 2 = 0 := by unfold mag32; omega
  refine ⟨decimalOf_number h1, _, c, (fits32_iff b).2 (f (by omega)), ?_⟩
  rw [d]
  rcases g with rfl | g | g
  · exact float32_self x
  · omega
  · omega

/-! ### `Unmarshal` on the text of a float -/

/-- The document is accepted with the value it stands for, or refused with an error, the destination unchanged. -/
theorem unmarshal_float {W : World} {t : Ty} (ht : IsScalar W t) {txt : Bytes} (h1 : txt ≠ []) (h2 : 59 ∉ txt) (hl : txt.length < 2 ^ 62)
    {fuel : Nat} (hf : 0 < fuel) {old : Val} :
    (∃ v, unmarshal W fuel (Doc.text (.float txt)) (.ptr t old) = (some v, .ok ()) ∧ DecDoc W t maxDepth (.float txt) old v) ∨
    ((∀ v, ¬ DecDoc W t maxDepth (.float txt) old v) ∧ ∃ e, unmarshal W fuel (Doc.text (.float txt)) (.ptr t old) = (some old, .err e)) := by
  have hlen : (Doc.text (.float txt)).length < 2 ^ 63 := by
    simp only [Doc.text, List.length_append, List.length_cons, List.length_nil]; omega
  have hlax : Lax 0 (.float txt) := .float h1 h2
  rcases unmarshal_scalar (old := old) hlen hf (.inl ht) with ⟨v, d, a, b, c⟩ | ⟨e, a⟩ | ⟨e, v, d, rest, -, b, c, d'⟩
  · obtain ⟨rfl, -⟩ := lax_unique (decDoc_lax c) hlax (r1 := []) (r2 := []) (by rw [b])
    exact .inl ⟨v, a, c⟩
  · refine .inr ⟨fun v hv => ?_, e, a⟩
    have := unmarshal_doc hlen (scalarLike_compile (b := []) (.inl ht) hf _) hv
    rw [a] at this
    cases this
  · obtain ⟨-, h⟩ := lax_unique hlax (decDoc_lax d') (r1 := []) (r2 := rest) (by simpa using c)
    exact absurd h.symm b

theorem floatText_dec {W : World} {s : Bytes} {p : Bool × Nat × Int} (h : decimalOf s = some p) {x : UInt64} :
    FloatText W s x ↔ W.parseF64 s = some x := by
  have hn := (decimalOf_number h).2.2
  constructor
  · rintro (_ | _ | _ | ⟨-, -, -, h⟩)
    · exact absurd (.inl rfl) hn
    · exact absurd (.inr (.inl rfl)) hn
    · exact absurd (.inr (.inr rfl)) hn
    · exact h
  · exact .parsed (fun h => hn (.inl h)) (fun h => hn (.inr (.inl h))) (fun h => hn (.inr (.inr h)))

/-- Decimal texts and float64. -/
theorem read64 {W : World} (hs : Strconv W) {t : Ty} (ht : Plain W t .f64) {s : Bytes} {neg : Bool} {m : Nat} {e : Int}
    (h : decimalOf s = some (neg, m, e)) (hl : s.length < 2 ^ 62) {n : Nat} (hn : Near64 (decNum m e) (decDen e) n)
    {fuel : Nat} (hf : 0 < fuel) {old : Val} :
    (n < inf64 → unmarshal W fuel (Doc.text (.float s)) (.ptr t old) = (some (.f64 (float64 neg n)), .ok ())) ∧
    (n = inf64 → ∃ er, unmarshal W fuel (Doc.text (.float s)) (.ptr t old) = (some old, .err er)) := by
  obtain ⟨h1, h2, h3⟩ := decimalOf_number h
  have hsc : IsScalar W t := .inr (.inr (.inr (.inr ht)))
  constructor
  · intro hlt
    rcases unmarshal_float hsc h1 h2 hl hf (old := old) with ⟨v, a, b⟩ | ⟨a, -⟩
    · rcases (decDoc_f64 ht).1 b with ⟨h, -⟩ | ⟨txt, x, h4, -, -, h5, rfl⟩
      · cases h
      · cases h4
        rw [floatText_dec h, hs.parse h hn hlt] at h5
        cases h5
        exact a
    · exact absurd ((decDoc_f64 ht).2 (.inr ⟨s, _, rfl, h1, h2, (floatText_dec h).2 (hs.parse h hn hlt), rfl⟩)) (a _)
  · rintro rfl
    rcases unmarshal_float hsc h1 h2 hl hf (old := old) with ⟨v, a, b⟩ | ⟨-, a⟩
    · rcases (decDoc_f64 ht).1 b with ⟨h, -⟩ | ⟨txt, x, h4, -, -, h5, rfl⟩
      · cases h
      · cases h4
        rw [floatText_dec h, hs.range h hn] at h5
        cases h5
    · exact a

/-- Decimal texts and float32: what happens depends on the float64 nearest to the text. -/
theorem read32 {W : World} (hs : Strconv W) {t : Ty} (ht : Plain W t .f32) {s : Bytes} {neg : Bool} {m : Nat} {e : Int}
    (h : decimalOf s = some (neg, m, e)) (hl : s.length < 2 ^ 62) {k : Nat} (hk : Near64 (decNum m e) (decDen e) k)
    {fuel : Nat} (hf : 0 < fuel) {old : Val} :
    (k ≤ max64 → unmarshal W fuel (Doc.text (.float s)) (.ptr t old) = (some (.f32 (W.toF32 (float64 neg k))), .ok ())) ∧
    (max64 < k → ∃ er, unmarshal W fuel (Doc.text (.float s)) (.ptr t old) = (some old, .err er)) := by
  obtain ⟨h1, h2, h3⟩ := decimalOf_number h
  have hsc : IsScalar W t := .inr (.inr (.inr (.inl ht)))
  constructor
  · intro hle
    have hlt : k < inf64 := by simp only [inf64, max64] at *; omega
    rcases unmarshal_float hsc h1 h2 hl hf (old := old) with ⟨v, a, b⟩ | ⟨a, -⟩
    · rcases (decDoc_f32 ht).1 b with ⟨h, -⟩ | ⟨txt, x, h4, -, -, h5, -, rfl⟩
      · cases h
      · cases h4
        rw [floatText_dec h, hs.parse h hk hlt] at h5
        cases h5
        exact a
    · exact absurd ((decDoc_f32 ht).2 (.inr ⟨s, _, rfl, h1, h2, (floatText_dec h).2 (hs.parse h hk hlt), (fits32_iff hlt).2 hle, rfl⟩)) (a _)
  · intro hlt
    rcases unmarshal_float hsc h1 h2 hl hf (old := old) with ⟨v, a, b⟩ | ⟨-, a⟩
    · rcases (decDoc_f32 ht).1 b with ⟨h, -⟩ | ⟨txt, x, h4, -, -, h5, h6, rfl⟩
      · cases h
      · cases h4
        rw [floatText_dec h] at h5
        rcases Nat.lt_or_ge k inf64 with h7 | h7
        · rw [hs.parse h hk h7] at h5
          cases h5
          have := (fits32_iff h7).1 h6
          omega
        · obtain rfl : k = inf64 := Nat.le_antisymm hk.1 h7
          rw [hs.range h hk] at h5
          cases h5
    · exact a

/-- Checking a nearest float64 by its neighbours. -/
theorem near64_of {num den n : Nat} (hd : 0 < den) (hn : n < inf64) (h0 : 0 < n)
    (h1 : (units64 (n - 1) + units64 n) * den < 2 * (num * 2 ^ 1074)) (h2 : 2 * (num * 2 ^ 1074) < (units64 n + units64 (n + 1)) * den) :
    Near64 num den n := by
  refine nearest_of (T := fun m => units64 m * den) (incr_scale (unitsP_incr 52) hd) (by omega) (fun k hk => .inl ?_) (fun _ => .inl ?_)
  · obtain rfl : k = n - 1 := by omega
    rw [Nat.add_mul] at h1; exact h1
  · rw [Nat.add_mul] at h2; exact h2

/-- Checking a nearest float32 by its neighbours. -/
theorem near32_of {num den n : Nat} (hd : 0 < den) (hn : n < inf32) (h0 : 0 < n)
    (h1 : (units32 (n - 1) + units32 n) * den < 2 * (num * 2 ^ 149)) (h2 : 2 * (num * 2 ^ 149) < (units32 n + units32 (n + 1)) * den) :
    Near32 num den n := by
  refine nearest_of (T := fun m => units32 m * den) (incr_scale (unitsP_incr 23) hd) (by omega) (fun k hk => .inl ?_) (fun _ => .inl ?_)
  · obtain rfl : k = n - 1 := by omega
    rw [Nat.add_mul] at h1; exact h1
  · rw [Nat.add_mul] at h2; exact h2

/-- Numbers nearest to infinity in float32 are beyond MaxFloat32 in float64. -/
theorem beyond32 {num den k : Nat} (hd : 0 < den) (h1 : Near32 num den inf32) (h2 : Near64 num den k) : max64 < k := by
  obtain ⟨h, h3, h4⟩ := mid_exists 0x7F7FFFFF (by decide)
  have hge : h ≤ k := by
    refine Nearest.ge (incr_scale (unitsP_incr 52) hd) h2 h3 ?_
    have a := Nearest.below (incr_scale (unitsP_incr 23) hd) h1 0x7F7FFFFF rfl
    have b : (units32 0x7F7FFFFF + units32 inf32) * den ≤ 2 * (num * 2 ^ 149) := by
      rw [Nat.add_mul]
      rcases a with a | a
      · exact Nat.le_of_lt a
      · exact Nat.le_of_eq a.1
    have c := Nat.mul_le_mul_right (2 ^ 925) b
    rw [Nat.mul_assoc, Nat.mul_comm den, ← Nat.mul_assoc, show inf32 = 0x7F7FFFFF + 1 from rfl, ← h4, Nat.mul_assoc 2 (num * 2 ^ 149), Nat.mul_assoc num,
      ← Nat.pow_add, Nat.mul_assoc] at c
    exact Nat.le_of_mul_le_mul_left c (by omega)
  refine Nat.lt_of_lt_of_le ((unitsP_incr 52).lt_of ?_) hge
  rw [← units64_eq, units64_max]
  have a := (unitsP_incr 23) 0x7F7FFFFF (0x7F7FFFFF + 1) (by omega)
  rw [← units32_eq] at a
  have b := (Nat.mul_lt_mul_right (show 0 < 2 ^ 925 from Nat.pow_pos (by omega))).2 a
  rw [Nat.add_mul] at h4
  have key : ∀ u x y : Nat, 2 * u = x + y → x < y → x < u := by omega
  exact key _ _ _ h4 b

theorem compileD_any {W : World} {t : Ty} (ht : Plain W t .any) {fuel : Nat} (hf : 0 < fuel) : compileD W fuel [] t = .ok () := by
  obtain ⟨f, rfl⟩ : ∃ f, fuel = f + 1 := ⟨fuel - 1, by omega⟩
  unfold compileD
  rw [ht.1, ht.2]

end Verif

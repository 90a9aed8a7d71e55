import Verif.Proofs.Alloc
/-
Inputs for which much memory is asked for.
-/
namespace Verif
open Spec

theorem slice_reserves {dec : Nat → Nat → Val → DR} {al : Nat → Nat → Val → Nat} {z : Val} {es n depth : Nat} {cnt r : Bytes}
    (hd : depth + 1 ≤ maxDepth) (hn : LenText cnt n) (hz : cnt.head? ≠ some 48) (hms : es * n ≤ 2 ^ 48) :
    sliceAlloc dec al z es (97 :: 58 :: (cnt ++ 58 :: 123 :: r)) 0 depth = es * n +
      sliceLoopAlloc (fun c v => dec c (depth + 1) v) (fun c v => al c (depth + 1) v) z es (97 :: 58 :: (cnt ++ 58 :: 123 :: r))
        ((97 :: 58 :: (cnt ++ 58 :: 123 :: r)).length + 1) (cnt.length + 4) [] := by
  generalize hb : 97 :: 58 :: (cnt ++ 58 :: 123 :: r) = b
  have d0 : b.drop 0 = 97 :: 58 :: (cnt ++ 58 :: 123 :: r) := by rw [← hb]; rfl
  have d1 : b.drop 1 = 58 :: (cnt ++ 58 :: 123 :: r) := by rw [← hb]; rfl
  have d2 : b.drop 2 = cnt ++ 58 :: 123 :: r := by rw [← hb]; rfl
  have hlen := readLength_complete hn d1
  have d3 : b.drop (cnt.length + 3) = 123 :: r := by
    have := drop_tail (drop_append_eq d2)
    rwa [show 2 + cnt.length + 1 = cnt.length + 3 by omega] at this
  have hmk : makeSliceOk es (n : Int) = true := by
    unfold makeSliceOk
    rw [decide_eq_true_iff]
    exact ⟨by omega, by simpa using hms⟩
  obtain ⟨y, hy, hy0⟩ : ∃ y, idx b 2 = .ok y ∧ y ≠ c0 := by
    cases cnt with
    | nil => exact ⟨58, idx_of_drop d2, by decide⟩
    | cons y _ => exact ⟨y, idx_of_drop d2, fun h => hz (by rw [h]; rfl)⟩
  unfold sliceAlloc
  rw [if_neg (by simp [hasByte, ← hb])]
  dsimp only
  rw [if_neg (by omega), idx_of_drop d0]
  simp only [costOk]
  rw [if_pos trivial, idx_of_drop (show b.drop (0 + 1) = _ from d1)]
  simp only
  rw [if_neg (by decide), hy]
  simp only
  rw [if_neg hy0]
  show costOk (readLengthInt b 1) _ = _
  rw [show readLengthInt b 1 = readLength b 1 from rfl, hlen]
  simp only [costOk]
  rw [show 1 + cnt.length + 2 = cnt.length + 3 by omega, idx_of_drop d3]
  simp only
  rw [if_neg (by decide), if_neg (by simp [hmk])]
  simp

theorem map_reserves {keyDec valDec : Nat → Nat → DR} {keyAl valAl : Nat → Nat → Nat} {ks vs n depth : Nat} {cnt r : Bytes}
    (hd : depth + 1 ≤ maxDepth) (hn : LenText cnt n) (hms : (ks + vs) * n ≤ 2 ^ 48) :
    (ks + vs) * n ≤ mapAlloc keyDec valDec keyAl valAl ks vs (97 :: 58 :: (cnt ++ 58 :: 123 :: r)) 0 depth .mapNil := by
  generalize hb : 97 :: 58 :: (cnt ++ 58 :: 123 :: r) = b
  have d0 : b.drop 0 = 97 :: 58 :: (cnt ++ 58 :: 123 :: r) := by rw [← hb]; rfl
  have d1 : b.drop 1 = 58 :: (cnt ++ 58 :: 123 :: r) := by rw [← hb]; rfl
  have d2 : b.drop 2 = cnt ++ 58 :: 123 :: r := by rw [← hb]; rfl
  have hlen := readLength_complete hn d1
  have d3 : b.drop (cnt.length + 3) = 123 :: r := by
    have := drop_tail (drop_append_eq d2)
    rwa [show 2 + cnt.length + 1 = cnt.length + 3 by omega] at this
  have hmk : makeSliceOk (ks + vs) (n : Int) = true := by
    unfold makeSliceOk
    rw [decide_eq_true_iff]
    exact ⟨by omega, by simpa using hms⟩
  unfold mapAlloc
  rw [if_neg (by simp [hasByte, ← hb])]
  dsimp only
  rw [if_neg (by omega), idx_of_drop d0]
  simp only [costOk]
  rw [if_neg (by decide), if_neg (by decide), if_pos trivial]
  simp only
  rw [show 0 + 1 = 1 from rfl, hlen]
  simp only
  rw [show 1 + cnt.length + 2 = cnt.length + 3 by omega, idx_of_drop d3]
  simp only
  rw [if_neg (by decide)]
  simp [mapEntries, mapRoom, hmk]

/-- The sizes of the slices made for a list of integers: one for every element. -/
theorem intList_loop {W : World} {b : Bytes} {F size depth : Nat} (hF : 0 < F) :
    ∀ {es : List (Doc × Doc)} {f c c' i : Nat} {sl : List Val}, IntList i es → PairsAt b c es c' → es ≠ [] → es.length < f →
      sl.length = i → i + es.length < 2 ^ 63 → size * (i + es.length) ≤ 2 ^ 48 →
      2 * sliceLoopAlloc (fun c v => decodeF W b F (.int .i64) c depth v) (fun c v => allocF W b F (.int .i64) c depth v) (.int 0) size b f c sl =
        size * (es.length * (2 * i + es.length + 1)) := by
  obtain ⟨F, rfl⟩ : ∃ F', F = F' + 1 := ⟨F - 1, by omega⟩
  intro es
  induction es with
  | nil => intro f c c' i sl _ _ h; exact absurd rfl h
  | cons e es ih =>
    intro f c c' i sl hL hp _ hf hsl h63 h48
    obtain ⟨kd, vd⟩ := e
    obtain ⟨⟨t, rfl, ht⟩, ⟨u, x, rfl, hu, hx⟩, hL⟩ := hL
    obtain ⟨c1, c2, hk, hv, hp'⟩ := hp.inv
    obtain ⟨f, rfl⟩ : ∃ f', f = f' + 1 := ⟨f - 1, by omega⟩
    simp only [List.length_cons] at h63 h48 hf
    have hr := int_readInt hk ht (by omega)
    have hdec : ∀ v0, decodeF W b (F + 1) (.int .i64) c1 depth v0 = (.int x, .ok c2) := fun v0 =>
      show intDecode .i64 b c1 v0 = _ from intDecode_iff.2 (.inr ⟨u, x, hv, hu, hx, rfl⟩)
    have hal : ∀ v0, allocF W b (F + 1) (.int .i64) c1 depth v0 = 0 := fun _ => rfl
    have hmk : makeSliceOk size (wrap64 ((i : Int) + 1)) = true := by
      rw [wrap64_of_range (by omega) (by omega)]
      unfold makeSliceOk
      rw [decide_eq_true_iff]
      refine ⟨by omega, ?_⟩
      rw [show ((i : Int) + 1).toNat = i + 1 by omega]
      exact Nat.le_trans (Nat.mul_le_mul_left size (by omega)) h48
    have hget : (sl ++ List.replicate (i + 1 - sl.length) (Val.int 0))[i]? = some (.int 0) := by
      rw [List.getElem?_append_right (by omega), hsl, show i + 1 - i = 1 by omega]
      simp
    have hlen : ((sl ++ List.replicate (i + 1 - sl.length) (Val.int 0)).set i (.int x)).length = i + 1 := by
      simp
      omega
    obtain ⟨y, hy, hy1, -⟩ := hp'.idx
    have step : sliceLoopAlloc (fun c v => decodeF W b (F + 1) (.int .i64) c depth v) (fun c v => allocF W b (F + 1) (.int .i64) c depth v) (.int 0)
        size b (f + 1) c sl = size * (i + 1) + if y = cRBrace then 0 else
          sliceLoopAlloc (fun c v => decodeF W b (F + 1) (.int .i64) c depth v) (fun c v => allocF W b (F + 1) (.int .i64) c depth v) (.int 0)
            size b f c2 ((sl ++ List.replicate (i + 1 - sl.length) (Val.int 0)).set i (.int x)) := by
      rw [sliceLoopAlloc, hr]
      simp only [costOk]
      rw [if_neg (by simp [hasByte, hv.lt]), if_neg (by rw [hmk]; simp), if_pos (by simp; omega), hget]
      simp only [hdec, hal, hy]
      rw [if_pos (by simp; omega)]
      omega
    rw [step]
    by_cases hes : es = []
    · subst hes
      rw [if_pos (hy1.1 rfl)]
      simp only [List.length_cons, List.length_nil]
      rw [show 0 + 1 = 1 from rfl, Nat.one_mul, show 2 * i + 1 + 1 = 2 * (i + 1) by omega, Nat.add_zero, Nat.mul_left_comm]
    · rw [if_neg (fun h => hes (hy1.2 h)), Nat.mul_add, ih hL hp' hes (by omega) hlen (by omega) (by rw [show i + 1 + es.length = i + (es.length + 1) by omega]; exact h48)]
      simp only [List.length_cons]
      generalize es.length = n
      have h1 : (n + 1) * (2 * i + (n + 1) + 1) = n * (2 * i + (n + 1) + 1) + (2 * i + (n + 1) + 1) := by rw [Nat.add_mul, Nat.one_mul]
      have h2 : n * (2 * (i + 1) + n + 1) = n * (2 * i + (n + 1) + 1) + n := by
        rw [show 2 * (i + 1) + n + 1 = (2 * i + (n + 1) + 1) + 1 by omega, Nat.mul_add, Nat.mul_one]
      have h3 : 2 * (i + 1) + n * (2 * (i + 1) + n + 1) = (n + 1) * (2 * i + (n + 1) + 1) := by omega
      rw [Nat.mul_left_comm 2, ← Nat.mul_add, h3]

end Verif

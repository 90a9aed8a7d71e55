import Verif.Props.DemoFloat
import Verif.Spec.Back
/-
C05 and C64: floats in exact arithmetic. `Strconv W` says what the documentation of strconv and the Go specification promise:
texts and conversions are rounded to the nearest number.
-/
namespace Verif
open Spec

set_option exponentiation.threshold 2100

/-! ### C05 -/

/-- C05 for float64, every value: the value read back is the same, bit for bit, or both are NaN. -/
theorem C05_float64_all (W : World) (hs : Strconv W) (h : Heap) (t : Ty) (ht : Plain W t .f64) (hm : W.marOf t = false)
    (x : UInt64) (fuel : Nat) (hf : 0 < fuel) (old : Val) :
    ∃ tx y, MarshalGives W h (some (t, .f64 x)) (.ok tx) ∧ unmarshal W fuel tx (.ptr t old) = (some (.f64 y), .ok ()) ∧ SameF64 x y :=
  C05_float64_roundtrip W h t ht hm x (faithful64_of hs) (fun _ txt h => by rcases h with ⟨-, rfl⟩ | ⟨-, rfl⟩ <;> exact hs.short64 _ _) fuel hf old

example : Strconv Demo.WX ∧ Plain Demo.WX .f64 .f64 ∧ Demo.WX.marOf .f64 = false := ⟨Demo.strconv, ⟨rfl, rfl⟩, rfl⟩

/-- C05 for float32: values with even bits, infinities and NaN come back the same. Missing: odd bits, see
`C05_float32_odd_partial` and `C05_float32_odd_counterexample`. -/
theorem C05_float32_even_partial (W : World) (hs : Strconv W) (h : Heap) (t : Ty) (ht : Plain W t .f32) (hm : W.marOf t = false)
    (x : UInt32) (hx : x.toNat % 2 = 0 ∨ ¬ Finite32 x) (fuel : Nat) (hf : 0 < fuel) (old : Val) :
    ∃ tx y, MarshalGives W h (some (t, .f32 x)) (.ok tx) ∧ unmarshal W fuel tx (.ptr t old) = (some (.f32 y), .ok ()) ∧ SameF32 x y :=
  C05_float32_roundtrip_partial W h t ht hm hs.special x
    (fun hfin => by
      rcases hx with hx | hx
      · exact faithful32_of_even hs hfin hx
      · exact absurd hfin hx)
    (fun _ txt h => by rcases h with ⟨-, rfl⟩ | ⟨-, rfl⟩ <;> exact hs.short32 _ _) fuel hf old

-- 0.1 rounded to float32 has odd bits (0x3DCCCCCD), its neighbour has even ones
example : Strconv Demo.WX ∧ Plain Demo.WX .f32 .f32 ∧ Demo.WX.marOf .f32 = false ∧ (0x3DCCCCCC : UInt32).toNat % 2 = 0 ∧
    Finite32 0x3DCCCCCC := ⟨Demo.strconv, ⟨rfl, rfl⟩, rfl, by decide, by unfold Finite32; decide⟩

/-- C05 for float32, every finite value: it comes back the same or as a neighbour with even bits; only for MaxFloat32 and
-MaxFloat32 is an error possible. Missing, because it is false: that it comes back the same, see the counterexamples. -/
theorem C05_float32_odd_partial (W : World) (hs : Strconv W) (h : Heap) (t : Ty) (ht : Plain W t .f32) (hm : W.marOf t = false)
    (x : UInt32) (hx : Finite32 x) (fuel : Nat) (hf : 0 < fuel) (old : Val) :
    ∃ tx, MarshalGives W h (some (t, .f32 x)) (.ok tx) ∧
      ((∃ y : UInt32, unmarshal W fuel tx (.ptr t old) = (some (.f32 y), .ok ()) ∧
        (y = x ∨ (y.toNat % 2 = 0 ∧ (y.toNat = x.toNat + 1 ∨ y.toNat + 1 = x.toNat)))) ∨
      ((x = 0x7F7FFFFF ∨ x = 0xFF7FFFFF) ∧ ∃ e, unmarshal W fuel tx (.ptr t old) = (some old, .err e))) := by
  obtain ⟨txt, ho⟩ := floatOut32_total (W := W) x
  have hfmt : FmtText32 W x txt := by
    cases ho with
    | nan h => exact absurd hx (by unfold NaN32 at h; unfold Finite32; intro h'; exact absurd (UInt32.lt_trans h h') (by simp))
    | inf => exact absurd hx (by unfold Finite32; decide)
    | negInf => exact absurd hx (by unfold Finite32; decide)
    | finite _ _ _ h => exact h
  refine ⟨_, marshal_scalar hm (.f32 ht.2 ho), ?_⟩
  obtain ⟨m, e, h1, h2⟩ := fmtText32_dec hs hx hfmt
  have hlt := finite32_iff.1 hx
  have hl : txt.length < 2 ^ 62 := by rcases hfmt with ⟨-, rfl⟩ | ⟨-, rfl⟩ <;> exact hs.short32 _ _
  obtain ⟨k, n', a, b, c, d, f, g⟩ := reads32_dec hs h1 h2 hlt
  obtain ⟨r1, r2⟩ := read32 hs ht h1 hl a hf (old := old)
  rcases Nat.lt_or_ge max64 k with hk | hk
  · have hmax : mag32 x = 0x7F7FFFFF := by
      by_cases hne : mag32 x = 0x7F7FFFFF
      · exact hne
      · have := f hne; omega
    refine .inr ⟨?_, r2 hk⟩
    have hself := float32_self x
    rw [hmax] at hself
    cases hb : neg32 x <;> rw [hb] at hself
    · exact .inl hself.symm
    · exact .inr hself.symm
  · refine .inl ⟨_, by rw [r1 hk, d], ?_⟩
    have hn' : n' < 2 ^ 31 := by simp only [inf32] at hlt; omega
    have hself := float32_self x
    have hxn : x.toNat = if neg32 x then 2 ^ 31 + mag32 x else mag32 x := by
      rw [← float32_toNat (s := neg32 x) (n := mag32 x) (by unfold mag32; omega), hself]
    rcases g with rfl | ⟨g1, rfl, -⟩ | ⟨g1, g2, -⟩
    · exact .inl hself
    · right
      rw [float32_toNat hn', hxn]
      split <;> omega
    · right
      rw [float32_toNat hn', hxn]
      split <;> omega

example : Finite32 0x15AE43FD ∧ (0x15AE43FD : UInt32).toNat % 2 = 1 := ⟨by unfold Finite32; decide, by decide⟩

/-- C05 is false for float32, for every environment that keeps the promises of strconv and writes 0x15AE43FD as
`7.038531e-26`: it comes back as 0x15AE43FE. -/
theorem C05_float32_odd_counterexample (W : World) (hs : Strconv W) (h : Heap) (t : Ty) (ht : Plain W t .f32) (hm : W.marOf t = false)
    (hfmt : W.fmtF32 true 0x15AE43FD = b! "7.038531e-26") (fuel : Nat) (hf : 0 < fuel) (old : Val) :
    MarshalGives W h (some (t, .f32 0x15AE43FD)) (.ok (b! "d:7.038531e-26;")) ∧
    unmarshal W fuel (b! "d:7.038531e-26;") (.ptr t old) = (some (.f32 0x15AE43FE), .ok ()) ∧ ¬ SameF32 0x15AE43FD 0x15AE43FE := by
  have h0 : FmtText32 W 0x15AE43FD (b! "7.038531e-26") := .inl ⟨by unfold Sci32 NaN32; decide, hfmt.symm⟩
  have ho : FloatOut32 W 0x15AE43FD (b! "7.038531e-26") := .finite (by unfold NaN32; decide) (by decide) (by decide) h0
  exact ⟨marshal_scalar hm (.f32 ht.2 ho), read_odd hs ht hf, by unfold SameF32 NaN32; decide⟩

example : Strconv Demo.WX ∧ Demo.WX.fmtF32 true 0x15AE43FD = b! "7.038531e-26" := ⟨Demo.strconv, by rfl⟩

/-- C05 is false for MaxFloat32: it is written as `3.4028235e+38`, which is a little larger, and therefore refused. -/
theorem C05_float32_max_counterexample (W : World) (hs : Strconv W) (h : Heap) (t : Ty) (ht : Plain W t .f32) (hm : W.marOf t = false)
    (hfmt : W.fmtF32 true 0x7F7FFFFF = b! "3.4028235e+38") (fuel : Nat) (hf : 0 < fuel) (old : Val) :
    MarshalGives W h (some (t, .f32 0x7F7FFFFF)) (.ok (b! "d:3.4028235e+38;")) ∧
    ∃ e, unmarshal W fuel (b! "d:3.4028235e+38;") (.ptr t old) = (some old, .err e) := by
  have h0 : FmtText32 W 0x7F7FFFFF (b! "3.4028235e+38") := .inl ⟨by unfold Sci32 NaN32; decide, hfmt.symm⟩
  have ho : FloatOut32 W 0x7F7FFFFF (b! "3.4028235e+38") := .finite (by unfold NaN32; decide) (by decide) (by decide) h0
  exact ⟨marshal_scalar hm (.f32 ht.2 ho), read_max hs ht hf⟩

example : Strconv Demo.WX ∧ Demo.WX.fmtF32 true 0x7F7FFFFF = b! "3.4028235e+38" := ⟨Demo.strconv, by rfl⟩

/-! ### C64 -/

/-- C64 for float64: a decimal text gives the nearest float64, whatever the variable held; one that is too large gives an error and
leaves the variable alone. -/
theorem C64_float64 (W : World) (hs : Strconv W) (t : Ty) (ht : Plain W t .f64) (s : Bytes) (neg : Bool) (m : Nat) (e : Int)
    (h : decimalOf s = some (neg, m, e)) (hl : s.length < 2 ^ 62) (n : Nat) (hn : Near64 (decNum m e) (decDen e) n)
    (fuel : Nat) (hf : 0 < fuel) (old : Val) :
    (n < inf64 → unmarshal W fuel ([100, 58] ++ s ++ [59]) (.ptr t old) = (some (.f64 (float64 neg n)), .ok ())) ∧
    (n = inf64 → ∃ er, unmarshal W fuel ([100, 58] ++ s ++ [59]) (.ptr t old) = (some old, .err er)) :=
  read64 hs ht h hl hn hf

-- `-1.5E+3` as PHP writes it, and a number beyond the largest float64
example : decimalOf (b! "-1.5E+3") = some (true, 15, 2) ∧ Near64 (decNum 15 2) (decDen 2) 0x4097700000000000 ∧
    decimalOf (b! "1e+309") = some (false, 1, 309) ∧ Near64 (decNum 1 309) (decDen 309) inf64 :=
  ⟨by rfl, near64_of (by decide) (by decide) (by decide) (by decide +kernel) (by decide +kernel), by rfl,
    nearest_of (T := fun m => units64 m * decDen 309) (incr_scale (unitsP_incr 52) (by decide)) (Nat.le_refl _)
      (fun k hk => by obtain rfl : k = inf64 - 1 := by omega
                      exact .inl (by decide +kernel)) (fun h => absurd h (by simp))⟩

/-- Every number has exactly one nearest float64 and one nearest float32. -/
theorem C64_nearest (num den : Nat) (hd : 0 < den) :
    (∃ n, Near64 num den n ∧ ∀ m, Near64 num den m → m = n) ∧ ∃ n, Near32 num den n ∧ ∀ m, Near32 num den m → m = n := by
  obtain ⟨n, hn⟩ := near64_exists num hd
  obtain ⟨n', hn'⟩ := near32_exists num hd
  exact ⟨⟨n, hn, fun m hm => near64_unique hd hm hn⟩, n', hn', fun m hm => near32_unique hd hm hn'⟩

example : 0 < decDen (-32) := by decide

/-- C64 for float32, as far as it holds: the variable gets the nearest float32 or, if that has odd bits, possibly a neighbour; an
error is possible only if MaxFloat32 is the nearest or the number is too large, and then it is certain. Missing, because it is false:
that it is always the nearest, see the counterexamples. -/
theorem C64_float32_partial (W : World) (hs : Strconv W) (t : Ty) (ht : Plain W t .f32) (s : Bytes) (neg : Bool) (m : Nat) (e : Int)
    (h : decimalOf s = some (neg, m, e)) (hl : s.length < 2 ^ 62) (n : Nat) (hn : Near32 (decNum m e) (decDen e) n)
    (fuel : Nat) (hf : 0 < fuel) (old : Val) :
    (n < inf32 → (∃ n', unmarshal W fuel ([100, 58] ++ s ++ [59]) (.ptr t old) = (some (.f32 (float32 neg n')), .ok ()) ∧
        (n' = n ∨ (n % 2 = 1 ∧ (n' = n + 1 ∨ n' + 1 = n)))) ∨
      (n = 0x7F7FFFFF ∧ ∃ er, unmarshal W fuel ([100, 58] ++ s ++ [59]) (.ptr t old) = (some old, .err er))) ∧
    (n = inf32 → ∃ er, unmarshal W fuel ([100, 58] ++ s ++ [59]) (.ptr t old) = (some old, .err er)) := by
  constructor
  · intro hlt
    obtain ⟨k, n', a, b, c, d, f, g⟩ := reads32_dec hs h hn hlt
    obtain ⟨r1, r2⟩ := read32 hs ht h hl a hf (old := old)
    rcases Nat.lt_or_ge max64 k with hk | hk
    · refine .inr ⟨?_, r2 hk⟩
      by_cases hne : n = 0x7F7FFFFF
      · exact hne
      · have := f hne; omega
    · refine .inl ⟨n', by rw [← d]; exact r1 hk, ?_⟩
      rcases g with g | ⟨g1, g2, -⟩ | ⟨g1, g2, -⟩
      · exact .inl g
      · exact .inr ⟨g1, .inl g2⟩
      · exact .inr ⟨g1, .inr g2⟩
  · rintro rfl
    obtain ⟨k, hk⟩ := near64_exists (decNum m e) (decDen_pos e)
    exact (read32 hs ht h hl hk hf (old := old)).2 (beyond32 (decDen_pos e) hn hk)

example : decimalOf (b! "7.038531e-26") = some (false, 7038531, -32) ∧ Near32 (decNum 7038531 (-32)) (decDen (-32)) 0x15AE43FD :=
  ⟨by rfl, Demo.near_odd⟩

/-- C64 is false for float32: the text `7.038531e-26` gives 0x15AE43FE although 0x15AE43FD is nearer, and `3.4028235e+38` is refused
although MaxFloat32 is the nearest float32. -/
theorem C64_float32_counterexample (W : World) (hs : Strconv W) (t : Ty) (ht : Plain W t .f32) (fuel : Nat) (hf : 0 < fuel) (old : Val) :
    (Near32 7038531 (10 ^ 32) 0x15AE43FD ∧ unmarshal W fuel (b! "d:7.038531e-26;") (.ptr t old) = (some (.f32 0x15AE43FE), .ok ())) ∧
    (Near32 (34028235 * 10 ^ 31) 1 0x7F7FFFFF ∧ ∃ e, unmarshal W fuel (b! "d:3.4028235e+38;") (.ptr t old) = (some old, .err e)) :=
  ⟨⟨Demo.near_odd, read_odd hs ht hf⟩, Demo.near_max, read_max hs ht hf⟩

example : Strconv Demo.WX ∧ Plain Demo.WX .f32 .f32 := ⟨Demo.strconv, rfl, rfl⟩

/-- Decimal texts in an interface: the nearest float64. -/
theorem C64_any (W : World) (hs : Strconv W) (t : Ty) (ht : Plain W t .any) (s : Bytes) (neg : Bool) (m : Nat) (e : Int)
    (h : decimalOf s = some (neg, m, e)) (hl : s.length < 2 ^ 62) (n : Nat) (hn : Near64 (decNum m e) (decDen e) n) (hlt : n < inf64)
    (fuel : Nat) (hf : 0 < fuel) (old : Val) :
    unmarshal W fuel ([100, 58] ++ s ++ [59]) (.ptr t old) = (some (.iface .f64 (.f64 (float64 neg n))), .ok ()) := by
  obtain ⟨h1, h2, -⟩ := decimalOf_number h
  refine unmarshal_doc (d := .float s) ?_ (compileD_any ht hf) (.anyFloat ht h1 h2 ((floatText_dec h).2 (hs.parse h hn hlt)))
  simp only [Doc.text, List.length_append, List.length_cons, List.length_nil]; omega

example : Plain Demo.WX .any .any ∧ decimalOf (b! "0.5") = some (false, 5, -1) ∧ Near64 (decNum 5 (-1)) (decDen (-1)) 0x3FE0000000000000 :=
  ⟨⟨rfl, rfl⟩, by rfl, near64_of (by decide) (by decide) (by decide) (by decide +kernel) (by decide +kernel)⟩

-- the bounds between the formats `e` and `f` of the encoder are the floats nearest to 1e-6 and 1e21
example : Near64 1 (10 ^ 6) 0x3EB0C6F7A0B5ED8D ∧ Near64 (10 ^ 21) 1 0x444B1AE4D6E2EF50 ∧
    Near32 1 (10 ^ 6) 0x358637BD ∧ Near32 (10 ^ 21) 1 0x6258D727 :=
  ⟨near64_of (by decide) (by decide) (by decide) (by decide +kernel) (by decide +kernel),
    near64_of (by decide) (by decide) (by decide) (by decide +kernel) (by decide +kernel),
    near32_of (by decide) (by decide) (by decide) (by decide +kernel) (by decide +kernel),
    near32_of (by decide) (by decide) (by decide) (by decide +kernel) (by decide +kernel)⟩

/-- C06 for floats: with `Strconv`, every finite float64 and every finite float32 with even bits is fit to be written and read back
inside composite values. -/
theorem C06_floats (W : World) (hs : Strconv W) (h : Heap) (t : Ty) :
    (∀ x, Finite64 x → Fit W h t (.f64 x)) ∧ ∀ x, Finite32 x → x.toNat % 2 = 0 → Fit W h t (.f32 x) := by
  constructor
  · intro x hx txt ht
    obtain ⟨a, b⟩ := faithful64_of hs hx txt ht
    exact ⟨a, _, b, .inl rfl⟩
  · intro x hx he txt ht
    obtain ⟨a, y, b, c, d⟩ := faithful32_of_even hs hx he txt ht
    exact ⟨a, y, b, c, .inl d.symm⟩

example : Strconv Demo.WX ∧ Finite64 0x3FB999999999999A ∧ Finite32 0x3DCCCCCC := ⟨Demo.strconv, by unfold Finite64; decide, by unfold Finite32; decide⟩

end Verif

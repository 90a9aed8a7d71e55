import Verif.Proofs.Marshal
import Verif.Proofs.ScalarFacts
import Verif.Spec.Float
/-
Scalars written by `Marshal` and read by `Unmarshal`.
-/
namespace Verif
open Spec

theorem natText_length {k n : Nat} (hk : 0 < k) (h : n < 10 ^ k) : (natText n).length ≤ k := by
  induction k generalizing n with
  | zero => omega
  | succ k ih =>
    rw [natText_step]
    split
    · simp
    · rename_i hn
      rw [List.length_append]
      have hk0 : 0 < k := by
        rcases Nat.eq_zero_or_pos k with rfl | h0
        · simp at h; omega
        · exact h0
      have := ih (n := n / 10) hk0 (by rw [Nat.pow_succ] at h; omega)
      simp only [List.length_cons, List.length_nil]
      omega

theorem natText_length64 {n : Nat} (h : n < 2 ^ 64) : (natText n).length ≤ 20 :=
  natText_length (by omega) (by omega)

theorem intText_length {i : Int} (h1 : -(2 ^ 63) ≤ i) (h2 : i < 2 ^ 63) : (intText i).length ≤ 21 := by
  cases i with
  | ofNat n => have := natText_length64 (n := n) (by simp at h2; omega); simp only [intText]; omega
  | negSucc n => have := natText_length64 (n := n + 1) (by omega); simp only [intText, List.length_cons]; omega

theorem uint_lt64 {k : UKind} {n : Nat} (h : InURange k n) : n < 2 ^ 64 := by
  unfold InURange at h
  cases k <;> simp only [uintMax] at h <;> omega

theorem strDoc_length {s : Bytes} (h : s.length < 2 ^ 62) : (strDoc s).text.length < 2 ^ 63 := by
  have := natText_length64 (n := s.length) (by omega)
  simp only [strDoc, Doc.text, List.length_append, List.length_cons, List.length_nil]
  omega

theorem classify64 (x : UInt64) : NaN64 x ∨ x = 0x7FF0000000000000 ∨ x = 0xFFF0000000000000 ∨ Finite64 x := by
  unfold NaN64 Finite64
  simp only [UInt64.lt_iff_toNat_lt, ← UInt64.toNat_inj, UInt64.toNat_and]
  have hm : (0x7FFFFFFFFFFFFFFF : UInt64).toNat = 2 ^ 63 - 1 := rfl
  rw [hm, Nat.and_two_pow_sub_one_eq_mod]
  have h1 : (0x7FF0000000000000 : UInt64).toNat = 0x7FF0000000000000 := rfl
  have h2 : (0xFFF0000000000000 : UInt64).toNat = 0xFFF0000000000000 := rfl
  have := x.toNat_lt
  omega

theorem classify32 (x : UInt32) : NaN32 x ∨ x = 0x7F800000 ∨ x = 0xFF800000 ∨ Finite32 x := by
  unfold NaN32 Finite32
  simp only [UInt32.lt_iff_toNat_lt, ← UInt32.toNat_inj, UInt32.toNat_and]
  have hm : (0x7FFFFFFF : UInt32).toNat = 2 ^ 31 - 1 := rfl
  rw [hm, Nat.and_two_pow_sub_one_eq_mod]
  have h1 : (0x7F800000 : UInt32).toNat = 0x7F800000 := rfl
  have h2 : (0xFF800000 : UInt32).toNat = 0xFF800000 := rfl
  have := x.toNat_lt
  omega

theorem finite64_of {x : UInt64} (h1 : ¬ NaN64 x) (h2 : x ≠ 0x7FF0000000000000) (h3 : x ≠ 0xFFF0000000000000) : Finite64 x := by
  rcases classify64 x with h | h | h | h
  · exact absurd h h1
  · exact absurd h h2
  · exact absurd h h3
  · exact h

theorem finite32_of {x : UInt32} (h1 : ¬ NaN32 x) (h2 : x ≠ 0x7F800000) (h3 : x ≠ 0xFF800000) : Finite32 x := by
  rcases classify32 x with h | h | h | h
  · exact absurd h h1
  · exact absurd h h2
  · exact absurd h h3
  · exact h

theorem float64_back {W : World} {x : UInt64} {txt : Bytes} (ho : FloatOut64 W x txt) (hf : Finite64 x → Faithful64 W x) :
    txt ≠ [] ∧ 59 ∉ txt ∧ ∃ y, FloatText W txt y ∧ SameF64 x y := by
  cases ho with
  | nan hn => exact ⟨by simp, by decide, _, .nan, .inr ⟨hn, by unfold NaN64; decide⟩⟩
  | inf => exact ⟨by simp, by decide, _, .inf, .inl rfl⟩
  | negInf => exact ⟨by simp, by decide, _, .negInf, .inl rfl⟩
  | finite h1 h2 h3 h4 =>
    obtain ⟨⟨a, b, c⟩, d⟩ := hf (finite64_of h1 h2 h3) _ h4
    exact ⟨a, b, _, .parsed (fun h => c (.inl h)) (fun h => c (.inr (.inl h))) (fun h => c (.inr (.inr h))) d, .inl rfl⟩

theorem float32_back {W : World} {x : UInt32} {txt : Bytes} (ho : FloatOut32 W x txt) (hf : Finite32 x → Faithful32 W x) (hc : Convert32 W) :
    txt ≠ [] ∧ 59 ∉ txt ∧ ∃ y, FloatText W txt y ∧ Fits32 y ∧ SameF32 x (W.toF32 y) := by
  cases ho with
  | nan hn => exact ⟨by simp, by decide, _, .nan, .inr (by decide), .inr ⟨hn, hc.nan⟩⟩
  | inf => exact ⟨by simp, by decide, _, .inf, .inr (by decide), .inl hc.inf.symm⟩
  | negInf => exact ⟨by simp, by decide, _, .negInf, .inr (by decide), .inl hc.negInf.symm⟩
  | finite h1 h2 h3 h4 =>
    obtain ⟨⟨a, b, c⟩, y, d, e, f⟩ := hf (finite32_of h1 h2 h3) _ h4
    exact ⟨a, b, _, .parsed (fun h => c (.inl h)) (fun h => c (.inr (.inl h))) (fun h => c (.inr (.inr h))) d, e, .inl f.symm⟩

/-- A scalar kind, as far as `Marshal` supports it. -/
def ScalarKind : Ty → Prop
  | .bool | .int _ | .f32 | .f64 | .str => True
  | .uint k => k ≠ .uptr
  | _ => False

theorem supported_scalar {W : World} {t : Ty} (hm : W.marOf t = false) (hk : ScalarKind (W.resolve t)) : Supported W t := by
  refine ⟨1, [], ?_⟩
  have hne : t ≠ .slice (.uint .u8) := by rintro rfl; exact hk
  unfold compileE
  simp only [hm, hne, Bool.false_eq_true, if_false]
  revert hk
  generalize W.resolve t = r
  cases r <;> simp [ScalarKind]

theorem marshal_scalar {W : World} {h : Heap} {t : Ty} {v : GV} {d : Doc} (hm : W.marOf t = false) (hd : ScalarDoc W t v d) :
    MarshalGives W h (some (t, v)) (.ok d.text) := by
  have hk : ScalarKind (W.resolve t) := by cases hd <;> simp_all [ScalarKind]
  refine marshalGives_ok_iff.2 ⟨supported_scalar hm hk, .plain hm ?_ ?_ (.scalar hd)⟩
  · rintro rfl; exact hk
  · unfold World.isPtr
    revert hk
    generalize W.resolve t = r
    cases r <;> simp [ScalarKind]

theorem unmarshal_doc {W : World} {t : Ty} {fuel : Nat} {d : Doc} {old v : Val} (hb : d.text.length < 2 ^ 63)
    (hc : compileD W fuel [] t = .ok ()) (hd : DecDoc W t maxDepth d old v) : unmarshal W fuel d.text (.ptr t old) = (some v, .ok ()) :=
  (unmarshal_ok_iff hb).2 ⟨hc, d, v, rfl, rfl, hd⟩

end Verif

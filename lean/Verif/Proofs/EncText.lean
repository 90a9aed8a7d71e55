import Verif.Proofs.Docs
import Verif.Spec.Encode
/-
The texts written by the scalar appenders are the texts of documents.
-/
namespace Verif
open Spec

theorem natTextF_stable {f g n : Nat} (hf : n ≤ f) (hg : n ≤ g) : natTextF f n = natTextF g n := by
  induction f generalizing g n with
  | zero =>
    have : n = 0 := by omega
    subst this
    cases g <;> simp [natTextF]
  | succ f ih =>
    cases g with
    | zero =>
      have : n = 0 := by omega
      subst this
      simp [natTextF]
    | succ g =>
      unfold natTextF
      by_cases h : n < 10
      · simp [h]
      · simp only [h, if_false]
        rw [ih (g := g) (n := n / 10) (by omega) (by omega)]

theorem natText_step (n : Nat) :
    natText n = if n < 10 then [UInt8.ofNat (48 + n)] else natText (n / 10) ++ [UInt8.ofNat (48 + n % 10)] := by
  unfold natText
  cases n with
  | zero => rfl
  | succ n =>
    rw [natTextF]
    by_cases h : n + 1 < 10
    · simp [h]
    · simp only [h, if_false]
      rw [natTextF_stable (f := n) (g := (n + 1) / 10) (by omega) (by omega)]

theorem digitsRev_eq {f n : Nat} (h : n < f) : (digitsRev f n).reverse = natText n := by
  induction f generalizing n with
  | zero => omega
  | succ f ih =>
    rw [natText_step, digitsRev]
    by_cases hn : n < 10
    · simp [hn, Nat.mod_eq_of_lt hn]
    · simp only [hn, if_false, List.reverse_cons]
      rw [ih (by omega)]

@[simp] theorem appendUint_eq (b : Bytes) (n : Nat) : appendUint b n = b ++ natText n := by
  rw [appendUint, digitsRev_eq (by omega)]

@[simp] theorem appendInt_eq (b : Bytes) (i : Int) : appendInt b i = b ++ intText i := by
  cases i with
  | ofNat n =>
    have h : ¬ (Int.ofNat n) < 0 := by simp
    rw [appendInt, if_neg h]
    simp [intText]
  | negSucc n =>
    have h : (Int.negSucc n) < 0 := Int.negSucc_lt_zero n
    have h2 : (Int.negSucc n).natAbs = n + 1 := rfl
    simp only [appendInt, h, if_true, h2, intText]
    rw [digitsRev_eq (by omega)]
    simp [cMinus]

theorem intText_natCast (n : Nat) : intText (n : Int) = natText n := rfl

theorem appendNull_eq (b : Bytes) : appendNull b = b ++ Doc.null.text := by
  simp [appendNull, Doc.text, cN, cSemi]

theorem appendString_eq (b s : Bytes) : appendString b s = b ++ (strDoc s).text := by
  simp [appendString, strDoc, Doc.text, intText_natCast, cs, cColon, cQuote, cSemi]

theorem appendBool_eq (b : Bytes) (v : Bool) : appendBool b v = b ++ (Doc.bool v).text := by
  cases v <;> simp [appendBool, Doc.text, cb, cColon, c1, c0, cSemi]

theorem appendIntBytes_eq (b : Bytes) (i : Int) : appendIntBytes b i = b ++ (Doc.int (intText i)).text := by
  simp [appendIntBytes, Doc.text, ci, cColon, cSemi]

theorem appendUintBytes_eq (b : Bytes) (n : Nat) : appendUintBytes b n = b ++ (Doc.int (natText n)).text := by
  simp [appendUintBytes, Doc.text, ci, cColon, cSemi]

theorem countLoop_add {f : Nat} {x n m : Int} : countLoop f x (n + m) = countLoop f x n + m := by
  induction f generalizing x n with
  | zero => simp [countLoop]
  | succ f ih =>
    rw [countLoop, countLoop]
    split
    · rw [show n + m + 1 = n + 1 + m by omega, ih]
    · rfl

theorem countLoop_nat {f n : Nat} (h : n < f) (h0 : n ≠ 0) : countLoop f (n : Int) 0 = (natText n).length := by
  induction f generalizing n with
  | zero => omega
  | succ f ih =>
    have hne : (n : Int) ≠ 0 := by omega
    rw [countLoop, if_pos hne, natText_step]
    have hd : (n : Int).tdiv 10 = ((n / 10 : Nat) : Int) := rfl
    rw [hd]
    have := countLoop_add (f := f) (x := ((n / 10 : Nat) : Int)) (n := 0) (m := 1)
    rw [this]
    by_cases hn : n < 10
    · have : n / 10 = 0 := by omega
      rw [this]
      cases f <;> simp [countLoop, hn]
    · rw [ih (by omega) (by omega)]
      simp [hn]

theorem countLoop_neg {f : Nat} {x n : Int} : countLoop f (-x) n = countLoop f x n := by
  induction f generalizing x n with
  | zero => rfl
  | succ f ih =>
    rw [countLoop, countLoop, Int.neg_tdiv, ih]
    simp

theorem intDigitsCount_eq (i : Int) : intDigitsCount i = (intText i).length := by
  unfold intDigitsCount
  cases i with
  | ofNat n =>
    by_cases h : n = 0
    · subst h; rfl
    · have h1 : ¬ (Int.ofNat n) ≤ 0 := by simp; omega
      rw [if_neg h1]
      have := countLoop_nat (f := n + 1) (n := n) (by omega) h
      simpa [intText] using this
  | negSucc n =>
    have h1 : Int.negSucc n ≤ 0 := Int.le_of_lt (Int.negSucc_lt_zero n)
    rw [if_pos h1]
    have h2 : Int.negSucc n = -((n + 1 : Nat) : Int) := rfl
    rw [h2, countLoop_neg]
    have h3 : (-((n + 1 : Nat) : Int)).natAbs + 1 = n + 2 := by omega
    rw [h3]
    have h4 := countLoop_add (f := n + 2) (x := ((n + 1 : Nat) : Int)) (n := 0) (m := 1)
    rw [show (1 : Int) = 0 + 1 by omega, h4, countLoop_nat (by omega) (by omega)]
    rw [← h2]
    simp [intText]

theorem uintDigitsCount_eq (n : Nat) : uintDigitsCount n = (natText n).length := by
  unfold uintDigitsCount
  by_cases h : n = 0
  · subst h; rfl
  · rw [if_neg h, countLoop_nat (by omega) h]

theorem appendIntAsString_eq (b : Bytes) (i : Int) : appendIntAsString b i = b ++ (strDoc (intText i)).text := by
  simp [appendIntAsString, appendStringHead, intDigitsCount_eq, strDoc, Doc.text, intText_natCast, cs, cColon, cQuote, cSemi]

theorem appendUintAsString_eq (b : Bytes) (n : Nat) : appendUintAsString b n = b ++ (strDoc (natText n)).text := by
  simp [appendUintAsString, appendStringHead, uintDigitsCount_eq, strDoc, Doc.text, intText_natCast, cs, cColon, cQuote, cSemi]

theorem appendBoolAsString_eq (b : Bytes) (v : Bool) :
    appendBoolAsString b v = b ++ (strDoc (if v then [116, 114, 117, 101] else [102, 97, 108, 115, 101])).text := by
  cases v <;> simp [appendBoolAsString, strDoc, Doc.text] <;> rfl

theorem appendTextAsString_eq (b s : Bytes) : appendTextAsString b s = b ++ (strDoc s).text := by
  simp [appendTextAsString, appendStringHead, strDoc, Doc.text, intText_natCast, cs, cColon, cQuote, cSemi]

theorem isNaN64_iff {x : UInt64} : isNaN64 x = true ↔ NaN64 x := decide_eq_true_iff
theorem isNaN32_iff {x : UInt32} : isNaN32 x = true ↔ NaN32 x := decide_eq_true_iff

theorem useE64_iff {x : UInt64} : useE64 x = true ↔ Sci64 x := by
  simp only [useE64, Bool.and_eq_true, Bool.or_eq_true, decide_eq_true_iff, and_assoc, Bool.not_eq_true']
  simp only [Sci64, ← isNaN64_iff, abs64, Bool.not_eq_true]

theorem useE32_iff {x : UInt32} : useE32 x = true ↔ Sci32 x := by
  simp only [useE32, Bool.and_eq_true, Bool.or_eq_true, decide_eq_true_iff, and_assoc, Bool.not_eq_true']
  simp only [Sci32, ← isNaN32_iff, abs32, Bool.not_eq_true]

theorem fmtText64_iff {W : World} {x : UInt64} {txt : Bytes} : FmtText64 W x txt ↔ txt = W.fmtF64 (useE64 x) x := by
  unfold FmtText64
  by_cases h : Sci64 x
  · simp [h, useE64_iff.2 h]
  · have : useE64 x = false := by
      cases hu : useE64 x
      · rfl
      · exact absurd (useE64_iff.1 hu) h
    simp [h, this]

theorem fmtText32_iff {W : World} {x : UInt32} {txt : Bytes} : FmtText32 W x txt ↔ txt = W.fmtF32 (useE32 x) x := by
  unfold FmtText32
  by_cases h : Sci32 x
  · simp [h, useE32_iff.2 h]
  · have : useE32 x = false := by
      cases hu : useE32 x
      · rfl
      · exact absurd (useE32_iff.1 hu) h
    simp [h, this]

theorem nan_not_inf : ¬ NaN64 0x7FF0000000000000 ∧ ¬ NaN64 0xFFF0000000000000 ∧ ¬ NaN32 0x7F800000 ∧ ¬ NaN32 0xFF800000 := by
  unfold NaN64 NaN32; decide

/-- The float64 appender writes exactly the specified text. -/
theorem appendFloat64_iff {W : World} {b : Bytes} {x : UInt64} {txt : Bytes} :
    FloatOut64 W x txt ↔ appendFloat64 W b x = b ++ (Doc.float txt).text := by
  have hni := nan_not_inf
  constructor
  · intro h
    cases h with
    | nan h => simp [appendFloat64, specialFloat, isNaN64_iff.2 h, Doc.text]
    | inf => simp [appendFloat64, specialFloat, isNaN64_iff, hni, Doc.text]
    | negInf => simp [appendFloat64, specialFloat, isNaN64_iff, hni, Doc.text]
    | finite h1 h2 h3 h4 =>
      rw [fmtText64_iff] at h4
      simp [appendFloat64, specialFloat, isNaN64_iff, h1, h2, h3, h4, Doc.text, cd, cColon, cSemi]
  · intro h
    by_cases h1 : NaN64 x
    · simp [appendFloat64, specialFloat, isNaN64_iff.2 h1, Doc.text] at h
      have : txt = [78, 65, 78] := by
        have h := congrArg List.dropLast h
        simp at h
        exact h.symm
      subst this; exact .nan h1
    by_cases h2 : x = 0x7FF0000000000000
    · subst h2
      simp [appendFloat64, specialFloat, isNaN64_iff, hni, Doc.text] at h
      have : txt = [73, 78, 70] := by
        have h := congrArg List.dropLast h
        simp at h
        exact h.symm
      subst this; exact .inf
    by_cases h3 : x = 0xFFF0000000000000
    · subst h3
      simp [appendFloat64, specialFloat, isNaN64_iff, hni, Doc.text] at h
      have : txt = [45, 73, 78, 70] := by
        have h := congrArg List.dropLast h
        simp at h
        exact h.symm
      subst this; exact .negInf
    · refine .finite h1 h2 h3 ?_
      rw [fmtText64_iff]
      simp [appendFloat64, specialFloat, isNaN64_iff, h1, h2, h3, Doc.text, cd, cColon, cSemi] at h
      exact h.symm

/-- The float32 appender writes exactly the specified text. -/
theorem appendFloat32_iff {W : World} {b : Bytes} {x : UInt32} {txt : Bytes} :
    FloatOut32 W x txt ↔ appendFloat32 W b x = b ++ (Doc.float txt).text := by
  have hni := nan_not_inf
  constructor
  · intro h
    cases h with
    | nan h => simp [appendFloat32, specialFloat, isNaN32_iff.2 h, Doc.text]
    | inf => simp [appendFloat32, specialFloat, isNaN32_iff, hni, Doc.text]
    | negInf => simp [appendFloat32, specialFloat, isNaN32_iff, hni, Doc.text]
    | finite h1 h2 h3 h4 =>
      rw [fmtText32_iff] at h4
      simp [appendFloat32, specialFloat, isNaN32_iff, h1, h2, h3, h4, Doc.text, cd, cColon, cSemi]
  · intro h
    by_cases h1 : NaN32 x
    · simp [appendFloat32, specialFloat, isNaN32_iff.2 h1, Doc.text] at h
      have : txt = [78, 65, 78] := by
        have h := congrArg List.dropLast h
        simp at h
        exact h.symm
      subst this; exact .nan h1
    by_cases h2 : x = 0x7F800000
    · subst h2
      simp [appendFloat32, specialFloat, isNaN32_iff, hni, Doc.text] at h
      have : txt = [73, 78, 70] := by
        have h := congrArg List.dropLast h
        simp at h
        exact h.symm
      subst this; exact .inf
    by_cases h3 : x = 0xFF800000
    · subst h3
      simp [appendFloat32, specialFloat, isNaN32_iff, hni, Doc.text] at h
      have : txt = [45, 73, 78, 70] := by
        have h := congrArg List.dropLast h
        simp at h
        exact h.symm
      subst this; exact .negInf
    · refine .finite h1 h2 h3 ?_
      rw [fmtText32_iff]
      simp [appendFloat32, specialFloat, isNaN32_iff, h1, h2, h3, Doc.text, cd, cColon, cSemi] at h
      exact h.symm

theorem floatOut64_total {W : World} (x : UInt64) : ∃ txt, FloatOut64 W x txt := by
  by_cases h1 : NaN64 x
  · exact ⟨_, .nan h1⟩
  by_cases h2 : x = 0x7FF0000000000000
  · subst h2; exact ⟨_, .inf⟩
  by_cases h3 : x = 0xFFF0000000000000
  · subst h3; exact ⟨_, .negInf⟩
  · exact ⟨_, .finite h1 h2 h3 (fmtText64_iff.2 rfl)⟩

theorem floatOut32_total {W : World} (x : UInt32) : ∃ txt, FloatOut32 W x txt := by
  by_cases h1 : NaN32 x
  · exact ⟨_, .nan h1⟩
  by_cases h2 : x = 0x7F800000
  · subst h2; exact ⟨_, .inf⟩
  by_cases h3 : x = 0xFF800000
  · subst h3; exact ⟨_, .negInf⟩
  · exact ⟨_, .finite h1 h2 h3 (fmtText32_iff.2 rfl)⟩

end Verif

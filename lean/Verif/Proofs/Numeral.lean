import Verif.Model.Lex
import Verif.Spec.Format
/-
Decimal numerals and `parseInt64`.
-/
namespace Verif
open Spec

theorem isDigit_iff {c : Byte} : isDigit c = true ↔ IsDigit c := by
  unfold isDigit IsDigit
  rw [decide_eq_true_iff, UInt8.le_iff_toNat_le, UInt8.le_iff_toNat_le]
  exact Iff.rfl

theorem isDigit_false_iff {c : Byte} : isDigit c = false ↔ ¬ IsDigit c := by
  rw [← isDigit_iff]; simp

theorem digit_sub_toNat {c : Byte} (h : IsDigit c) : (c - 48).toNat = c.toNat - 48 := by
  unfold IsDigit at h
  have h48 : (48 : UInt8).toNat = 48 := rfl
  rw [UInt8.toNat_sub_of_le _ _ (by rw [UInt8.le_iff_toNat_le]; omega)]
  omega

theorem foldl_digits (ds : Bytes) (a : Nat) :
    ds.foldl (fun acc (c : Byte) => acc * 10 + (c.toNat - 48)) a = a * 10 ^ ds.length + digitsVal ds := by
  induction ds generalizing a with
  | nil => simp [digitsVal]
  | cons c cs ih =>
    simp only [List.foldl_cons, List.length_cons, digitsVal]
    rw [ih, ih (0 * 10 + _)]
    rw [Nat.pow_succ]
    simp only [Nat.zero_mul, Nat.zero_add, Nat.add_mul]
    rw [Nat.mul_assoc, Nat.mul_comm 10]
    omega

@[simp] theorem digitsVal_nil : digitsVal [] = 0 := rfl

theorem digitsVal_cons (c : Byte) (cs : Bytes) :
    digitsVal (c :: cs) = (c.toNat - 48) * 10 ^ cs.length + digitsVal cs := by
  conv => lhs; unfold digitsVal
  rw [List.foldl_cons, foldl_digits]; simp

theorem digitsVal_append (a b : Bytes) :
    digitsVal (a ++ b) = digitsVal a * 10 ^ b.length + digitsVal b := by
  conv => lhs; unfold digitsVal
  rw [List.foldl_append, foldl_digits]; rfl

theorem digitsVal_lt {ds : Bytes} (h : ∀ c ∈ ds, IsDigit c) : digitsVal ds < 10 ^ ds.length := by
  induction ds with
  | nil => simp
  | cons c cs ih =>
    rw [digitsVal_cons, List.length_cons, Nat.pow_succ]
    have h1 := ih (fun x hx => h x (List.mem_cons_of_mem _ hx))
    have h2 := (h c List.mem_cons_self).2
    have : (c.toNat - 48) * 10 ^ cs.length ≤ 9 * 10 ^ cs.length := Nat.mul_le_mul_right _ (by omega)
    omega

theorem stripZeros_sub (ds : Bytes) : ∀ c ∈ stripZeros ds, c ∈ ds := by
  induction ds with
  | nil => simp [stripZeros]
  | cons c cs ih =>
    unfold stripZeros
    split
    · exact fun x hx => List.mem_cons_of_mem _ (ih x hx)
    · exact fun x hx => hx

theorem digitsVal_stripZeros (ds : Bytes) : digitsVal (stripZeros ds) = digitsVal ds := by
  induction ds with
  | nil => rfl
  | cons c cs ih =>
    unfold stripZeros
    split
    · next h =>
      subst h
      rw [ih, digitsVal_cons, show UInt8.toNat c0 = 48 from rfl]; simp
    · rfl

theorem stripZeros_head {ds : Bytes} {c : Byte} {cs : Bytes} (h : stripZeros ds = c :: cs) : c ≠ 48 := by
  induction ds with
  | nil => simp [stripZeros] at h
  | cons d ds ih =>
    unfold stripZeros at h
    split at h
    · exact ih h
    · next hd => simp at h; rw [← h.1]; exact hd

/-- digits remain or not: a non-digit in `ds` survives stripping -/
theorem stripZeros_digits {ds : Bytes} (h : ∀ c ∈ stripZeros ds, IsDigit c) : ∀ c ∈ ds, IsDigit c := by
  induction ds with
  | nil => simp
  | cons d ds ih =>
    unfold stripZeros at h
    split at h
    · next hd =>
      intro c hc
      rcases List.mem_cons.mp hc with rfl | hc
      · subst hd; decide
      · exact ih h c hc
    · exact h

theorem pow10i64_get {k : Nat} (h : k < 19) : pow10i64[k]? = some (10 ^ k) := by
  have : ∀ k : Fin 19, pow10i64[k.val]? = some (10 ^ k.val) := by decide
  exact this ⟨k, h⟩

theorem parseLoop_ok {n i v : Nat} {ds : Bytes} (hd : ∀ c ∈ ds, IsDigit c) (hn : n = i + ds.length)
    (hn19 : n ≤ 19) (hv : v + digitsVal ds < 2 ^ 64) : parseLoop n i ds v = .ok (v + digitsVal ds) := by
  induction ds generalizing i v with
  | nil => simp [parseLoop]
  | cons c cs ih =>
    have hc : IsDigit c := hd c List.mem_cons_self
    have hlen : n - i - 1 = cs.length := by simp at hn; omega
    rw [digitsVal_cons] at hv ⊢
    simp only [parseLoop, isDigit_iff.mpr hc, Bool.not_true, Bool.false_eq_true, if_false]
    rw [hlen, pow10i64_get (by simp at hn; omega)]
    simp only [digit_sub_toNat hc]
    rw [Nat.mod_eq_of_lt (a := (c.toNat - 48) * _) (by omega), Nat.mod_eq_of_lt (by omega)]
    rw [ih (fun x hx => hd x (List.mem_cons_of_mem _ hx)) (by simp at hn; omega) (by omega)]
    congr 1; omega

theorem parseLoop_err {n i v : Nat} {ds : Bytes} (hd : ¬ ∀ c ∈ ds, IsDigit c) (hn : n = i + ds.length)
    (hn19 : n ≤ 19) : parseLoop n i ds v = .err (.syntaxErr "invalid integer" 0) := by
  induction ds generalizing i v with
  | nil => simp at hd
  | cons c cs ih =>
    by_cases hc : IsDigit c
    · have hlen : n - i - 1 = cs.length := by simp at hn; omega
      simp only [parseLoop, isDigit_iff.mpr hc, Bool.not_true, Bool.false_eq_true, if_false]
      rw [hlen, pow10i64_get (by simp at hn; omega)]
      apply ih _ (by simp at hn; omega)
      intro h; apply hd
      intro x hx
      rcases List.mem_cons.mp hx with rfl | hx
      · exact hc
      · exact h x hx
    · simp only [parseLoop, isDigit_false_iff.mpr hc, Bool.not_false, if_true]

/-- Core of `parseInt64` after the sign: digits against the limit. -/
theorem parse_core (ds : Bytes) :
    (¬ (∀ c ∈ ds, IsDigit c) ∧ (stripZeros ds).length ≠ 0 ∧
      ((stripZeros ds).length > 19 ∨ parseLoop (stripZeros ds).length 0 (stripZeros ds) 0 = .err (.syntaxErr "invalid integer" 0))) ∨
    ((∀ c ∈ ds, IsDigit c) ∧
      (((stripZeros ds).length = 0 ∧ digitsVal ds = 0) ∨
       ((stripZeros ds).length > 19 ∧ digitsVal ds ≥ 10 ^ 19) ∨
       ((stripZeros ds).length ≠ 0 ∧ (stripZeros ds).length ≤ 19 ∧
        parseLoop (stripZeros ds).length 0 (stripZeros ds) 0 = .ok (digitsVal ds) ∧ digitsVal ds < 10 ^ 19))) := by
  by_cases hd : ∀ c ∈ ds, IsDigit c
  · right
    refine ⟨hd, ?_⟩
    have hsd : ∀ c ∈ stripZeros ds, IsDigit c := fun c hc => hd c (stripZeros_sub ds c hc)
    have hval := digitsVal_stripZeros ds
    rcases hs : stripZeros ds with _ | ⟨c, cs⟩
    · left; rw [hs] at hval; simp [← hval]
    · right
      rw [hs] at hval hsd
      by_cases hlen : (c :: cs).length > 19
      · left
        refine ⟨hlen, ?_⟩
        rw [← hval, digitsVal_cons]
        have h1 := hsd c List.mem_cons_self
        have h2 := stripZeros_head hs
        have h3 : c.toNat ≠ 48 := by
          intro h; apply h2; exact UInt8.toNat_inj.mp h
        unfold IsDigit at h1
        simp at hlen
        have : 10 ^ 19 ≤ 10 ^ cs.length := Nat.pow_le_pow_right (by omega) (by omega)
        have : 1 * 10 ^ cs.length ≤ (c.toNat - 48) * 10 ^ cs.length := Nat.mul_le_mul_right _ (by omega)
        omega
      · right
        have hlt := digitsVal_lt hsd
        have : 10 ^ (c :: cs).length ≤ 10 ^ 19 := Nat.pow_le_pow_right (by omega) (by omega)
        refine ⟨by simp, by omega, ?_, by omega⟩
        rw [parseLoop_ok hsd (by simp) (by omega) (by omega), ← hval]
        simp
  · left
    refine ⟨hd, ?_, ?_⟩
    · intro h
      apply hd
      apply stripZeros_digits
      rw [List.length_eq_zero_iff.mp h]; simp
    · by_cases hlen : (stripZeros ds).length > 19
      · exact .inl hlen
      · right
        apply parseLoop_err (fun h => hd (stripZeros_digits h)) (by simp) (by omega)

theorem minus_not_digit : ¬ IsDigit 45 := by decide

theorem intText_unique {t : Bytes} {i j : Int} (hi : IntText t i) (hj : IntText t j) : i = j := by
  cases hi with
  | pos h => cases hj with
    | pos h' => rfl
    | neg h' => exact absurd (h.2 45 List.mem_cons_self) minus_not_digit
  | neg h => cases hj with
    | pos h' => exact absurd (h'.2 45 List.mem_cons_self) minus_not_digit
    | neg h' => rfl

/-- Complete description of `parseInt64`: it returns `v` exactly on the integer texts of value `v` within int64. -/
theorem parseInt64_ok_iff {b : Bytes} {v : Int} :
    parseInt64 b = .ok v ↔ IntText b v ∧ -(2 ^ 63) ≤ v ∧ v < 2 ^ 63 := by
  rcases b with _ | ⟨c, cs⟩
  · simp only [parseInt64]
    constructor
    · simp
    · rintro ⟨h, _⟩; cases h with | pos h => exact absurd rfl h.1
  · by_cases hneg : c = 45
    · subst hneg
      have hpos : ∀ w, IntText (45 :: cs) w ↔ (IsDigits cs ∧ w = -(digitsVal cs : Int)) := by
        intro w
        constructor
        · intro h; cases h with
          | pos h => exact absurd (h.2 45 List.mem_cons_self) minus_not_digit
          | neg h => exact ⟨h, rfl⟩
        · rintro ⟨h, rfl⟩; exact .neg h
      rw [hpos]
      simp only [parseInt64, decide_true, if_true, Bool.true_and]
      rcases cs with _ | ⟨d, ds⟩
      · simp [IsDigits]
      · simp only [List.isEmpty_cons, Bool.false_eq_true, if_false]
        have hcore := parse_core (d :: ds)
        rcases hcore with ⟨hnd, hl0, hr⟩ | ⟨hd, hr⟩
        · have : ¬ IsDigits (d :: ds) := fun h => hnd h.2
          rw [if_neg hl0]
          simp only [this, false_and, iff_false]
          split
          · simp
          · rcases hr with hr | hr
            · rename_i hh; exact absurd hr hh
            · rw [hr]; simp
        · have hD : IsDigits (d :: ds) := ⟨by simp, hd⟩
          simp only [hD, true_and]
          generalize hg : digitsVal (d :: ds) = g at *
          rcases hr with ⟨h0, hv⟩ | ⟨hgt, hv⟩ | ⟨h0, hle, hl, hv⟩
          · rw [if_pos h0, hv]; simp; omega
          · rw [if_neg (by omega), if_pos (show _ > pow10i64.length from hgt)]; simp; omega
          · rw [if_neg h0, if_neg (by simpa [pow10i64] using hle), hl]
            simp only [Res.bind_ok]
            split
            · simp; omega
            · split
              · next h => simp [h]; omega
              · simp; omega
    · have hnegF : (decide (c = cMinus)) = false := by simpa using hneg
      have hpos : ∀ w, IntText (c :: cs) w ↔ (IsDigits (c :: cs) ∧ w = (digitsVal (c :: cs) : Int)) := by
        intro w
        constructor
        · intro h
          generalize hb : c :: cs = b at h
          cases h with
          | pos h => exact ⟨h, rfl⟩
          | neg h => simp at hb; exact absurd hb.1 hneg
        · rintro ⟨h, rfl⟩; exact .pos h
      rw [hpos]
      simp only [parseInt64, hnegF, Bool.false_and, Bool.false_eq_true, if_false]
      have hcore := parse_core (c :: cs)
      rcases hcore with ⟨hnd, hl0, hr⟩ | ⟨hd, hr⟩
      · have : ¬ IsDigits (c :: cs) := fun h => hnd h.2
        rw [if_neg hl0]
        simp only [this, false_and, iff_false]
        split
        · simp
        · rcases hr with hr | hr
          · rename_i hh; exact absurd hr hh
          · rw [hr]; simp
      · have hD : IsDigits (c :: cs) := ⟨by simp, hd⟩
        simp only [hD, true_and]
        generalize hg : digitsVal (c :: cs) = g at *
        rcases hr with ⟨h0, hv⟩ | ⟨hgt, hv⟩ | ⟨h0, hle, hl, hv⟩
        · rw [if_pos h0, hv]; simp; omega
        · rw [if_neg (by omega), if_pos (show _ > pow10i64.length from hgt)]; simp; omega
        · rw [if_neg h0, if_neg (by simpa [pow10i64] using hle), hl]
          simp only [Res.bind_ok]
          split
          · simp; omega
          · simp; omega

theorem parseLoop_total (n i v : Nat) (ds : Bytes) (hn : n = i + ds.length) (hn19 : n ≤ 19) :
    (parseLoop n i ds v).Returns := by
  induction ds generalizing i v with
  | nil => simp [parseLoop]
  | cons c cs ih =>
    simp only [parseLoop]
    split
    · simp
    · rw [pow10i64_get (by simp at hn; omega)]
      exact ih _ _ (by simp at hn; omega)

/-- `parseInt64` returns a value or an error; it never indexes its table out of range. -/
theorem parseInt64_returns (b : Bytes) : (parseInt64 b).Returns := by
  unfold parseInt64
  split
  · simp
  · dsimp only
    refine Res.returns_ite (fun _ => by simp) fun _ => ?_
    refine Res.returns_ite (fun _ => by simp) fun _ => ?_
    refine Res.returns_ite (fun _ => by simp) fun h => ?_
    refine Res.returns_bind (parseLoop_total _ _ _ _ (by simp) (by simpa [pow10i64] using h)) fun _ _ => ?_
    repeat' split
    all_goals simp

end Verif

import Verif.Proofs.Numeral
/-
Characterisation of the scanners of context.go: each succeeds exactly on the texts of the format.
-/
namespace Verif
open Spec

/-! ### Lists, cursors and guards -/

theorem Res.ite_err_ok {α} {c : Prop} [Decidable c] {e : Err} {x : Res α} {a : α} :
    (if c then .err e else x) = .ok a ↔ ¬ c ∧ x = .ok a := by
  split <;> simp_all

theorem idx_ok_iff {b : Bytes} {i : Nat} {x : Byte} : idx b i = .ok x ↔ b[i]? = some x := by
  unfold idx; split <;> simp_all

theorem drop_cons_iff {b : Bytes} {i : Nat} {x : Byte} {t : Bytes} :
    b.drop i = x :: t ↔ b[i]? = some x ∧ b.drop (i + 1) = t := by
  constructor
  · intro h
    have h1 : (b.drop i)[0]? = some x := by rw [h]; rfl
    have h2 : (b.drop i).drop 1 = t := by rw [h]; rfl
    rw [List.getElem?_drop] at h1
    rw [List.drop_drop] at h2
    exact ⟨by simpa using h1, h2⟩
  · rintro ⟨h1, h2⟩
    obtain ⟨hlt, hx⟩ := List.getElem?_eq_some_iff.1 h1
    rw [List.drop_eq_getElem_cons hlt, hx, h2]

theorem idx_of_drop {b : Bytes} {i : Nat} {x : Byte} {t : Bytes} (h : b.drop i = x :: t) : idx b i = .ok x :=
  idx_ok_iff.2 (drop_cons_iff.1 h).1

theorem drop_of_idx {b : Bytes} {i : Nat} {x : Byte} (h : idx b i = .ok x) : b.drop i = x :: b.drop (i + 1) :=
  drop_cons_iff.2 ⟨idx_ok_iff.1 h, rfl⟩

theorem drop_tail {b : Bytes} {i : Nat} {x : Byte} {t : Bytes} (h : b.drop i = x :: t) : b.drop (i + 1) = t :=
  (drop_cons_iff.1 h).2

theorem drop_append_eq {b : Bytes} {i : Nat} {xs r : Bytes} (h : b.drop i = xs ++ r) :
    b.drop (i + xs.length) = r := by
  rw [← List.drop_drop, h, List.drop_left]

theorem lt_of_drop_cons {b : Bytes} {i : Nat} {x : Byte} {t : Bytes} (h : b.drop i = x :: t) : i < b.length := by
  have := congrArg List.length h
  simp at this; omega

theorem len_of_drop {b : Bytes} {i : Nat} {x : Byte} {xs : Bytes} (h : b.drop i = x :: xs) :
    b.length = i + (x :: xs).length := by
  have := congrArg List.length h
  simp at this ⊢; omega

theorem idx_returns {b : Bytes} {i : Nat} (h : i < b.length) : (idx b i).Returns := by
  unfold idx; rw [List.getElem?_eq_getElem h]; trivial

theorem sub_returns {b : Bytes} {i j : Nat} (h : i ≤ j) (h' : j ≤ b.length) : (sub b i j).Returns := by
  unfold sub; rw [if_pos ⟨h, h'⟩]; trivial

theorem sub_of_drop {b : Bytes} {i : Nat} {xs r : Bytes} (h : b.drop i = xs ++ r) (hi : i ≤ b.length) :
    sub b i (i + xs.length) = .ok xs := by
  have := congrArg List.length h
  simp at this
  unfold sub
  rw [if_pos (by omega), h]
  simp

theorem sub_ok {b : Bytes} {i j : Nat} {xs : Bytes} (h : sub b i j = .ok xs) :
    b.drop i = xs ++ b.drop j ∧ j = i + xs.length := by
  unfold sub at h
  split at h
  · rename_i hij
    simp only [Res.ok.injEq] at h
    subst h
    constructor
    · have : b.drop j = (b.drop i).drop (j - i) := by rw [List.drop_drop]; congr 1; omega
      rw [this, List.take_append_drop]
    · simp; omega
  · simp at h

@[simp] theorem hasByte_iff {b : Bytes} {c : Nat} : hasByte b c = true ↔ c < b.length := by simp [hasByte]

@[simp] theorem hasBytes_iff {b : Bytes} {c s : Int} :
    hasBytes b c s = true ↔ 0 ≤ c ∧ 0 ≤ s ∧ c ≤ b.length - s := by simp [hasBytes]

theorem spanLen_spec (p : Byte → Bool) (l : Bytes) :
    ∃ xs r, l = xs ++ r ∧ (∀ x ∈ xs, p x = true) ∧ (∀ y ys, r = y :: ys → p y = false) ∧ spanLen p l = xs.length := by
  induction l with
  | nil => exact ⟨[], [], by simp, by simp, by simp, rfl⟩
  | cons c cs ih =>
    by_cases hc : p c = true
    · obtain ⟨xs, r, h1, h2, h3, h4⟩ := ih
      refine ⟨c :: xs, r, by simp [h1], ?_, h3, by simp [spanLen, hc, h4]⟩
      intro x hx
      rcases List.mem_cons.1 hx with rfl | hx
      · exact hc
      · exact h2 x hx
    · refine ⟨[], c :: cs, by simp, by simp, ?_, by simp [spanLen, hc]⟩
      rintro y ys h; cases h; simpa using hc

theorem spanLen_eq {p : Byte → Bool} {xs r : Bytes} (h : ∀ x ∈ xs, p x = true) (hr : ∀ y ys, r = y :: ys → p y = false) :
    spanLen p (xs ++ r) = xs.length := by
  induction xs with
  | nil =>
    cases r with
    | nil => rfl
    | cons y ys => simp [spanLen, hr y ys rfl]
  | cons x xs ih =>
    simp only [List.cons_append, spanLen, h x List.mem_cons_self, if_true, List.length_cons]
    rw [ih (fun y hy => h y (List.mem_cons_of_mem _ hy))]

theorem spanLen_le (p : Byte → Bool) (l : Bytes) : spanLen p l ≤ l.length := by
  induction l with
  | nil => simp [spanLen]
  | cons c cs ih => simp only [spanLen]; split <;> simp; omega

theorem scanDigits_le {b : Bytes} {c : Nat} (h : c ≤ b.length) : scanDigits b c ≤ b.length := by
  have := spanLen_le isDigit (b.drop c)
  simp at this; unfold scanDigits; omega

theorem scanToSemi_le {b : Bytes} {c : Nat} (h : c ≤ b.length) : scanToSemi b c ≤ b.length := by
  have := spanLen_le (fun c => c != cSemi) (b.drop c)
  simp at this; unfold scanToSemi; omega

theorem le_scanDigits (b : Bytes) (c : Nat) : c ≤ scanDigits b c := by unfold scanDigits; omega
theorem le_scanToSemi (b : Bytes) (c : Nat) : c ≤ scanToSemi b c := by unfold scanToSemi; omega

theorem scanDigits_eq {b : Bytes} {c : Nat} {ds : Bytes} {y : Byte} {r : Bytes} (h : b.drop c = ds ++ y :: r)
    (hd : ∀ x ∈ ds, IsDigit x) (hy : ¬ IsDigit y) : scanDigits b c = c + ds.length := by
  unfold scanDigits
  rw [h, spanLen_eq (fun x hx => isDigit_iff.2 (hd x hx))]
  rintro y' ys hh; cases hh; exact isDigit_false_iff.2 hy

theorem scanDigits_spec (b : Bytes) (c : Nat) : ∃ ds, (∀ x ∈ ds, IsDigit x) ∧ scanDigits b c = c + ds.length ∧
    b.drop c = ds ++ b.drop (scanDigits b c) := by
  obtain ⟨xs, r, h1, h2, _, h4⟩ := spanLen_spec isDigit (b.drop c)
  refine ⟨xs, fun x hx => isDigit_iff.1 (h2 x hx), by unfold scanDigits; rw [h4], ?_⟩
  unfold scanDigits
  rw [h4, drop_append_eq h1, h1]

theorem colon_not_digit : ¬ IsDigit 58 := by decide
theorem semi_not_digit : ¬ IsDigit 59 := by decide

/-! ### Lengths -/

theorem skipLen_sound {b : Bytes} {c e : Nat} (h : skipLengthWithBothColon b c = .ok e) :
    ∃ ds, IsDigits ds ∧ b.drop c = 58 :: (ds ++ 58 :: b.drop e) ∧ e = c + ds.length + 2 := by
  simp only [skipLengthWithBothColon, Res.ite_err_ok, Res.bind_eq_ok] at h
  obtain ⟨_, x, hx, hx', hne, _, y, hy, hy', he⟩ := h
  obtain ⟨ds, hd, hs, hdrop⟩ := scanDigits_spec b (c + 1)
  simp only [ne_eq, Classical.not_not] at hx' hy'
  subst hx' hy'
  simp only [Res.ok.injEq] at he
  refine ⟨ds, ⟨?_, hd⟩, ?_, by omega⟩
  · rintro rfl; simp at hs; omega
  · rw [drop_of_idx hx, hdrop, drop_of_idx hy, he]

theorem skipLen_complete {b : Bytes} {c : Nat} {ds r : Bytes} (hd : IsDigits ds) (h : b.drop c = 58 :: (ds ++ 58 :: r)) :
    skipLengthWithBothColon b c = .ok (c + ds.length + 2) := by
  have h1 := drop_tail h
  have hs := scanDigits_eq h1 hd.2 colon_not_digit
  have h2 := drop_append_eq h1
  have hlen := List.length_pos_iff.2 hd.1
  have hlt := lt_of_drop_cons h2
  simp only [skipLengthWithBothColon, hs, idx_of_drop h, idx_of_drop h2, Res.bind_ok]
  have := lt_of_drop_cons h
  simp only [Bool.not_eq_true', ne_eq, not_true, if_false, ← Bool.not_eq_true, hasByte_iff]
  rw [if_neg (by omega), if_neg (by omega), if_neg (by omega)]
  congr 1; omega

theorem skipLen_returns (b : Bytes) (c : Nat) : (skipLengthWithBothColon b c).Returns := by
  unfold skipLengthWithBothColon
  refine Res.returns_ite (fun _ => by simp) fun h => ?_
  refine Res.returns_bind (idx_returns (by simpa using h)) fun _ _ => ?_
  refine Res.returns_ite (fun _ => by simp) fun _ => ?_
  dsimp only
  refine Res.returns_ite (fun _ => by simp) fun _ => ?_
  refine Res.returns_ite (fun _ => by simp) fun h => ?_
  refine Res.returns_bind (idx_returns (by simpa using h)) fun _ _ => ?_
  refine Res.returns_ite (fun _ => by simp) fun _ => by simp

theorem intText_digits {ds : Bytes} (h : IsDigits ds) {v : Int} : IntText ds v ↔ v = digitsVal ds := by
  constructor
  · intro hv; exact intText_unique hv (.pos h)
  · rintro rfl; exact .pos h

theorem parseInt64_digits {ds : Bytes} (h : IsDigits ds) (hlt : digitsVal ds < 2 ^ 63) :
    parseInt64 ds = .ok (digitsVal ds : Int) := by
  rw [parseInt64_ok_iff]
  refine ⟨.pos h, ?_, ?_⟩ <;> omega

theorem readLength_sound {b : Bytes} {c e : Nat} {n : Int} (h : readLength b c = .ok (n, e)) :
    ∃ ds m, LenText ds m ∧ n = (m : Int) ∧ b.drop c = 58 :: (ds ++ 58 :: b.drop e) ∧ e = c + ds.length + 2 := by
  simp only [readLength, Res.bind_eq_ok] at h
  obtain ⟨e', he', t, ht, h⟩ := h
  obtain ⟨ds, hd, hdrop, hee⟩ := skipLen_sound he'
  have h1 := drop_tail hdrop
  have ht' : sub b (c + 1) (e' - 1) = .ok ds := by
    rw [show e' - 1 = c + 1 + ds.length by omega]
    exact sub_of_drop h1 (by have := lt_of_drop_cons hdrop; omega)
  rw [ht'] at ht; cases ht
  split at h
  · rename_i v hv
    rw [parseInt64_ok_iff, intText_digits hd] at hv
    simp only [Res.ite_err_ok, Res.ok.injEq, Prod.mk.injEq] at h
    obtain ⟨_, rfl, rfl⟩ := h
    exact ⟨t, digitsVal t, ⟨hd, rfl, by omega⟩, hv.1, hdrop, hee⟩
  all_goals simp at h

theorem readLength_complete {b : Bytes} {c n : Nat} {ds r : Bytes} (hd : LenText ds n)
    (h : b.drop c = 58 :: (ds ++ 58 :: r)) : readLength b c = .ok ((n : Int), c + ds.length + 2) := by
  obtain ⟨hd, hn, hlt⟩ := hd
  subst hn
  have ht : sub b (c + 1) (c + ds.length + 2 - 1) = .ok ds := by
    rw [show c + ds.length + 2 - 1 = c + 1 + ds.length by omega]
    exact sub_of_drop (drop_tail h) (by have := lt_of_drop_cons h; omega)
  simp only [readLength, skipLen_complete hd h, Res.bind_ok, ht, parseInt64_digits hd hlt]
  rw [if_neg (by omega)]

theorem skipLen_end {b : Bytes} {c e : Nat} (h : skipLengthWithBothColon b c = .ok e) : c + 2 ≤ e ∧ e ≤ b.length := by
  obtain ⟨ds, hd, hdrop, he⟩ := skipLen_sound h
  have := congrArg List.length hdrop
  simp at this; omega

theorem readLength_returns (b : Bytes) (c : Nat) : (readLength b c).Returns := by
  unfold readLength
  refine Res.returns_bind (skipLen_returns _ _) fun e he => ?_
  have := skipLen_end he
  refine Res.returns_bind (sub_returns (by omega) (by omega)) fun t _ => ?_
  have := parseInt64_returns t
  split
  · exact Res.returns_ite (fun _ => by simp) fun _ => by simp
  · simp
  · simp_all
  · simp_all

/-! ### Strings and class names -/

theorem wrap64_of_range {x : Int} (h : -(2 ^ 63) ≤ x) (h' : x < 2 ^ 63) : wrap64 x = x := by
  unfold wrap64; omega

theorem wrap64_over {x : Int} (h : 2 ^ 63 ≤ x) (h' : x < 2 ^ 64) : wrap64 x < 0 := by
  unfold wrap64; omega

theorem readString_sound {b : Bytes} {c e : Nat} {s : Bytes} (h : readString b c = .ok (s, e)) :
    ∃ ds, LenText ds s.length ∧ b.drop c = 58 :: (ds ++ 58 :: 34 :: (s ++ 34 :: 59 :: b.drop e)) ∧
      e = c + ds.length + s.length + 5 := by
  simp only [readString, Res.bind_eq_ok, Res.ite_err_ok] at h
  obtain ⟨⟨n, e1⟩, hr, h⟩ := h
  obtain ⟨ds, m, hm, rfl, hdrop, he1⟩ := readLength_sound hr
  obtain ⟨_, x1, hx1, hq1, _, x2, hx2, hq2, x3, hx3, hq3, s', hs', h⟩ := h
  simp only [ne_eq, Classical.not_not] at hq1 hq2 hq3
  subst hq1 hq2 hq3
  simp only [Res.ok.injEq, Prod.mk.injEq] at h
  obtain ⟨rfl, rfl⟩ := h
  obtain ⟨hs1, hs2⟩ := sub_ok hs'
  simp only [Int.toNat_natCast] at *
  have : m = s'.length := by omega
  subst this
  refine ⟨ds, hm, ?_, by omega⟩
  rw [hdrop, drop_of_idx hx1, hs1, drop_of_idx hx2, drop_of_idx hx3]

theorem readString_complete {b : Bytes} {c : Nat} {s ds r : Bytes} (hb : b.length < 2 ^ 63)
    (hd : LenText ds s.length) (h : b.drop c = 58 :: (ds ++ 58 :: 34 :: (s ++ 34 :: 59 :: r))) :
    readString b c = .ok (s, c + ds.length + s.length + 5) := by
  have hl := len_of_drop h
  simp only [List.length_cons, List.length_append] at hl
  have h1 := drop_tail h
  have h2 := drop_append_eq h1
  have h3 := drop_tail h2
  have h4 := drop_tail h3
  have h5 := drop_append_eq h4
  have h6 := drop_tail h5
  have e1 : c + 1 + ds.length + 1 = c + ds.length + 2 := by omega
  rw [e1] at h3 h4 h5 h6
  unfold readString
  rw [readLength_complete hd h, Res.bind_ok]
  dsimp only
  rw [wrap64_of_range (by omega) (by omega)]
  simp only [Res.bind_ok, idx_of_drop h3, Int.toNat_natCast, idx_of_drop h5, idx_of_drop h6, sub_of_drop h4 (by omega)]
  simp only [Bool.not_eq_true', ne_eq, not_true, if_false, ← Bool.not_eq_true, hasByte_iff, hasBytes_iff]
  rw [if_neg (by omega), if_neg (by omega)]
  simp only [Res.ok.injEq, Prod.mk.injEq, true_and]
  omega

theorem readString_returns (b : Bytes) (c : Nat) : (readString b c).Returns := by
  unfold readString
  refine Res.returns_bind (readLength_returns _ _) fun ⟨n, e⟩ hn => ?_
  obtain ⟨ds, m, hm, rfl, -, -⟩ := readLength_sound hn
  have hm2 := hm.2.2
  have hw : 0 ≤ wrap64 ((m : Int) + 2) → wrap64 ((m : Int) + 2) = (m : Int) + 2 := by
    intro h0
    refine wrap64_of_range (by omega) (Int.not_le.1 fun hge => ?_)
    have := wrap64_over hge (by omega); omega
  dsimp only
  generalize wrap64 ((m : Int) + 2) = w at hw
  refine Res.returns_ite (fun _ => by simp) fun h => ?_
  refine Res.returns_bind (idx_returns (by simpa using h)) fun _ _ => ?_
  refine Res.returns_ite (fun _ => by simp) fun _ => ?_
  refine Res.returns_ite (fun _ => by simp) fun h => ?_
  simp only [Bool.not_eq_true', Bool.not_eq_false, hasBytes_iff] at h
  rw [hw h.2.1] at h
  simp only [Int.toNat_natCast]
  refine Res.returns_bind (idx_returns (by omega)) fun _ _ => ?_
  refine Res.returns_ite (fun _ => by simp) fun _ => ?_
  refine Res.returns_bind (idx_returns (by omega)) fun _ _ => ?_
  refine Res.returns_ite (fun _ => by simp) fun _ => ?_
  refine Res.returns_bind (sub_returns (by omega) (by omega)) fun _ _ => by simp

theorem skipClassName_sound {b : Bytes} {c e : Nat} (hb : b.length < 2 ^ 63) (h : skipClassName b c = .ok e) :
    ∃ ds cls, LenText ds cls.length ∧
      b.drop c = 79 :: 58 :: (ds ++ 58 :: 34 :: (cls ++ 34 :: b.drop (e + 1))) ∧
      (∃ r, b.drop (e + 1) = 58 :: r) ∧ e = c + ds.length + cls.length + 4 := by
  simp only [skipClassName, Res.bind_eq_ok, Res.ite_err_ok] at h
  obtain ⟨_, x0, hx0, hq0, ⟨n, st⟩, hr, h⟩ := h
  obtain ⟨ds, m, hm, rfl, hdrop, hst⟩ := readLength_sound hr
  obtain ⟨_, x1, hx1, hq1, hb2, x2, hx2, hq2, x3, hx3, hq3, h⟩ := h
  simp only [ne_eq, Classical.not_not] at hq0 hq1 hq2 hq3
  subst hq0 hq1 hq2 hq3
  simp only [Res.ok.injEq] at h
  simp only [Bool.not_eq_true', Bool.not_eq_false, hasBytes_iff] at hb2
  have hm2 := hm.2.2
  have h1 := len_of_drop (drop_of_idx hx1)
  simp only [List.length_cons] at h1
  have hlt : (st : Int) + m + 1 < 2 ^ 63 := by
    apply Int.not_le.1; intro hge
    have := wrap64_over hge (by omega); omega
  rw [wrap64_of_range (by omega) hlt] at hx2 hx3 h
  have he : e = st + 1 + m := by omega
  rw [h] at hx2 hx3
  have hlen2 := len_of_drop (drop_of_idx hx2)
  simp only [List.length_cons] at hlen2
  have : (b.drop (st + 1)) = (b.drop (st + 1)).take m ++ b.drop e := by
    have h2 : b.drop e = (b.drop (st + 1)).drop m := by rw [List.drop_drop, he]
    rw [h2, List.take_append_drop]
  have hcl : ((b.drop (st + 1)).take m).length = m := by simp; omega
  refine ⟨ds, (b.drop (st + 1)).take m, by rw [hcl]; exact hm, ?_, ⟨_, drop_of_idx hx3⟩, by rw [hcl]; omega⟩
  rw [← drop_of_idx hx2, ← this, ← drop_of_idx hx1, ← hdrop, ← drop_of_idx hx0]

theorem skipClassName_complete {b : Bytes} {c : Nat} {ds cls r : Bytes} (hb : b.length < 2 ^ 63)
    (hd : LenText ds cls.length) (h : b.drop c = 79 :: 58 :: (ds ++ 58 :: 34 :: (cls ++ 34 :: 58 :: r))) :
    skipClassName b c = .ok (c + ds.length + cls.length + 4) := by
  have hl := len_of_drop h
  simp only [List.length_cons, List.length_append] at hl
  have h0 := drop_tail h
  have h1 := drop_tail h0
  have h2 := drop_append_eq h1
  have h3 := drop_tail h2
  have h4 := drop_tail h3
  have h5 := drop_append_eq h4
  have h6 := drop_tail h5
  have e1 : c + 1 + 1 + ds.length + 1 = c + 1 + ds.length + 2 := by omega
  rw [e1] at h3 h4 h5 h6
  unfold skipClassName
  rw [readLength_complete hd h0]
  rw [idx_of_drop h, Res.bind_ok, Res.bind_ok]
  dsimp only
  rw [wrap64_of_range (by omega) (by omega)]
  simp only [idx_of_drop h3, Res.bind_ok]
  have e2 : (((c + 1 + ds.length + 2 : Nat) : Int) + (cls.length : Int) + 1).toNat = c + 1 + ds.length + 2 + 1 + cls.length := by omega
  simp only [e2, idx_of_drop h5, idx_of_drop h6, Res.bind_ok]
  simp only [Bool.not_eq_true', ne_eq, not_true, if_false, ← Bool.not_eq_true, hasByte_iff, hasBytes_iff]
  rw [if_neg (by omega), if_neg (by omega), if_neg (by omega)]
  simp only [Res.ok.injEq]
  omega

theorem skipClassName_returns (b : Bytes) (c : Nat) : (skipClassName b c).Returns := by
  unfold skipClassName
  refine Res.returns_ite (fun _ => by simp) fun h => ?_
  refine Res.returns_bind (idx_returns (by simpa using h)) fun _ _ => ?_
  refine Res.returns_ite (fun _ => by simp) fun _ => ?_
  refine Res.returns_bind (readLength_returns _ _) fun ⟨n, e⟩ hn => ?_
  dsimp only
  generalize wrap64 ((e : Int) + n + 1) = w
  refine Res.returns_ite (fun _ => by simp) fun h => ?_
  refine Res.returns_bind (idx_returns (by simpa using h)) fun _ _ => ?_
  refine Res.returns_ite (fun _ => by simp) fun _ => ?_
  refine Res.returns_ite (fun _ => by simp) fun h => ?_
  simp only [Bool.not_eq_true', Bool.not_eq_false, hasBytes_iff] at h
  refine Res.returns_bind (idx_returns (by omega)) fun _ _ => ?_
  refine Res.returns_ite (fun _ => by simp) fun _ => ?_
  refine Res.returns_bind (idx_returns (by omega)) fun _ _ => ?_
  refine Res.returns_ite (fun _ => by simp) fun _ => by simp

/-! ### Integers, floats, booleans, null -/

theorem readIntegerBytes_sound {b : Bytes} {c e : Nat} {t : Bytes} (h : readIntegerBytes b c = .ok (t, e)) :
    (∃ i, IntText t i) ∧ b.drop c = 105 :: 58 :: (t ++ 59 :: b.drop e) ∧ e = c + t.length + 3 := by
  simp only [readIntegerBytes, Res.bind_eq_ok, Res.ite_err_ok] at h
  obtain ⟨_, x0, hx0, hq0, _, x1, hx1, hq1, x2, hx2, hne, _, x3, hx3, hq3, t', ht', h⟩ := h
  simp only [ne_eq, Classical.not_not] at hq0 hq1 hq3
  subst hq0 hq1 hq3
  simp only [Res.ok.injEq, Prod.mk.injEq] at h
  obtain ⟨rfl, rfl⟩ := h
  obtain ⟨hs1, hs2⟩ := sub_ok ht'
  obtain ⟨ds, hd, hsc, hdrop⟩ := scanDigits_spec b (if x2 = cMinus then c + 2 + 1 else c + 2)
  have hds : ds ≠ [] := by
    rintro rfl; simp only [List.length_nil, Nat.add_zero] at hsc; exact hne hsc
  refine ⟨?_, ?_, by omega⟩
  · split at hdrop
    · rename_i hm; subst hm
      simp only [if_true] at hs1 hdrop hsc
      rw [drop_of_idx hx2, hdrop] at hs1
      rw [← List.cons_append] at hs1
      have := List.append_cancel_right hs1
      exact ⟨_, this ▸ IntText.neg ⟨hds, hd⟩⟩
    · rename_i hm
      simp only [if_neg hm] at hs1 hdrop hsc
      rw [hdrop] at hs1
      have := List.append_cancel_right hs1
      exact ⟨_, this ▸ IntText.pos ⟨hds, hd⟩⟩
  · rw [drop_of_idx hx0, drop_of_idx hx1, hs1, drop_of_idx hx3]

theorem readIntegerBytes_complete {b : Bytes} {c : Nat} {t r : Bytes} {i : Int} (ht : IntText t i)
    (h : b.drop c = 105 :: 58 :: (t ++ 59 :: r)) : readIntegerBytes b c = .ok (t, c + t.length + 3) := by
  have hl := len_of_drop h
  simp only [List.length_cons, List.length_append] at hl
  have h1 := drop_tail h
  have h2 := drop_tail h1
  have h3 := drop_append_eq h2
  have hsub := sub_of_drop h2 (by omega)
  cases ht with
  | pos hd =>
    have hp := List.length_pos_iff.2 hd.1
    obtain ⟨x, xs, rfl⟩ := List.exists_cons_of_ne_nil hd.1
    have hx : x ≠ cMinus := by rintro rfl; exact minus_not_digit (hd.2 _ List.mem_cons_self)
    have hs := scanDigits_eq h2 hd.2 semi_not_digit
    simp only [readIntegerBytes, idx_of_drop h, idx_of_drop h1, idx_of_drop h2, Res.bind_ok, if_neg hx, hs, idx_of_drop h3, hsub]
    simp only [Bool.not_eq_true', ne_eq, not_true, if_false, ← Bool.not_eq_true, hasByte_iff, hasBytes_iff]
    rw [if_neg (by omega), if_neg (by omega), if_neg (by omega), if_neg (by omega)]
    simp only [Res.ok.injEq, Prod.mk.injEq, true_and]; omega
  | @neg ds hd =>
    have hp := List.length_pos_iff.2 hd.1
    have h2' := drop_tail h2
    have hs := scanDigits_eq h2' hd.2 semi_not_digit
    have e1 : c + 1 + 1 + 1 + ds.length = c + 1 + 1 + (45 :: ds).length := by simp; omega
    simp only [List.length_cons] at hl e1 h3 hsub
    simp only [readIntegerBytes, idx_of_drop h, idx_of_drop h1, idx_of_drop h2, Res.bind_ok, if_true, hs, e1, idx_of_drop h3, hsub]
    simp only [Bool.not_eq_true', ne_eq, not_true, if_false, ← Bool.not_eq_true, hasByte_iff, hasBytes_iff]
    rw [if_neg (by omega), if_neg (by omega), if_neg (by omega), if_neg (by omega)]
    simp only [Res.ok.injEq, Prod.mk.injEq, true_and, List.length_cons]; omega

theorem readIntegerBytes_returns (b : Bytes) (c : Nat) : (readIntegerBytes b c).Returns := by
  unfold readIntegerBytes
  refine Res.returns_ite (fun _ => by simp) fun h => ?_
  refine Res.returns_bind (idx_returns (by simpa using h)) fun _ _ => ?_
  refine Res.returns_ite (fun _ => by simp) fun _ => ?_
  refine Res.returns_ite (fun _ => by simp) fun h => ?_
  simp only [Bool.not_eq_true', Bool.not_eq_false, hasBytes_iff] at h
  refine Res.returns_bind (idx_returns (by omega)) fun _ _ => ?_
  refine Res.returns_ite (fun _ => by simp) fun _ => ?_
  dsimp only
  refine Res.returns_bind (idx_returns (by omega)) fun x _ => ?_
  refine Res.returns_ite (fun _ => by simp) fun _ => ?_
  refine Res.returns_ite (fun _ => by simp) fun h => ?_
  simp only [Bool.not_eq_true', Bool.not_eq_false, hasByte_iff] at h
  refine Res.returns_bind (idx_returns h) fun x _ => ?_
  refine Res.returns_ite (fun _ => by simp) fun _ => ?_
  refine Res.returns_bind (sub_returns ?_ (by omega)) fun _ _ => by simp
  refine Nat.le_trans ?_ (le_scanDigits _ _)
  split <;> omega

theorem readFloatBytes_sound {b : Bytes} {c e : Nat} {t : Bytes} (h : readFloatBytes b c = .ok (t, e)) :
    t ≠ [] ∧ (59 : Byte) ∉ t ∧ b.drop c = 100 :: 58 :: (t ++ 59 :: b.drop e) ∧ e = c + t.length + 3 := by
  simp only [readFloatBytes, Res.bind_eq_ok, Res.ite_err_ok] at h
  obtain ⟨_, x0, hx0, hq0, _, x1, hx1, hq1, hne, hhb, t', ht', h⟩ := h
  simp only [ne_eq, Classical.not_not] at hq0 hq1
  subst hq0 hq1
  simp only [Res.ok.injEq, Prod.mk.injEq] at h
  obtain ⟨rfl, rfl⟩ := h
  simp only [Bool.not_eq_true', Bool.not_eq_false, hasByte_iff] at hhb
  obtain ⟨hs1, hs2⟩ := sub_ok ht'
  obtain ⟨xs, r, g1, g2, g3, g4⟩ := spanLen_spec (fun c => c != cSemi) (b.drop (c + 2))
  have g5 : scanToSemi b (c + 2) = c + 2 + xs.length := by unfold scanToSemi; rw [g4]
  have g6 := drop_append_eq g1
  rw [← g5] at g6
  rw [g6] at hs1
  have hxs : xs = t' := by
    rw [g1] at hs1; exact List.append_cancel_right hs1
  subst hxs
  have hr : r = 59 :: b.drop (scanToSemi b (c + 2) + 1) := by
    rw [List.drop_eq_getElem_cons hhb] at g6
    have := g3 _ _ g6.symm
    rw [← g6]
    simp at this; rw [this]
  refine ⟨?_, ?_, ?_, by omega⟩
  · rintro rfl; simp at g5; omega
  · intro hmem; simpa using g2 _ hmem
  · rw [drop_of_idx hx0, drop_of_idx hx1, g1, ← hr]

theorem readFloatBytes_complete {b : Bytes} {c : Nat} {t r : Bytes} (hne : t ≠ []) (hs : (59 : Byte) ∉ t)
    (h : b.drop c = 100 :: 58 :: (t ++ 59 :: r)) : readFloatBytes b c = .ok (t, c + t.length + 3) := by
  have hl := len_of_drop h
  simp only [List.length_cons, List.length_append] at hl
  have h1 := drop_tail h
  have h2 := drop_tail h1
  have h3 := drop_append_eq h2
  have hsub := sub_of_drop h2 (by omega)
  have hp := List.length_pos_iff.2 hne
  have hsc : scanToSemi b (c + 1 + 1) = c + 1 + 1 + t.length := by
    unfold scanToSemi
    rw [h2, spanLen_eq]
    · intro x hx
      simp only [bne_iff_ne, ne_eq]; rintro rfl; exact hs hx
    · rintro y ys h; cases h; rfl
  simp only [readFloatBytes, idx_of_drop h, idx_of_drop h1, Res.bind_ok, hsc, hsub]
  simp only [Bool.not_eq_true', ne_eq, not_true, if_false, ← Bool.not_eq_true, hasByte_iff, hasBytes_iff]
  rw [if_neg (by omega), if_neg (by omega), if_neg (by omega), if_neg (by omega)]
  simp only [Res.ok.injEq, Prod.mk.injEq, true_and]; omega

theorem readFloatBytes_returns (b : Bytes) (c : Nat) : (readFloatBytes b c).Returns := by
  unfold readFloatBytes
  refine Res.returns_ite (fun _ => by simp) fun h => ?_
  refine Res.returns_bind (idx_returns (by simpa using h)) fun _ _ => ?_
  refine Res.returns_ite (fun _ => by simp) fun _ => ?_
  refine Res.returns_ite (fun _ => by simp) fun h => ?_
  simp only [Bool.not_eq_true', Bool.not_eq_false, hasBytes_iff] at h
  refine Res.returns_bind (idx_returns (by omega)) fun _ _ => ?_
  refine Res.returns_ite (fun _ => by simp) fun _ => ?_
  dsimp only
  refine Res.returns_ite (fun _ => by simp) fun _ => ?_
  refine Res.returns_ite (fun _ => by simp) fun h => ?_
  simp only [Bool.not_eq_true', Bool.not_eq_false, hasByte_iff] at h
  exact Res.returns_bind (sub_returns (le_scanToSemi _ _) (by omega)) fun _ _ => by simp

theorem readBool_sound {b : Bytes} {c : Nat} {v : Bool} (h : readBool b c = .ok v) :
    b.drop c = 98 :: 58 :: (if v then 49 else 48) :: 59 :: b.drop (c + 4) := by
  simp only [readBool, Res.bind_eq_ok, Res.ite_err_ok] at h
  obtain ⟨_, x0, hx0, hq0, x1, hx1, hq1, x2, hx2, hq2, x3, hx3, hq3, h⟩ := h
  simp only [ne_eq, Classical.not_not, not_and] at hq0 hq1 hq2 hq3
  subst hq0 hq1 hq3
  simp only [Res.ok.injEq] at h
  rw [drop_of_idx hx0, drop_of_idx hx1, drop_of_idx hx2, drop_of_idx hx3]
  subst h
  by_cases h1 : x2 = c1
  · subst h1; rfl
  · have := hq2 h1; subst this; rfl

theorem readBool_complete {b : Bytes} {c : Nat} {v : Bool} {r : Bytes}
    (h : b.drop c = 98 :: 58 :: (if v then 49 else 48) :: 59 :: r) : readBool b c = .ok v := by
  have hl := len_of_drop h
  simp only [List.length_cons] at hl
  have h1 := drop_tail h
  have h2 := drop_tail h1
  have h3 := drop_tail h2
  have hh : hasBytes b c 4 = true := by rw [hasBytes_iff]; omega
  simp only [readBool, idx_of_drop h, idx_of_drop h1, idx_of_drop h2, idx_of_drop h3, Res.bind_ok, hh]
  cases v <;> rfl

theorem readBool_returns (b : Bytes) (c : Nat) : (readBool b c).Returns := by
  unfold readBool
  refine Res.returns_ite (fun _ => by simp) fun h => ?_
  simp only [Bool.not_eq_true', Bool.not_eq_false, hasBytes_iff] at h
  refine Res.returns_bind (idx_returns (by omega)) fun _ _ => ?_
  refine Res.returns_ite (fun _ => by simp) fun _ => ?_
  refine Res.returns_bind (idx_returns (by omega)) fun _ _ => ?_
  refine Res.returns_ite (fun _ => by simp) fun _ => ?_
  refine Res.returns_bind (idx_returns (by omega)) fun _ _ => ?_
  refine Res.returns_ite (fun _ => by simp) fun _ => ?_
  dsimp only
  refine Res.returns_bind (idx_returns (by omega)) fun _ _ => ?_
  exact Res.returns_ite (fun _ => by simp) fun _ => by simp

theorem validateNull_sound {b : Bytes} {c : Nat} {x : Byte} {t : Bytes} (hc : b.drop c = x :: t) (h : validateNull b c = .ok ()) :
    b.drop c = x :: 59 :: b.drop (c + 2) := by
  simp only [validateNull, Res.bind_eq_ok, Res.ite_err_ok] at h
  obtain ⟨_, y, hy, hq, _⟩ := h
  simp only [ne_eq, Classical.not_not] at hq
  subst hq
  rw [hc, ← drop_tail hc, drop_of_idx hy]

theorem validateNull_complete {b : Bytes} {c : Nat} {x : Byte} {r : Bytes} (h : b.drop c = x :: 59 :: r) :
    validateNull b c = .ok () := by
  have hl := len_of_drop h
  simp only [List.length_cons] at hl
  simp only [validateNull, idx_of_drop (drop_tail h), Res.bind_ok]
  rw [if_neg (by omega)]; rfl

theorem validateNull_returns (b : Bytes) (c : Nat) : (validateNull b c).Returns := by
  unfold validateNull
  refine Res.returns_ite (fun _ => by simp) fun h => ?_
  refine Res.returns_bind (idx_returns (by omega)) fun _ _ => ?_
  exact Res.returns_ite (fun _ => by simp) fun _ => by simp

theorem validateEmptyArray_sound {b : Bytes} {c : Nat} {x : Byte} {t : Bytes} (hc : b.drop c = x :: t)
    (h : validateEmptyArray b c = .ok ()) : b.drop c = x :: 58 :: 123 :: 125 :: b.drop (c + 4) := by
  simp only [validateEmptyArray, Res.bind_eq_ok, Res.ite_err_ok] at h
  obtain ⟨_, y1, hy1, hq1, y2, hy2, hq2, y3, hy3, hq3, _⟩ := h
  simp only [ne_eq, Classical.not_not] at hq1 hq2 hq3
  subst hq1 hq2 hq3
  rw [hc, ← drop_tail hc, drop_of_idx hy1, drop_of_idx hy2, drop_of_idx hy3]

theorem validateEmptyArray_complete {b : Bytes} {c : Nat} {x : Byte} {r : Bytes} (h : b.drop c = x :: 58 :: 123 :: 125 :: r) :
    validateEmptyArray b c = .ok () := by
  have hl := len_of_drop h
  simp only [List.length_cons] at hl
  have h1 := drop_tail h
  have h2 := drop_tail h1
  have h3 := drop_tail h2
  simp only [validateEmptyArray, idx_of_drop h1, idx_of_drop h2, idx_of_drop h3, Res.bind_ok]
  rw [if_neg (by omega)]; rfl

theorem validateEmptyArray_returns (b : Bytes) (c : Nat) : (validateEmptyArray b c).Returns := by
  unfold validateEmptyArray
  refine Res.returns_ite (fun _ => by simp) fun h => ?_
  refine Res.returns_bind (idx_returns (by omega)) fun _ _ => ?_
  refine Res.returns_ite (fun _ => by simp) fun _ => ?_
  refine Res.returns_bind (idx_returns (by omega)) fun _ _ => ?_
  refine Res.returns_ite (fun _ => by simp) fun _ => ?_
  refine Res.returns_bind (idx_returns (by omega)) fun _ _ => ?_
  exact Res.returns_ite (fun _ => by simp) fun _ => by simp

theorem readInt_sound {b : Bytes} {c e n : Nat} (h : readInt b c = .ok (n, e)) :
    ∃ t, IntText t (n : Int) ∧ n < 2 ^ 63 ∧ b.drop c = 105 :: 58 :: (t ++ 59 :: b.drop e) ∧ e = c + t.length + 3 := by
  simp only [readInt, Res.bind_eq_ok] at h
  obtain ⟨⟨t, e'⟩, hr, h⟩ := h
  obtain ⟨_, hd, he⟩ := readIntegerBytes_sound hr
  split at h
  · rename_i v hv
    simp only at hv
    rw [parseInt64_ok_iff] at hv
    simp only [Res.ite_err_ok, Res.ok.injEq, Prod.mk.injEq] at h
    obtain ⟨hge, rfl, rfl⟩ := h
    refine ⟨t, ?_, by omega, hd, he⟩
    rw [show ((v.toNat : Nat) : Int) = v by omega]; exact hv.1
  all_goals simp at h

theorem readInt_complete {b : Bytes} {c n : Nat} {t r : Bytes} (ht : IntText t (n : Int)) (hn : n < 2 ^ 63)
    (h : b.drop c = 105 :: 58 :: (t ++ 59 :: r)) : readInt b c = .ok (n, c + t.length + 3) := by
  have hp : parseInt64 t = .ok (n : Int) := parseInt64_ok_iff.2 ⟨ht, by omega, by omega⟩
  simp only [readInt, readIntegerBytes_complete ht h, Res.bind_ok, hp]
  rw [if_neg (by omega)]; simp

theorem readInt_returns (b : Bytes) (c : Nat) : (readInt b c).Returns := by
  unfold readInt
  refine Res.returns_bind (readIntegerBytes_returns _ _) fun ⟨t, e⟩ _ => ?_
  have := parseInt64_returns t
  dsimp only
  split
  · exact Res.returns_ite (fun _ => by simp) fun _ => by simp
  · simp
  · simp_all
  · simp_all

end Verif

import Verif.Proofs.AllocMin
import Verif.Props.Demo
/-
C52: the memory that `Unmarshal` asks for. It is bounded by the length of the input and the numbers in it, and by the length alone for
types without slices, maps and `any`. With slices, maps or `any` in the type, a short input can ask for as much as it likes, and
a list of n elements takes n slices.
-/
namespace Verif
open Spec

/-- C52, fixed-length types: if there is no slice, no map and no `any` in the destination type, the memory asked for is at most a constant times the length of the
input, whatever lengths and indexes the input declares. The constant is given by the sizes of the pointed-to types and Unmarshaler types. -/
theorem C52_linear (W : World) (t : Ty) (S : Nat) (hF : Uncounted W t)
    (hp : ∀ t' e, Reach W t t' → Plain W t' (.ptr e) → W.elemSize e ≤ S) (hu : ∀ t', Reach W t t' → W.unmOf t' ≠ none → W.elemSize t' ≤ S)
    (data : Bytes) (hb : data.length < 2 ^ 63) (fuel : Nat) (v : Val) :
    unmarshalAlloc W fuel data t v ≤ (8 * S + 2) * data.length :=
  unmarshalAlloc_within hb (budget_uncounted hF hp hu) .refl

/-- A list linked by pointers: what is reachable from it. -/
theorem demo_linked {t' : Ty} (h : Reach Demo.W (.struct 1) t') : t' = .struct 1 ∨ t' = .ptr (.struct 1) ∨ t' = .int .int := by
  induction h with
  | refl => exact .inl rfl
  | step _ hc ih =>
    rcases ih with rfl | rfl | rfl
    · cases hc with
      | field hp hf =>
        cases hp.2
        simp [Demo.W, Demo.fields] at hf
        rcases hf with rfl | rfl
        · exact .inr (.inl rfl)
        · exact .inr (.inr rfl)
      | _ h => exact absurd h.2 (by simp [World.resolve])
    · cases hc with
      | ptr hp => cases hp.2; exact .inl rfl
      | field hp => exact absurd hp.2 (by simp [World.resolve])
      | _ h => exact absurd h.2 (by simp [World.resolve])
    · cases hc with
      | field hp => exact absurd hp.2 (by simp [World.resolve])
      | _ h => exact absurd h.2 (by simp [World.resolve])

theorem demo_uncounted : Uncounted Demo.W (.struct 1) := by
  intro t' h
  rcases demo_linked h with rfl | rfl | rfl <;> refine ⟨?_, ?_, ?_⟩ <;> intros <;> rintro ⟨-, h⟩ <;> cases h

/-- The hypotheses of `C52_linear` hold for a linked list; two new nodes take 16 bytes besides the copy of the input. -/
example : Uncounted Demo.W (.struct 1) ∧
    unmarshalAlloc Demo.W 9 (b! "a:1:{s:4:\"next\";a:1:{s:4:\"next\";a:1:{s:1:\"n\";i:7;}}}") (.struct 1) (Demo.structZero 1) = 52 + 16 :=
  ⟨demo_uncounted, by krfl⟩

/-- C52, all types: for every destination type, the memory asked for is at most a constant times the length of the input times the largest length
declared in it. If there are slices in the type, indexes count too. -/
theorem C52_numbers (W : World) (t : Ty) (S X : Nat) (h1 : 1 ≤ S)
    (hS : ∀ t', Reach W t t' ∨ t' = .any ∨ Documented t' → W.elemSize t' ≤ S) (data : Bytes) (hb : data.length < 2 ^ 63)
    (hL : LengthsUpTo X data) (hI : HasSlice W t → IndexesUpTo X data) (fuel : Nat) (v : Val) :
    unmarshalAlloc W fuel data t v ≤ (16 * S * (X + 1) + 2) * data.length := by
  have := unmarshalAlloc_within (v := v) (fuel := fuel) hb (budget_counted h1 hS hL hI) (.inl .refl)
  rwa [show 8 * (2 * S * (X + 1)) = 16 * S * (X + 1) by rw [← Nat.mul_assoc, ← Nat.mul_assoc]] at this

theorem infix_cases {s data : Bytes} (h : s <:+: data) : ∃ i, i < data.length + 1 ∧ ∃ j, j < data.length + 1 ∧ s = (data.drop i).take j := by
  obtain ⟨p, r, rfl⟩ := h
  exact ⟨p.length, by simp; omega, s.length, by simp; omega, by simp⟩

theorem demo_lengths : LengthsUpTo 2 (b! "a:2:{i:0;i:70;i:1;s:1:\"x\";}") := by
  intro ds hd h
  obtain ⟨i, hi, j, hj, h⟩ := infix_cases h
  have key : ∀ i, i < 28 → ∀ j, j < 28 → (((b! "a:2:{i:0;i:70;i:1;s:1:\"x\";}").drop i).take j).head? = some 58 →
      (((b! "a:2:{i:0;i:70;i:1;s:1:\"x\";}").drop i).take j).getLast? = some 58 →
      ((((b! "a:2:{i:0;i:70;i:1;s:1:\"x\";}").drop i).take j).tail.dropLast.all fun c => decide (48 ≤ c.toNat ∧ c.toNat ≤ 57)) = true →
      digitsVal (((b! "a:2:{i:0;i:70;i:1;s:1:\"x\";}").drop i).take j).tail.dropLast ≤ 2 := by decide
  have := key i hi j hj
  rw [← h] at this
  simpa using this (by simp) (by rw [List.getLast?_append]; rfl) (by simpa [IsDigit] using hd.2)

theorem demo_noSlice : ¬ HasSlice Demo.W .any := by
  rintro ⟨t', e, h, hp⟩
  have : t' = .any := by
    clear hp
    induction h with
    | refl => rfl
    | step _ hc ih =>
      subst ih
      cases hc with
      | field hp => exact absurd hp.2 (by simp [World.resolve])
      | _ h => exact absurd h.2 (by simp [World.resolve])
  subst this
  exact absurd hp.2 (by simp [World.resolve])

/-- The hypotheses of `C52_numbers` hold: no length above 2, and the type has no slice. -/
example : LengthsUpTo 2 (b! "a:2:{i:0;i:70;i:1;s:1:\"x\";}") ∧ ¬ HasSlice Demo.W .any ∧
    unmarshalAlloc Demo.W 9 (b! "a:2:{i:0;i:70;i:1;s:1:\"x\";}") .any .ifaceNil = 27 + 161 := ⟨demo_lengths, demo_noSlice, by krfl⟩

/-- C52, the limits are needed: with a map in the type, the number of entries is believed before any entry is seen. -/
theorem C52_map_reserves (W : World) (t k v : Ty) (ht : Plain W t (.map k v)) (fuel : Nat) (hc : compileD W fuel [] t = .ok ())
    (cnt : Bytes) (n : Nat) (hn : LenText cnt n) (hms : (W.elemSize k + W.elemSize v) * n ≤ 2 ^ 48) (r : Bytes) :
    (W.elemSize k + W.elemSize v) * n ≤ unmarshalAlloc W fuel ([97, 58] ++ cnt ++ [58, 123] ++ r) t .mapNil := by
  rw [show [97, 58] ++ cnt ++ [58, 123] ++ r = 97 :: 58 :: (cnt ++ 58 :: 123 :: r) by simp]
  unfold unmarshalAlloc
  rw [if_neg (by simp), hc]
  simp only [costOk, allocF, allocNonPtr, ht.1, ht.2]
  exact Nat.le_trans (map_reserves (by decide) hn hms) (Nat.le_add_left _ _)

/-- Fourteen bytes ask for 16 gigabytes. -/
example : 16000000000 ≤ unmarshalAlloc Demo.W 9 (b! "a:1000000000:{") (.map .str .any) .mapNil :=
  C52_map_reserves Demo.W (.map .str .any) .str .any ⟨rfl, rfl⟩ 9 rfl (b! "1000000000") 1000000000 ⟨by unfold IsDigits; decide, rfl, by decide⟩ (by decide) []

/-- C52, the limits are needed: with `any` in the type, the number of entries is believed. -/
theorem C52_any_reserves (W : World) (t : Ty) (ht : Plain W t .any) (fuel : Nat) (hc : compileD W fuel [] t = .ok ())
    (cnt : Bytes) (n : Nat) (hn : LenText cnt n) (hms : (W.elemSize .any + W.elemSize .any) * n ≤ 2 ^ 48) (r : Bytes) (v : Val) :
    (W.elemSize .any + W.elemSize .any) * n ≤ unmarshalAlloc W fuel ([97, 58] ++ cnt ++ [58, 123] ++ r) t v := by
  rw [show [97, 58] ++ cnt ++ [58, 123] ++ r = 97 :: 58 :: (cnt ++ 58 :: 123 :: r) by simp]
  unfold unmarshalAlloc
  rw [if_neg (by simp), hc]
  simp only [costOk, allocF, allocNonPtr, ht.1, ht.2, anyAlloc]
  rw [idx_of_drop (show List.drop 0 (97 :: 58 :: (cnt ++ 58 :: 123 :: r)) = _ from rfl)]
  simp only
  rw [if_neg (by decide), if_pos trivial]
  exact Nat.le_trans (Nat.le_trans (map_reserves (by decide) hn hms) (Nat.le_add_left _ _)) (Nat.le_add_left _ _)

/-- Fourteen bytes ask for 16 gigabytes. -/
example : 16000000000 ≤ unmarshalAlloc Demo.W 9 (b! "a:1000000000:{") .any .ifaceNil :=
  C52_any_reserves Demo.W .any ⟨rfl, rfl⟩ 9 rfl (b! "1000000000") 1000000000 ⟨by unfold IsDigits; decide, rfl, by decide⟩ (by decide) [] _

/-- C52, the limits are needed: with a slice in the type, the number of elements is believed. -/
theorem C52_slice_reserves (W : World) (t e : Ty) (ht : Plain W t (.slice e)) (fuel : Nat) (hc : compileD W fuel [] t = .ok ())
    (cnt : Bytes) (n : Nat) (hn : LenText cnt n) (hz : cnt.head? ≠ some 48) (hms : esize W e * n ≤ 2 ^ 48) (r : Bytes) (v : Val) :
    esize W e * n ≤ unmarshalAlloc W fuel ([97, 58] ++ cnt ++ [58, 123] ++ r) t v := by
  rw [show [97, 58] ++ cnt ++ [58, 123] ++ r = 97 :: 58 :: (cnt ++ 58 :: 123 :: r) by simp]
  unfold unmarshalAlloc
  rw [if_neg (by simp), hc]
  simp only [costOk, allocF, allocNonPtr, ht.1, ht.2, bytesAlloc]
  rw [idx_of_drop (show List.drop 0 (97 :: 58 :: (cnt ++ 58 :: 123 :: r)) = _ from rfl)]
  simp only
  unfold esize at *
  by_cases hby : W.isByte e = true
  · simp only [hby, if_true] at hms ⊢
    rw [slice_reserves (by decide) hn hz hms]
    omega
  · simp only [hby, Bool.false_eq_true, if_false] at hms ⊢
    rw [slice_reserves (by decide) hn hz hms]
    omega

/-- Fourteen bytes ask for 8 gigabytes. -/
example : 8000000000 ≤ unmarshalAlloc Demo.W 9 (b! "a:1000000000:{") (.slice (.int .i64)) .sliceNil :=
  C52_slice_reserves Demo.W (.slice (.int .i64)) (.int .i64) ⟨rfl, rfl⟩ 9 rfl (b! "1000000000") 1000000000 ⟨by unfold IsDigits; decide, rfl, by decide⟩ (by decide) (by decide) [] _

/-- C52, the limits are needed for honest lists too: for a list of n integers a slice is made for every element, n + (1 + 2 + … + n) elements in all. -/
theorem C52_slice_quadratic (W : World) (cnt : Bytes) (es : List (Doc × Doc)) (hn : LenText cnt es.length) (hz : cnt.head? ≠ some 48)
    (hes : es ≠ []) (hl : IntList 0 es) (hms : W.elemSize (.int .i64) * es.length ≤ 2 ^ 48) (fuel : Nat)
    (hc : compileD W fuel [] (.slice (.int .i64)) = .ok ()) (v : Val) :
    2 * unmarshalAlloc W fuel (Doc.arr cnt es).text (.slice (.int .i64)) v =
      2 * (Doc.arr cnt es).text.length + W.elemSize (.int .i64) * (2 * es.length + es.length * (es.length + 1)) := by
  have htx : (Doc.arr cnt es).text = 97 :: 58 :: (cnt ++ 58 :: 123 :: (pairsText es ++ [125])) := by simp [Doc.text]
  have hlt : es.length < 2 ^ 63 := hn.2.2
  have hp : PairsAt (Doc.arr cnt es).text (cnt.length + 4) es (Doc.arr cnt es).text.length := by
    have hd : List.drop (cnt.length + 4) (Doc.arr cnt es).text = pairsText es ++ [125] := by
      rw [htx, show 97 :: 58 :: (cnt ++ 58 :: 123 :: (pairsText es ++ [125])) = (97 :: 58 :: (cnt ++ [58, 123])) ++ (pairsText es ++ [125]) by simp]
      exact List.drop_left' (by simp)
    refine ⟨by rw [hd, List.drop_length], ?_⟩
    rw [htx]
    simp
    omega
  have hlong : es.length < (Doc.arr cnt es).text.length + 1 := by
    have : ∀ es : List (Doc × Doc), es.length ≤ (pairsText es).length := by
      intro es
      induction es with
      | nil => simp
      | cons e es ih =>
        obtain ⟨k, v⟩ := e
        have := text_length_pos k
        simp only [pairsText, List.length_cons, List.length_append]
        omega
    have := this es
    rw [htx]
    simp
    omega
  have loop := intList_loop (W := W) (depth := 1) (F := (Doc.arr cnt es).text.length) (size := W.elemSize (.int .i64)) (by rw [htx]; simp) hl hp hes
    (f := (Doc.arr cnt es).text.length + 1) (sl := []) hlong rfl (by omega) (by simpa using hms)
  unfold unmarshalAlloc
  rw [if_neg (by rw [htx]; simp), hc]
  simp only [costOk]
  have hal : allocF W (Doc.arr cnt es).text ((Doc.arr cnt es).text.length + 1) (.slice (.int .i64)) 0 0 v =
      W.elemSize (.int .i64) * es.length + sliceLoopAlloc (fun c v => decodeF W (Doc.arr cnt es).text (Doc.arr cnt es).text.length (.int .i64) c 1 v)
        (fun c v => allocF W (Doc.arr cnt es).text (Doc.arr cnt es).text.length (.int .i64) c 1 v) (.int 0) (W.elemSize (.int .i64))
        (Doc.arr cnt es).text ((Doc.arr cnt es).text.length + 1) (cnt.length + 4) [] := by
    have := slice_reserves (dec := decodeF W (Doc.arr cnt es).text (Doc.arr cnt es).text.length (.int .i64))
      (al := allocF W (Doc.arr cnt es).text (Doc.arr cnt es).text.length (.int .i64)) (z := .int 0) (depth := 0) (r := pairsText es ++ [125])
      (es := W.elemSize (.int .i64)) (by decide) hn hz hms
    rw [← htx] at this
    exact this
  rw [hal, Nat.mul_add, Nat.mul_add, loop]
  rw [show 2 * 0 + es.length + 1 = es.length + 1 by omega, Nat.mul_add (W.elemSize (.int .i64)), Nat.mul_left_comm 2]

/-- The hypotheses of `C52_slice_quadratic` hold for a list of three; elements take 8 bytes each, so 8 * (3 + 1 + 2 + 3) are asked for. -/
example : IntList 0 [(.int (b! "0"), .int (b! "5")), (.int (b! "1"), .int (b! "-6")), (.int (b! "2"), .int (b! "7"))] ∧
    unmarshalAlloc Demo.W 9 (b! "a:3:{i:0;i:5;i:1;i:-6;i:2;i:7;}") (.slice (.int .i64)) .sliceNil = 31 + 72 :=
  ⟨⟨⟨_, rfl, .pos (ds := b! "0") (by unfold IsDigits; decide)⟩, ⟨_, _, rfl, .pos (ds := b! "5") (by unfold IsDigits; decide), by simp [InRange, intMax, digitsVal]⟩,
    ⟨_, rfl, .pos (ds := b! "1") (by unfold IsDigits; decide)⟩, ⟨_, _, rfl, .neg (ds := b! "6") (by unfold IsDigits; decide), by simp [InRange, intMax, digitsVal]⟩,
    ⟨_, rfl, .pos (ds := b! "2") (by unfold IsDigits; decide)⟩, ⟨_, _, rfl, .pos (ds := b! "7") (by unfold IsDigits; decide), by simp [InRange, intMax, digitsVal]⟩, trivial⟩,
    by krfl⟩

end Verif

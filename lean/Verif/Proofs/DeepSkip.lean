import Verif.Proofs.Skip
/-
Skipping objects that are nested too deeply.
-/
namespace Verif
open Spec

/-- The start of an object with one entry, whose key is `k`: `O:1:"x":1:{s:1:"k";`. -/
def openObj : Bytes := [79, 58, 49, 58, 34, 120, 34, 58, 49, 58, 123, 115, 58, 49, 58, 34, 107, 34, 59]

/-- `n` objects, each the value in the one before. -/
def openObjs : Nat → Bytes
  | 0 => []
  | n + 1 => openObj ++ openObjs n

theorem openObjs_length (n : Nat) : (openObjs n).length = 19 * n := by
  induction n with
  | zero => rfl
  | succ n ih => simp [openObjs, openObj, ih]; omega

theorem not_mem_openObjs {x : Byte} (h : x ∉ openObj) (n : Nat) : x ∉ openObjs n := by
  induction n with
  | zero => simp [openObjs]
  | succ n ih =>
    intro hm
    rcases List.mem_append.1 hm with hm | hm
    · exact h hm
    · exact ih hm

theorem openObjs_skip {b : Bytes} (hb : b.length < 2 ^ 63) : ∀ (k : Nat) {f c d : Nat} {r : Bytes}, b.drop c = openObjs (k + 1) ++ r →
    d + k = maxDepth → k + 9 ≤ f → skipValueF f b c d = .err (.maxDepth ca ((c + 19 * k + 7 : Nat) : Int)) := by
  intro k
  induction k with
  | zero =>
    intro f c d r h hd hf
    obtain ⟨g, rfl⟩ : ∃ g, f = g + 1 := ⟨f - 1, by omega⟩
    have h' : b.drop c = 79 :: 58 :: ([49] ++ 58 :: 34 :: ([120] ++ 34 :: 58 :: (openObj.drop 8 ++ openObjs 0 ++ r))) := h
    have hh : hasByte b c = true := hasByte_iff.2 (lt_of_drop_cons h')
    simp only [skipValueF, idx_of_drop h', Res.bind_ok, skipClassName_complete hb (show LenText [49] [120].length from ⟨⟨by simp, by decide⟩, rfl, by decide⟩) h']
    simp only [hh, Bool.not_true, Bool.false_eq_true, if_false, if_true, skipArray]
    rw [if_pos (by omega)]
    simp only [List.length_cons, List.length_nil]
  | succ k ih =>
    intro f c d r h hd hf
    obtain ⟨g, rfl⟩ : ∃ g, f = g + 1 := ⟨f - 1, by omega⟩
    have h' : b.drop c = 79 :: 58 :: ([49] ++ 58 :: 34 :: ([120] ++ 34 :: 58 :: (openObj.drop 8 ++ openObjs (k + 1) ++ r))) := by
      rw [h, openObjs]; simp [openObj]
    have h7 : b.drop (c + 7) = 58 :: ([49] ++ 58 :: 123 :: (openObj.drop 11 ++ openObjs (k + 1) ++ r)) :=
      drop_tail (drop_tail (drop_tail (drop_tail (drop_tail (drop_tail (drop_tail h'))))))
    have h10 : b.drop (c + 10) = 123 :: (openObj.drop 11 ++ openObjs (k + 1) ++ r) := drop_tail (drop_tail (drop_tail h7))
    have h11 : b.drop (c + 11) = (Doc.str [49] [107]).text ++ (openObjs (k + 1) ++ r) := by
      rw [drop_tail h10]; simp [openObj, Doc.text]
    have h19 : b.drop (c + 19) = openObjs (k + 1) ++ r := by
      have := drop_append_eq h11
      exact this
    have hh : hasByte b c = true := hasByte_iff.2 (lt_of_drop_cons h')
    have hh1 : hasByte b (c + 10) = true := hasByte_iff.2 (lt_of_drop_cons h10)
    have hk : skipValueF g b (c + 11) (d + 1) = .ok (c + 11 + 8) :=
      skipValueF_complete hb (n := 0) (.str ⟨⟨by simp, by decide⟩, rfl, by decide⟩) (by simp [Doc.text]; omega) (by omega) h11
    have hv := ih (f := g) (d := d + 1) h19 (by omega) (by omega)
    simp only [skipValueF, idx_of_drop h', Res.bind_ok, skipClassName_complete hb (show LenText [49] [120].length from ⟨⟨by simp, by decide⟩, rfl, by decide⟩) h']
    simp only [hh, Bool.not_true, Bool.false_eq_true, if_false, if_true, skipArray]
    rw [if_neg (by omega)]
    simp only [List.length_cons, List.length_nil]
    rw [show c + (0 + 1) + (0 + 1) + 4 + 1 = c + 7 by omega, readLength_complete (show LenText [49] 1 from ⟨⟨by simp, by decide⟩, rfl, by decide⟩) h7, Res.bind_ok]
    simp only [List.length_cons, List.length_nil]
    rw [show c + 7 + (0 + 1) + 2 = c + 10 by omega, idx_of_drop h10]
    simp only [hh1, Bool.not_true, Bool.false_eq_true, if_false, Res.bind_ok, ne_eq, not_true]
    show (skipPairs _ 1 (c + 11) >>= _) = _
    simp only [skipPairs, hk, Res.bind_ok]
    rw [show c + 11 + 8 = c + 19 by omega, hv]
    simp only [Res.bind_err, Res.err.injEq, Err.maxDepth.injEq, true_and]
    omega

end Verif

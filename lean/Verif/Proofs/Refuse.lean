import Verif.Spec.Refuse
import Verif.Proofs.Unmarshal
namespace Verif
open Spec

theorem refused_at {W : World} {buf : Bytes} {f : Nat} {t : Ty} {c depth : Nat} {rv : Val} {x : Byte} {l : List Byte} (hu : W.unmOf t = none)
    (ht : takes W (W.resolve t) = some l) (hx : buf[c]? = some x) (hl : x ∉ l) (hN : x ≠ 78) (hd : depth < 10000) :
    decodeF W buf (f + 1) t c depth rv = (rv, .err (refusal W (W.resolve t) x c)) := by
  have hi : idx buf c = .ok x := by simp [idx, hx]
  have hh : hasByte buf c = true := by
    have := (List.getElem?_eq_some_iff.1 hx).1
    simp [hasByte, this]
  have hd' : ¬ depth + 1 > maxDepth := by simp only [maxDepth]; omega
  have hp : W.isPtr t = false := by
    unfold World.isPtr
    generalize W.resolve t = k at *
    cases k <;> simp_all [takes]
  rw [decodeF_succ (.inr hp)]
  unfold decodeNonPtr
  rw [hu]
  dsimp only
  generalize W.resolve t = k at *
  have text : ∀ β (k : Option Bytes × Nat → Val × Res β), x ≠ 115 →
      onOk rv (stringBytes buf c) k = (rv, .err (if x = 98 then .typeError "bool" c else if x = 100 then .typeError "float" c
        else if x = 105 then .typeError "number" c else .beginValue x c)) := by
    intro β k h
    simp only [stringBytes, hh, hi, Res.bind_ok, cb, cd, cs, ci, cN, if_neg hN, if_neg h, Bool.not_true, Bool.false_eq_true, if_false]
    split
    · rfl
    split
    · rfl
    split <;> rfl
  have slice : ∀ (dec : Nat → Nat → Val → DR) (z : Val) (s : Nat), x ≠ 97 → sliceDecode dec z s buf c depth rv =
      (rv, .err (if x = 45 ∨ (48 ≤ x ∧ x ≤ 57) then .typeError "number" c else .unexpectedEnd "slice" c)) := by
    intro dec z s h
    simp only [sliceDecode, hh, hi, onOk, ca, cN, if_neg hN, if_neg h, if_neg hd', Bool.not_true, Bool.false_eq_true, if_false, isDigit, cMinus,
      decide_eq_true_eq]
    split <;> rfl
  cases k
  all_goals simp only [takes, Option.some.injEq, reduceCtorEq] at ht
  all_goals subst ht
  all_goals dsimp only [refusal]
  case slice e =>
    by_cases he : W.resolve e = .uint .u8
    · rw [if_pos he] at hl ⊢
      simp only [List.mem_cons, List.not_mem_nil, or_false, not_or] at hl
      rw [if_pos (by simp [World.isByte, he])]
      simp only [bytesDecode, hi, onOk, ca, if_neg hl.1]
      exact text _ _ hl.2
    · rw [if_neg he] at hl ⊢
      simp only [List.mem_cons, List.not_mem_nil, or_false] at hl
      rw [if_neg (by simp [World.isByte, he])]
      exact slice _ _ _ hl
  all_goals simp only [List.mem_cons, List.not_mem_nil, or_false, not_or] at hl
  · simp [boolDecode, hh, hi, onOk, hl, hN, cb, cN]
  · simp [intDecode, intBytes, readIntegerBytes, hh, hi, onOk, hl, hN, ci, cN]
  · simp [uintDecode, intBytes, readIntegerBytes, hh, hi, onOk, hl, hN, ci, cN]
  · simp [floatDecode, floatBytes, hh, hi, onOk, hl, hN, cd, cN]
  · simp [floatDecode, floatBytes, hh, hi, onOk, hl, hN, cd, cN]
  · exact text _ _ hl
  · simp [arrayDecode, hh, hi, onOk, hl, hN, ca, cN, hd']
  · simp [mapDecode, hh, hi, onOk, hl, hN, ca, cO, cN, hd']
  · simp [structDecode, hh, hi, onOk, hl, hN, ca, cO, cN, hd']
  · simp [anyDecode, hi, onOk, hl, hN, ca, cO, cN, cb, cd, cs, ci]

end Verif

import Verif.Proofs.RewriteMove
import Verif.Proofs.FloatText
import Verif.Proofs.RoundScalar
import Verif.Proofs.Trip
import Verif.Spec.Tell
/-
The text of a value tells what the value is.
-/
namespace Verif
open Spec

variable {W : World} {h h' : Heap}

/-! ### Scalars -/

theorem fmt64_cases (hs : Strconv W) (hi : SpecialTexts W) {x : UInt64} {s : Bytes} (hx : FmtText64 W x s) :
    (NaN64 x ∧ s = [78, 97, 78]) ∨ (x = 0x7FF0000000000000 ∧ s = [43, 73, 110, 102]) ∨ (x = 0xFFF0000000000000 ∧ s = [45, 73, 110, 102]) ∨
      (Finite64 x ∧ ∃ m e, decimalOf s = some (neg64 x, m, e) ∧ Near64 (decNum m e) (decDen e) (mag64 x)) := by
  rcases classify64 x with h1 | rfl | rfl | h1
  · refine .inl ⟨h1, ?_⟩
    rcases hx with ⟨-, rfl⟩ | ⟨-, rfl⟩ <;> exact hi.nan64 _ _ h1
  · refine .inr (.inl ⟨rfl, ?_⟩)
    rcases hx with ⟨-, rfl⟩ | ⟨-, rfl⟩ <;> exact hi.inf64 _
  · refine .inr (.inr (.inl ⟨rfl, ?_⟩))
    rcases hx with ⟨-, rfl⟩ | ⟨-, rfl⟩ <;> exact hi.negInf64 _
  · exact .inr (.inr (.inr ⟨h1, fmtText64_dec hs h1 hx⟩))

theorem fmt32_cases (hs : Strconv W) (hi : SpecialTexts W) {x : UInt32} {s : Bytes} (hx : FmtText32 W x s) :
    (NaN32 x ∧ s = [78, 97, 78]) ∨ (x = 0x7F800000 ∧ s = [43, 73, 110, 102]) ∨ (x = 0xFF800000 ∧ s = [45, 73, 110, 102]) ∨
      (Finite32 x ∧ ∃ m e, decimalOf s = some (neg32 x, m, e) ∧ Near32 (decNum m e) (decDen e) (mag32 x)) := by
  rcases classify32 x with h1 | rfl | rfl | h1
  · refine .inl ⟨h1, ?_⟩
    rcases hx with ⟨-, rfl⟩ | ⟨-, rfl⟩ <;> exact hi.nan32 _ _ h1
  · refine .inr (.inl ⟨rfl, ?_⟩)
    rcases hx with ⟨-, rfl⟩ | ⟨-, rfl⟩ <;> exact hi.inf32 _
  · refine .inr (.inr (.inl ⟨rfl, ?_⟩))
    rcases hx with ⟨-, rfl⟩ | ⟨-, rfl⟩ <;> exact hi.negInf32 _
  · exact .inr (.inr (.inr ⟨h1, fmtText32_dec hs h1 hx⟩))

theorem decimalOf_special : decimalOf [78, 97, 78] = none ∧ decimalOf [43, 73, 110, 102] = none ∧ decimalOf [45, 73, 110, 102] = none :=
  ⟨by rfl, by rfl, by rfl⟩

theorem fmt64_tells (hs : Strconv W) (hi : SpecialTexts W) {x y : UInt64} {s : Bytes} (hx : FmtText64 W x s) (hy : FmtText64 W y s) : SameF64 x y := by
  obtain ⟨d1, d2, d3⟩ := decimalOf_special
  rcases fmt64_cases hs hi hx with ⟨a, b⟩ | ⟨a, b⟩ | ⟨a, b⟩ | ⟨a, m, e, b, c⟩ <;>
    rcases fmt64_cases hs hi hy with ⟨a', b'⟩ | ⟨a', b'⟩ | ⟨a', b'⟩ | ⟨a', m', e', b', c'⟩
  · exact .inr ⟨a, a'⟩
  · rw [b] at b'; simp at b'
  · rw [b] at b'; simp at b'
  · rw [b, d1] at b'; cases b'
  · rw [b] at b'; simp at b'
  · exact .inl (a.trans a'.symm)
  · rw [b] at b'; simp at b'
  · rw [b, d2] at b'; cases b'
  · rw [b] at b'; simp at b'
  · rw [b] at b'; simp at b'
  · exact .inl (a.trans a'.symm)
  · rw [b, d3] at b'; cases b'
  · rw [b', d1] at b; cases b
  · rw [b', d2] at b; cases b
  · rw [b', d3] at b; cases b
  · rw [b] at b'
    simp only [Option.some.injEq, Prod.mk.injEq] at b'
    obtain ⟨e1, rfl, rfl⟩ := b'
    left
    rw [← float64_self x, ← float64_self y, e1, near64_unique (decDen_pos _) c c']

theorem fmt32_tells (hs : Strconv W) (hi : SpecialTexts W) {x y : UInt32} {s : Bytes} (hx : FmtText32 W x s) (hy : FmtText32 W y s) : SameF32 x y := by
  obtain ⟨d1, d2, d3⟩ := decimalOf_special
  rcases fmt32_cases hs hi hx with ⟨a, b⟩ | ⟨a, b⟩ | ⟨a, b⟩ | ⟨a, m, e, b, c⟩ <;>
    rcases fmt32_cases hs hi hy with ⟨a', b'⟩ | ⟨a', b'⟩ | ⟨a', b'⟩ | ⟨a', m', e', b', c'⟩
  · exact .inr ⟨a, a'⟩
  · rw [b] at b'; simp at b'
  · rw [b] at b'; simp at b'
  · rw [b, d1] at b'; cases b'
  · rw [b] at b'; simp at b'
  · exact .inl (a.trans a'.symm)
  · rw [b] at b'; simp at b'
  · rw [b, d2] at b'; cases b'
  · rw [b] at b'; simp at b'
  · rw [b] at b'; simp at b'
  · exact .inl (a.trans a'.symm)
  · rw [b, d3] at b'; cases b'
  · rw [b', d1] at b; cases b
  · rw [b', d2] at b; cases b
  · rw [b', d3] at b; cases b
  · rw [b] at b'
    simp only [Option.some.injEq, Prod.mk.injEq] at b'
    obtain ⟨e1, rfl, rfl⟩ := b'
    left
    rw [← float32_self x, ← float32_self y, e1, near32_unique (decDen_pos _) c c']

theorem special_floats (hs : Strconv W) (hi : SpecialTexts W) : FloatTextsOk W := by
  refine ⟨fun e x => ?_, fun e x => ?_⟩
  · rcases classify64 x with h1 | rfl | rfl | h1
    · rw [hi.nan64 e x h1]; decide
    · rw [hi.inf64 e]; decide
    · rw [hi.negInf64 e]; decide
    · obtain ⟨m, ex, h2, -⟩ := hs.fmt64 h1 e
      exact ⟨(decimalOf_number h2).1, (decimalOf_number h2).2.1⟩
  · rcases classify32 x with h1 | rfl | rfl | h1
    · rw [hi.nan32 e x h1]; decide
    · rw [hi.inf32 e]; decide
    · rw [hi.negInf32 e]; decide
    · obtain ⟨m, ex, h2, -⟩ := hs.fmt32 h1 e
      exact ⟨(decimalOf_number h2).1, (decimalOf_number h2).2.1⟩

theorem special_nans (hi : SpecialTexts W) : NaNsAlike W :=
  ⟨fun e x y hx hy => by rw [hi.nan64 e x hx, hi.nan64 e y hy], fun e x y hx hy => by rw [hi.nan32 e x hx, hi.nan32 e y hy]⟩

theorem out64_tells (hs : Strconv W) (hi : SpecialTexts W) {x y : UInt64} {s : Bytes} (hx : FloatOut64 W x s) (hy : FloatOut64 W y s) : SameF64 x y := by
  have num : ∀ {x : UInt64} {s}, ¬ NaN64 x → x ≠ 0x7FF0000000000000 → x ≠ 0xFFF0000000000000 → FmtText64 W x s → ¬ SpecialName s := fun a b c d => by
    obtain ⟨m, e, h1, -⟩ := fmtText64_dec hs (finite64_of a b c) d
    exact (decimalOf_number h1).2.2
  cases hx with
  | nan a => cases hy with
    | nan b => exact .inr ⟨a, b⟩
    | finite a' b c d => exact absurd (.inr (.inr rfl)) (num a' b c d)
  | inf => cases hy with
    | inf => exact .inl rfl
    | finite a' b c d => exact absurd (.inl rfl) (num a' b c d)
  | negInf => cases hy with
    | negInf => exact .inl rfl
    | finite a' b c d => exact absurd (.inr (.inl rfl)) (num a' b c d)
  | finite a b c d => cases hy with
    | nan => exact absurd (.inr (.inr rfl)) (num a b c d)
    | inf => exact absurd (.inl rfl) (num a b c d)
    | negInf => exact absurd (.inr (.inl rfl)) (num a b c d)
    | finite _ _ _ d' => exact fmt64_tells hs hi d d'

theorem out32_tells (hs : Strconv W) (hi : SpecialTexts W) {x y : UInt32} {s : Bytes} (hx : FloatOut32 W x s) (hy : FloatOut32 W y s) : SameF32 x y := by
  have num : ∀ {x : UInt32} {s}, ¬ NaN32 x → x ≠ 0x7F800000 → x ≠ 0xFF800000 → FmtText32 W x s → ¬ SpecialName s := fun a b c d => by
    obtain ⟨m, e, h1, -⟩ := fmtText32_dec hs (finite32_of a b c) d
    exact (decimalOf_number h1).2.2
  cases hx with
  | nan a => cases hy with
    | nan b => exact .inr ⟨a, b⟩
    | finite a' b c d => exact absurd (.inr (.inr rfl)) (num a' b c d)
  | inf => cases hy with
    | inf => exact .inl rfl
    | finite a' b c d => exact absurd (.inl rfl) (num a' b c d)
  | negInf => cases hy with
    | negInf => exact .inl rfl
    | finite a' b c d => exact absurd (.inr (.inl rfl)) (num a' b c d)
  | finite a b c d => cases hy with
    | nan => exact absurd (.inr (.inr rfl)) (num a b c d)
    | inf => exact absurd (.inl rfl) (num a b c d)
    | negInf => exact absurd (.inr (.inl rfl)) (num a b c d)
    | finite _ _ _ d' => exact fmt32_tells hs hi d d'

theorem strDoc_told {a b : Bytes} (he : strDoc a = strDoc b) : a = b := by
  simp only [strDoc, Doc.str.injEq] at he
  exact he.2

theorem scalar_tells (hs : Strconv W) (hi : SpecialTexts W) {t : Ty} {v v' : GV} {d d' : Doc} (h1 : ScalarDoc W t v d) (h2 : ScalarDoc W t v' d') (he : d = d') :
    SameIn W h h' t v v' := by
  cases h1 with
  | bool r => cases h2 with
    | bool => cases he; exact .bool
    | _ => cases he
  | int r => cases h2 with
    | int => cases intText_inj (Doc.int.inj he); exact .int
    | uint r' => rw [r] at r'; cases r'
    | _ => cases he
  | uint r _ => cases h2 with
    | int r' => rw [r] at r'; cases r'
    | uint => cases natText_inj (Doc.int.inj he); exact .uint
    | _ => cases he
  | f32 r o => cases h2 with
    | f32 _ o' => cases he; exact .f32 (out32_tells hs hi o o')
    | f64 r' => rw [r] at r'; cases r'
    | _ => cases he
  | f64 r o => cases h2 with
    | f64 _ o' => cases he; exact .f64 (out64_tells hs hi o o')
    | f32 r' => rw [r] at r'; cases r'
    | _ => cases he
  | str r => cases h2 with
    | str => cases strDoc_told he; exact .str
    | _ => cases he

theorem basic_tells (hs : Strconv W) (hi : SpecialTexts W) {t t' : Ty} {v v' : GV} {a b : Bytes} (h1 : BasicText W t v a) (h2 : BasicText W t v' b) (he : a = b) :
    SameIn W h h' t' v v' := by
  subst he
  cases h1 with
  | true => cases h2; exact .bool
  | false => cases h2; exact .bool
  | int =>
    generalize ht : Ty.int _ = t, hx : intText _ = x at h2
    cases h2 with
    | int => cases intText_inj hx; exact .int
    | _ => cases ht
  | uint n =>
    generalize ht : Ty.uint _ = t, hx : natText _ = x at h2
    cases h2 with
    | uint => cases natText_inj hx; exact .uint
    | _ => cases ht
  | f32 x => cases h2 with | f32 y => exact .f32 (fmt32_tells hs hi x y)
  | f64 x => cases h2 with | f64 y => exact .f64 (fmt64_tells hs hi x y)

theorem strField_tells (hs : Strconv W) (hi : SpecialTexts W) {t : Ty} {v v' : GV} {d d' : Doc} (hf : W.isIface t = false) (h1 : StrFieldDoc W h t v d)
    (h2 : StrFieldDoc W h' t v' d') (he : d = d') : SameIn W h h' t v v' := by
  cases h1 with
  | str r => cases h2 with
    | str => cases strDoc_told he; exact .str
    | basic b => rw [r] at b; cases b
    | ifaceNil b => rw [hf] at b; cases b
    | iface b => rw [hf] at b; cases b
  | basic a => cases h2 with
    | str r => rw [r] at a; cases a
    | basic b => exact basic_tells hs hi a b (strDoc_told he)
    | ifaceNil b => rw [hf] at b; cases b
    | iface b => rw [hf] at b; cases b
  | ifaceNil b => rw [hf] at b; cases b
  | iface b => rw [hf] at b; cases b

theorem key_tells {k : Ty} {x x' : GV} {d d' : Doc} (h1 : KeyDoc W k x d) (h2 : KeyDoc W k x' d') (he : d = d') : x = x' :=
  Classical.byContradiction fun hn => keys_ne h1 h2 hn he

theorem bytes_tells {xs ys : List GV} {s : Bytes} (h1 : bytesOf xs = some s) (h2 : bytesOf ys = some s) :
    xs.length = ys.length ∧ ∀ (i : Nat) (x y : GV), xs[i]? = some x → ys[i]? = some y → SameIn W h h' (.uint .u8) x y := by
  have cons : ∀ {x : GV} {xs : List GV} {s : Bytes}, bytesOf (x :: xs) = some s → ∃ n s', n < 256 ∧ x = .uint n ∧ bytesOf xs = some s' ∧ s = UInt8.ofNat n :: s' := by
    intro x xs s hb
    cases x with
    | uint n =>
      simp only [bytesOf] at hb
      split at hb
      · rename_i hn
        simp only [Option.map_eq_some_iff] at hb
        obtain ⟨s', h1, h2⟩ := hb
        exact ⟨n, s', hn, rfl, h1, h2.symm⟩
      · cases hb
    | _ => simp [bytesOf] at hb
  induction xs generalizing ys s with
  | nil =>
    cases h1
    cases ys with
    | nil => exact ⟨rfl, fun i x y hx => by simp at hx⟩
    | cons y ys => obtain ⟨n, s', -, -, -, h3⟩ := cons h2; cases h3
  | cons x xs ih =>
    obtain ⟨n, s', a1, rfl, a3, rfl⟩ := cons h1
    cases ys with
    | nil => cases h2
    | cons y ys =>
      obtain ⟨m, s'', b1, rfl, b3, b4⟩ := cons h2
      simp only [List.cons.injEq] at b4
      obtain ⟨b4, rfl⟩ := b4
      have : n = m := by
        have := congrArg UInt8.toNat b4
        simp only [UInt8.toNat_ofNat'] at this
        omega
      subst this
      obtain ⟨c1, c2⟩ := ih a3 b3
      refine ⟨by simp [c1], fun i x y hx hy => ?_⟩
      cases i with
      | zero => cases hx; cases hy; exact .uint
      | succ i => exact c2 i x y (by simpa using hx) (by simpa using hy)

end Verif

import Verif.Proofs.Skip
import Verif.Proofs.Tags
/-
The scalar decoders accept exactly the documents given by the specification.
-/
namespace Verif
open Spec

/-- Document `d` starts at `c` and ends before `c'`. -/
def At (b : Bytes) (c : Nat) (d : Doc) (c' : Nat) : Prop :=
  b.drop c = d.text ++ b.drop c' ∧ c' = c + d.text.length

theorem At.of {b : Bytes} {c : Nat} {d : Doc} {r : Bytes} (h : b.drop c = d.text ++ r) : At b c d (c + d.text.length) :=
  ⟨by rw [drop_append_eq h, h], rfl⟩

theorem At.lt {b : Bytes} {c : Nat} {d : Doc} {c' : Nat} (h : At b c d c') : c < b.length := by
  have h1 := congrArg List.length h.1
  have := text_length_pos d
  simp at h1; omega

theorem At.le {b : Bytes} {c : Nat} {d : Doc} {c' : Nat} (h : At b c d c') : c' ≤ b.length := by
  have h1 := congrArg List.length h.1
  have := text_length_pos d
  have := h.2
  simp at h1; omega

theorem At.lt' {b : Bytes} {c : Nat} {d : Doc} {c' : Nat} (h : At b c d c') : c < c' := by
  have := text_length_pos d
  have := h.2
  omega

theorem onOk_ok {α β : Type} {rv v : Val} {r : Res α} {k : α → Val × Res β} {a : β} :
    onOk rv r k = (v, .ok a) ↔ ∃ x, r = .ok x ∧ k x = (v, .ok a) := by
  cases r <;> simp [onOk]

theorem iteErr_ok {β : Type} {p : Prop} [Decidable p] {rv v : Val} {e : Err} {y : Val × Res β} {a : β} :
    (if p then (rv, .err e) else y) = (v, .ok a) ↔ ¬ p ∧ y = (v, .ok a) := by
  split <;> simp_all

theorem itePanic_ok {β : Type} {p : Prop} [Decidable p] {rv v : Val} {e : Panic} {y : Val × Res β} {a : β} :
    (if p then (rv, .panic e) else y) = (v, .ok a) ↔ ¬ p ∧ y = (v, .ok a) := by
  split <;> simp_all

@[simp] theorem onOk_ok_eq {α β : Type} {rv : Val} {x : α} {k : α → Val × Res β} : onOk rv (.ok x) k = k x := rfl

theorem hasByte_false {b : Bytes} {c : Nat} (h : c < b.length) : (!hasByte b c) = false := by
  simp [hasByte, h]

/-! ### Texts -/

theorem at_null_iff {b : Bytes} {c c' : Nat} : At b c .null c' ↔ b.drop c = 78 :: 59 :: b.drop c' ∧ c' = c + 2 := by
  simp [At, Doc.text]

theorem at_bool_iff {b : Bytes} {c c' : Nat} {v : Bool} :
    At b c (.bool v) c' ↔ b.drop c = 98 :: 58 :: (if v then 49 else 48) :: 59 :: b.drop c' ∧ c' = c + 4 := by
  simp [At, Doc.text]

theorem at_int_iff {b : Bytes} {c c' : Nat} {t : Bytes} :
    At b c (.int t) c' ↔ b.drop c = 105 :: 58 :: (t ++ 59 :: b.drop c') ∧ c' = c + t.length + 3 := by
  simp [At, Doc.text]; intro _; omega

theorem at_float_iff {b : Bytes} {c c' : Nat} {t : Bytes} :
    At b c (.float t) c' ↔ b.drop c = 100 :: 58 :: (t ++ 59 :: b.drop c') ∧ c' = c + t.length + 3 := by
  simp [At, Doc.text]; intro _; omega

theorem at_str_iff {b : Bytes} {c c' : Nat} {l s : Bytes} :
    At b c (.str l s) c' ↔
      b.drop c = 115 :: 58 :: (l ++ 58 :: 34 :: (s ++ 34 :: 59 :: b.drop c')) ∧ c' = c + l.length + s.length + 6 := by
  simp [At, Doc.text]; intro _; omega

theorem at_arr_iff {b : Bytes} {c c' : Nat} {cnt : Bytes} {es : List (Doc × Doc)} :
    At b c (.arr cnt es) c' ↔
      b.drop c = 97 :: 58 :: (cnt ++ 58 :: 123 :: (pairsText es ++ 125 :: b.drop c')) ∧
        c' = c + cnt.length + (pairsText es).length + 5 := by
  simp [At, Doc.text]; intro _; omega

theorem at_obj_iff {b : Bytes} {c c' : Nat} {clen cls cnt : Bytes} {es : List (Doc × Doc)} :
    At b c (.obj clen cls cnt es) c' ↔
      b.drop c = 79 :: 58 :: (clen ++ 58 :: 34 :: (cls ++ 34 :: 58 :: (cnt ++ 58 :: 123 :: (pairsText es ++ 125 :: b.drop c')))) ∧
        c' = c + clen.length + cls.length + cnt.length + (pairsText es).length + 9 := by
  simp [At, Doc.text]; intro _; omega

/-- First byte of each kind of document. -/
theorem At.idx {b : Bytes} {c c' : Nat} {d : Doc} (h : At b c d c') :
    idx b c = .ok (match d with
      | .null => cN | .bool _ => cb | .int _ => ci | .float _ => cd | .str _ _ => cs | .arr _ _ => ca | .obj _ _ _ _ => cO) := by
  cases d <;> simp only [at_null_iff, at_bool_iff, at_int_iff, at_float_iff, at_str_iff, at_arr_iff, at_obj_iff] at h <;>
    exact idx_of_drop h.1

theorem validateNull_iff {b : Bytes} {c : Nat} (hx : idx b c = .ok 78) : validateNull b c = .ok () ↔ At b c .null (c + 2) := by
  rw [at_null_iff]
  constructor
  · intro h; exact ⟨validateNull_sound (drop_of_idx hx) h, rfl⟩
  · rintro ⟨h, _⟩; exact validateNull_complete h

theorem readString_iff {b : Bytes} {c c' : Nat} {s : Bytes} (hb : b.length < 2 ^ 63) (hx : idx b c = .ok 115) :
    readString b (c + 1) = .ok (s, c') ↔ ∃ l, LenText l s.length ∧ At b c (.str l s) c' := by
  simp only [at_str_iff]
  constructor
  · intro h
    obtain ⟨ds, h1, h2, h3⟩ := readString_sound h
    exact ⟨ds, h1, by rw [drop_of_idx hx, h2], by omega⟩
  · rintro ⟨l, h1, h2, h3⟩
    rw [readString_complete hb h1 (drop_tail h2), h3]
    simp; omega

theorem readIntegerBytes_iff {b : Bytes} {c c' : Nat} {t : Bytes} :
    readIntegerBytes b c = .ok (t, c') ↔ (∃ i, IntText t i) ∧ At b c (.int t) c' := by
  simp only [at_int_iff]
  constructor
  · intro h; exact readIntegerBytes_sound h
  · rintro ⟨⟨i, h1⟩, h2, rfl⟩
    exact readIntegerBytes_complete h1 h2

theorem readFloatBytes_iff {b : Bytes} {c c' : Nat} {t : Bytes} :
    readFloatBytes b c = .ok (t, c') ↔ t ≠ [] ∧ (59 : Byte) ∉ t ∧ At b c (.float t) c' := by
  simp only [at_float_iff]
  constructor
  · intro h; exact readFloatBytes_sound h
  · rintro ⟨h1, h2, h3, rfl⟩
    exact readFloatBytes_complete h1 h2 h3

theorem readBool_iff {b : Bytes} {c : Nat} {v : Bool} : readBool b c = .ok v ↔ At b c (.bool v) (c + 4) := by
  rw [at_bool_iff]
  constructor
  · intro h; exact ⟨readBool_sound h, rfl⟩
  · rintro ⟨h, _⟩; exact readBool_complete h

theorem intBytes_iff {b : Bytes} {c c' : Nat} {ob : Option Bytes} :
    intBytes b c = .ok (ob, c') ↔
      (ob = none ∧ At b c .null c') ∨ ∃ t, ob = some t ∧ (∃ i, IntText t i) ∧ At b c (.int t) c' := by
  constructor
  · intro h
    simp only [intBytes, Res.ite_err_ok, Res.bind_eq_ok] at h
    obtain ⟨_, x, hx, h⟩ := h
    split at h
    · rename_i hx'; subst hx'
      simp only [Res.bind_eq_ok, Res.ok.injEq, Prod.mk.injEq] at h
      obtain ⟨_, hn, rfl, rfl⟩ := h
      exact .inl ⟨rfl, (validateNull_iff hx).1 hn⟩
    · simp only [Res.bind_eq_ok] at h
      obtain ⟨⟨t, e⟩, hr, h⟩ := h
      simp only [Res.ok.injEq, Prod.mk.injEq] at h
      obtain ⟨rfl, rfl⟩ := h
      exact .inr ⟨t, rfl, readIntegerBytes_iff.1 hr⟩
  · rintro (⟨rfl, h⟩ | ⟨t, rfl, hi, h⟩)
    · have hx := h.idx
      have h2 := h.2
      simp only [Doc.text, List.length_cons, List.length_nil] at h2
      subst h2
      simp only [intBytes, hasByte_false h.lt, hx, Res.bind_ok, (validateNull_iff hx).2 h]
      simp
    · have hx := h.idx
      simp only [intBytes, hasByte_false h.lt, hx, Res.bind_ok, readIntegerBytes_iff.2 ⟨hi, h⟩]
      simp (decide := true)

theorem floatBytes_iff {b : Bytes} {c c' : Nat} {ob : Option Bytes} :
    floatBytes b c = .ok (ob, c') ↔
      (ob = none ∧ At b c .null c') ∨ ∃ t, ob = some t ∧ t ≠ [] ∧ (59 : Byte) ∉ t ∧ At b c (.float t) c' := by
  constructor
  · intro h
    simp only [floatBytes, Res.ite_err_ok, Res.bind_eq_ok] at h
    obtain ⟨_, x, hx, h⟩ := h
    split at h
    · rename_i hx'; subst hx'
      simp only [Res.bind_eq_ok, Res.ok.injEq, Prod.mk.injEq] at h
      obtain ⟨_, hn, rfl, rfl⟩ := h
      exact .inl ⟨rfl, (validateNull_iff hx).1 hn⟩
    split at h
    · simp only [Res.bind_eq_ok] at h
      obtain ⟨⟨t, e⟩, hr, h⟩ := h
      simp only [Res.ok.injEq, Prod.mk.injEq] at h
      obtain ⟨rfl, rfl⟩ := h
      exact .inr ⟨t, rfl, readFloatBytes_iff.1 hr⟩
    · simp at h
  · rintro (⟨rfl, h⟩ | ⟨t, rfl, hi, hi', h⟩)
    · have hx := h.idx
      have h2 := h.2
      simp only [Doc.text, List.length_cons, List.length_nil] at h2
      subst h2
      simp only [floatBytes, hasByte_false h.lt, hx, Res.bind_ok, (validateNull_iff hx).2 h]
      simp
    · have hx := h.idx
      simp only [floatBytes, hasByte_false h.lt, hx, Res.bind_ok, readFloatBytes_iff.2 ⟨hi, hi', h⟩]
      simp (decide := true)

theorem stringBytes_iff {b : Bytes} {c c' : Nat} {ob : Option Bytes} (hb : b.length < 2 ^ 63) :
    stringBytes b c = .ok (ob, c') ↔
      (ob = none ∧ At b c .null c') ∨ ∃ l s, ob = some s ∧ LenText l s.length ∧ At b c (.str l s) c' := by
  constructor
  · intro h
    simp only [stringBytes, Res.ite_err_ok, Res.bind_eq_ok] at h
    obtain ⟨_, x, hx, h⟩ := h
    split at h
    · rename_i hx'; subst hx'
      simp only [Res.bind_eq_ok, Res.ok.injEq, Prod.mk.injEq] at h
      obtain ⟨_, hn, rfl, rfl⟩ := h
      exact .inl ⟨rfl, (validateNull_iff hx).1 hn⟩
    simp only [Res.ite_err_ok] at h
    obtain ⟨_, _, h⟩ := h
    split at h
    · rename_i hx'; subst hx'
      simp only [Res.bind_eq_ok] at h
      obtain ⟨⟨t, e⟩, hr, h⟩ := h
      simp only [Res.ok.injEq, Prod.mk.injEq] at h
      obtain ⟨rfl, rfl⟩ := h
      obtain ⟨l, h1, h2⟩ := (readString_iff hb hx).1 hr
      exact .inr ⟨l, t, rfl, h1, h2⟩
    · split at h <;> simp at h
  · rintro (⟨rfl, h⟩ | ⟨l, t, rfl, hi, h⟩)
    · have hx := h.idx
      have h2 := h.2
      simp only [Doc.text, List.length_cons, List.length_nil] at h2
      subst h2
      simp only [stringBytes, hasByte_false h.lt, hx, Res.bind_ok, (validateNull_iff hx).2 h]
      simp
    · have hx := h.idx
      simp only [stringBytes, hasByte_false h.lt, hx, Res.bind_ok, (readString_iff hb hx).2 ⟨l, hi, h⟩]
      simp (decide := true)

/-! ### Numbers -/

theorem fits_iff {k : IKind} {i : Int} : k.fits i = true ↔ InRange k i := by
  unfold IKind.fits InRange
  rw [decide_eq_true_eq]
  cases k <;> simp only [IKind.bits, intMax] <;> omega

theorem hashable_of {v : Val} (h : Hashable v) : v.hashable = true := by
  have hl : ∀ vs : List Val, (∀ v ∈ vs, v.hashable = true) → hashableList vs = true := by
    intro vs hv
    induction vs with
    | nil => rfl
    | cons x xs ih =>
      rw [hashableList, Bool.and_eq_true]
      exact ⟨hv x (by simp), ih fun v hm => hv v (by simp [hm])⟩
  induction h with
  | iface _ ih => simpa [Val.hashable] using ih
  | arr _ ih => rw [Val.hashable]; exact hl _ ih
  | struct _ ih => rw [Val.hashable]; exact hl _ ih
  | _ => simp [Val.hashable]

theorem hashable_to {v : Val} : v.hashable = true → Hashable v :=
  Val.rec (motive_1 := fun v => v.hashable = true → Hashable v) (motive_2 := fun vs => hashableList vs = true → ∀ v ∈ vs, Hashable v)
    (motive_3 := fun _ => True) (motive_4 := fun _ => True)
    (fun _ _ => .bool) (fun _ _ => .int) (fun _ _ => .uint) (fun _ _ => .f32) (fun _ _ => .f64) (fun _ _ => .str)
    (fun h => by simp [Val.hashable] at h) (fun _ _ h => by simp [Val.hashable] at h)
    (fun _ ih h => .arr (ih (by simpa [Val.hashable] using h)))
    (fun h => by simp [Val.hashable] at h) (fun _ _ h => by simp [Val.hashable] at h)
    (fun _ => .ptrNil) (fun _ _ _ => .ptr)
    (fun _ ih h => .struct (ih (by simpa [Val.hashable] using h)))
    (fun _ => .ifaceNil) (fun _ _ ih h => .iface (ih (by simpa [Val.hashable] using h)))
    (fun h => by simp [Val.hashable] at h) (fun _ _ _ h => by simp [Val.hashable] at h)
    (fun _ v hv => by cases hv)
    (fun _ _ ih1 ih2 h v hv => by
      rw [hashableList, Bool.and_eq_true] at h
      rcases List.mem_cons.1 hv with rfl | hv
      · exact ih1 h.1
      · exact ih2 h.2 v hv)
    trivial (fun _ _ _ _ => trivial) (fun _ _ _ _ => trivial) v

theorem ufits_iff {k : UKind} {n : Nat} : n < 2 ^ k.bits ↔ InURange k n := by
  unfold InURange
  cases k <;> simp only [UKind.bits, uintMax] <;> omega

theorem inRange_i64 {k : IKind} {i : Int} (h : InRange k i) : -(2 ^ 63) ≤ i ∧ i < 2 ^ 63 := by
  unfold InRange at h
  cases k <;> simp only [intMax] at h <;> omega

theorem processInt_iff {k : IKind} {t : Bytes} {c c' : Nat} {rv v : Val} :
    processInt k t c rv = (v, .ok c') ↔ c' = c ∧ ∃ i, IntText t i ∧ InRange k i ∧ v = .int i := by
  unfold processInt
  constructor
  · intro h
    split at h
    · rename_i i hi
      rw [iteErr_ok] at h
      obtain ⟨hf, h⟩ := h
      simp only [Prod.mk.injEq, Res.ok.injEq] at h
      simp only [Bool.not_eq_true', Bool.not_eq_false] at hf
      exact ⟨h.2.symm, i, (parseInt64_ok_iff.1 hi).1, fits_iff.1 hf, h.1.symm⟩
    all_goals simp at h
  · rintro ⟨rfl, i, h1, h2, rfl⟩
    rw [parseInt64_ok_iff.2 ⟨h1, inRange_i64 h2⟩]
    simp [fits_iff.2 h2]

theorem parseUintLoop_iff {t : Bytes} {a n : Nat} :
    parseUintLoop t a = some n ↔ (∀ c ∈ t, IsDigit c) ∧ n = a * 10 ^ t.length + digitsVal t := by
  induction t generalizing a with
  | nil => simp [parseUintLoop, digitsVal]; exact eq_comm
  | cons c cs ih =>
    simp only [parseUintLoop]
    split
    · rename_i h
      rw [ih]
      have hd := isDigit_iff.1 h
      rw [digitsVal_cons, digit_sub_toNat hd]
      simp only [List.mem_cons, forall_eq_or_imp, hd, true_and, List.length_cons, Nat.pow_succ]
      have : (10 * a + (c.toNat - 48)) * 10 ^ cs.length + digitsVal cs =
        a * (10 ^ cs.length * 10) + ((c.toNat - 48) * 10 ^ cs.length + digitsVal cs) := by grind
      rw [this]
    · rename_i h
      have hd : ¬ IsDigit c := fun h' => h (isDigit_iff.2 h')
      simp [hd]

theorem parseUint_iff {t : Bytes} {n : Nat} : parseUint t = some n ↔ IsDigits t ∧ n = digitsVal t ∧ n < 2 ^ 64 := by
  unfold parseUint IsDigits
  split
  · rename_i h
    rw [List.isEmpty_iff] at h; subst h; simp
  · rename_i h
    rw [List.isEmpty_iff] at h
    split
    · rename_i hl
      simp only [reduceCtorEq, false_iff]
      rintro ⟨⟨_, h2⟩, _⟩
      rw [parseUintLoop_iff.2 ⟨h2, rfl⟩] at hl
      simp at hl
    · rename_i m hl
      obtain ⟨h1, h2⟩ := parseUintLoop_iff.1 hl
      simp only [Nat.zero_mul, Nat.zero_add] at h2
      subst h2
      simp only [Option.ite_none_right_eq_some, Option.some.injEq]
      constructor
      · rintro ⟨h3, rfl⟩; exact ⟨⟨h, h1⟩, rfl, h3⟩
      · rintro ⟨_, rfl, h3⟩; exact ⟨h3, rfl⟩

theorem processUint_iff {k : UKind} {t : Bytes} {c c' : Nat} {rv v : Val} :
    processUint k t c rv = (v, .ok c') ↔ c' = c ∧ IsDigits t ∧ InURange k (digitsVal t) ∧ v = .uint (digitsVal t) := by
  unfold processUint
  have hk : (2 : Nat) ^ k.bits ≤ 2 ^ 64 := by cases k <;> simp [UKind.bits]
  constructor
  · intro h
    split at h
    · simp at h
    · rename_i n hn
      rw [iteErr_ok] at h
      obtain ⟨hf, h⟩ := h
      obtain ⟨h1, rfl, h3⟩ := parseUint_iff.1 hn
      simp only [Prod.mk.injEq, Res.ok.injEq] at h
      simp [UKind.fits] at hf
      exact ⟨h.2.symm, h1, ufits_iff.1 hf, h.1.symm⟩
  · rintro ⟨rfl, h1, h2, rfl⟩
    replace h2 := ufits_iff.2 h2
    rw [parseUint_iff.2 ⟨h1, rfl, by omega⟩]
    simp [UKind.fits, h2]

theorem floatOfText_iff {W : World} {t : Bytes} {x : UInt64} : floatOfText W t = some x ↔ FloatText W t x := by
  unfold floatOfText
  constructor
  · intro h
    split at h
    · rename_i h'; subst h'; cases h; exact .inf
    split at h
    · rename_i h'; subst h'; cases h; exact .negInf
    split at h
    · rename_i h'; subst h'; cases h; exact .nan
    · exact .parsed ‹_› ‹_› ‹_› h
  · rintro (_ | _ | _ | ⟨h1, h2, h3, h4⟩)
    · rfl
    · rfl
    · rfl
    · unfold infTxt negInfTxt nanTxt; rw [if_neg h1, if_neg h2, if_neg h3, h4]

theorem overflowF32_iff {x : UInt64} : overflowF32 x = false ↔ Fits32 x := by
  unfold overflowF32 Fits32
  dsimp only
  generalize x &&& 0x7FFFFFFFFFFFFFFF = a
  simp only [Bool.and_eq_false_iff, decide_eq_false_iff_not, UInt64.not_lt, gt_iff_lt, UInt64.not_le]
  have : (0x7FEFFFFFFFFFFFFF : UInt64) < a ↔ 0x7FF0000000000000 ≤ a := by
    rw [UInt64.lt_iff_toNat_lt, UInt64.le_iff_toNat_le]
    exact Iff.rfl
  rw [this]

theorem processFloat32_iff {W : World} {t : Bytes} {c c' : Nat} {rv v : Val} :
    processFloat W true t c rv = (v, .ok c') ↔ c' = c ∧ ∃ x, FloatText W t x ∧ Fits32 x ∧ v = .f32 (W.toF32 x) := by
  unfold processFloat
  constructor
  · intro h
    split at h
    · simp at h
    · rename_i x hx
      simp only [if_true, iteErr_ok] at h
      obtain ⟨hf, h⟩ := h
      simp only [Prod.mk.injEq, Res.ok.injEq] at h
      exact ⟨h.2.symm, x, floatOfText_iff.1 hx, overflowF32_iff.1 (by simpa using hf), h.1.symm⟩
  · rintro ⟨rfl, x, h1, h2, rfl⟩
    rw [floatOfText_iff.2 h1]
    simp [overflowF32_iff.2 h2]

theorem processFloat64_iff {W : World} {t : Bytes} {c c' : Nat} {rv v : Val} :
    processFloat W false t c rv = (v, .ok c') ↔ c' = c ∧ ∃ x, FloatText W t x ∧ v = .f64 x := by
  unfold processFloat
  constructor
  · intro h
    split at h
    · simp at h
    · rename_i x hx
      simp only [Bool.false_eq_true, if_false, Prod.mk.injEq, Res.ok.injEq] at h
      exact ⟨h.2.symm, x, floatOfText_iff.1 hx, h.1.symm⟩
  · rintro ⟨rfl, x, h1, rfl⟩
    rw [floatOfText_iff.2 h1]
    simp

/-! ### Scalar decoders -/

theorem intDecode_iff {k : IKind} {b : Bytes} {c c' : Nat} {rv v : Val} :
    intDecode k b c rv = (v, .ok c') ↔ (v = rv ∧ At b c .null c') ∨
      ∃ t i, At b c (.int t) c' ∧ IntText t i ∧ InRange k i ∧ v = .int i := by
  unfold intDecode
  rw [onOk_ok]
  constructor
  · rintro ⟨⟨ob, e⟩, h1, h2⟩
    rcases intBytes_iff.1 h1 with ⟨rfl, h⟩ | ⟨t, rfl, _, h⟩
    · simp only [Prod.mk.injEq, Res.ok.injEq] at h2
      obtain ⟨rfl, rfl⟩ := h2
      exact .inl ⟨rfl, h⟩
    · obtain ⟨rfl, i, h3, h4, rfl⟩ := processInt_iff.1 h2
      exact .inr ⟨t, i, h, h3, h4, rfl⟩
  · rintro (⟨rfl, h⟩ | ⟨t, i, h, h3, h4, rfl⟩)
    · exact ⟨(none, c'), intBytes_iff.2 (.inl ⟨rfl, h⟩), rfl⟩
    · exact ⟨(some t, c'), intBytes_iff.2 (.inr ⟨t, rfl, ⟨i, h3⟩, h⟩), processInt_iff.2 ⟨rfl, i, h3, h4, rfl⟩⟩

theorem uintDecode_iff {k : UKind} {b : Bytes} {c c' : Nat} {rv v : Val} :
    uintDecode k b c rv = (v, .ok c') ↔ (v = rv ∧ At b c .null c') ∨
      ∃ t, At b c (.int t) c' ∧ IsDigits t ∧ InURange k (digitsVal t) ∧ v = .uint (digitsVal t) := by
  unfold uintDecode
  rw [onOk_ok]
  constructor
  · rintro ⟨⟨ob, e⟩, h1, h2⟩
    rcases intBytes_iff.1 h1 with ⟨rfl, h⟩ | ⟨t, rfl, _, h⟩
    · simp only [Prod.mk.injEq, Res.ok.injEq] at h2
      obtain ⟨rfl, rfl⟩ := h2
      exact .inl ⟨rfl, h⟩
    · obtain ⟨rfl, h3, h4, rfl⟩ := processUint_iff.1 h2
      exact .inr ⟨t, h, h3, h4, rfl⟩
  · rintro (⟨rfl, h⟩ | ⟨t, h, h3, h4, rfl⟩)
    · exact ⟨(none, c'), intBytes_iff.2 (.inl ⟨rfl, h⟩), rfl⟩
    · exact ⟨(some t, c'), intBytes_iff.2 (.inr ⟨t, rfl, ⟨_, .pos h3⟩, h⟩), processUint_iff.2 ⟨rfl, h3, h4, rfl⟩⟩

theorem floatDecode32_iff {W : World} {b : Bytes} {c c' : Nat} {rv v : Val} :
    floatDecode W true b c rv = (v, .ok c') ↔ (v = rv ∧ At b c .null c') ∨
      ∃ t x, At b c (.float t) c' ∧ t ≠ [] ∧ (59 : Byte) ∉ t ∧ FloatText W t x ∧ Fits32 x ∧ v = .f32 (W.toF32 x) := by
  unfold floatDecode
  rw [onOk_ok]
  constructor
  · rintro ⟨⟨ob, e⟩, h1, h2⟩
    rcases floatBytes_iff.1 h1 with ⟨rfl, h⟩ | ⟨t, rfl, ha, hb, h⟩
    · simp only [Prod.mk.injEq, Res.ok.injEq] at h2
      obtain ⟨rfl, rfl⟩ := h2
      exact .inl ⟨rfl, h⟩
    · obtain ⟨rfl, x, h3, h4, rfl⟩ := processFloat32_iff.1 h2
      exact .inr ⟨t, x, h, ha, hb, h3, h4, rfl⟩
  · rintro (⟨rfl, h⟩ | ⟨t, x, h, ha, hb, h3, h4, rfl⟩)
    · exact ⟨(none, c'), floatBytes_iff.2 (.inl ⟨rfl, h⟩), rfl⟩
    · exact ⟨(some t, c'), floatBytes_iff.2 (.inr ⟨t, rfl, ha, hb, h⟩), processFloat32_iff.2 ⟨rfl, x, h3, h4, rfl⟩⟩

theorem floatDecode64_iff {W : World} {b : Bytes} {c c' : Nat} {rv v : Val} :
    floatDecode W false b c rv = (v, .ok c') ↔ (v = rv ∧ At b c .null c') ∨
      ∃ t x, At b c (.float t) c' ∧ t ≠ [] ∧ (59 : Byte) ∉ t ∧ FloatText W t x ∧ v = .f64 x := by
  unfold floatDecode
  rw [onOk_ok]
  constructor
  · rintro ⟨⟨ob, e⟩, h1, h2⟩
    rcases floatBytes_iff.1 h1 with ⟨rfl, h⟩ | ⟨t, rfl, ha, hb, h⟩
    · simp only [Prod.mk.injEq, Res.ok.injEq] at h2
      obtain ⟨rfl, rfl⟩ := h2
      exact .inl ⟨rfl, h⟩
    · obtain ⟨rfl, x, h3, rfl⟩ := processFloat64_iff.1 h2
      exact .inr ⟨t, x, h, ha, hb, h3, rfl⟩
  · rintro (⟨rfl, h⟩ | ⟨t, x, h, ha, hb, h3, rfl⟩)
    · exact ⟨(none, c'), floatBytes_iff.2 (.inl ⟨rfl, h⟩), rfl⟩
    · exact ⟨(some t, c'), floatBytes_iff.2 (.inr ⟨t, rfl, ha, hb, h⟩), processFloat64_iff.2 ⟨rfl, x, h3, rfl⟩⟩

theorem stringDecode_iff {b : Bytes} {c c' : Nat} {rv v : Val} (hb : b.length < 2 ^ 63) :
    stringDecode b c rv = (v, .ok c') ↔ (v = rv ∧ At b c .null c') ∨
      ∃ l s, At b c (.str l s) c' ∧ LenText l s.length ∧ v = .str s := by
  unfold stringDecode
  rw [onOk_ok]
  constructor
  · rintro ⟨⟨ob, e⟩, h1, h2⟩
    rcases (stringBytes_iff hb).1 h1 with ⟨rfl, h⟩ | ⟨l, t, rfl, ha, h⟩
    · simp only [Prod.mk.injEq, Res.ok.injEq] at h2
      obtain ⟨rfl, rfl⟩ := h2
      exact .inl ⟨rfl, h⟩
    · simp only [Prod.mk.injEq, Res.ok.injEq] at h2
      obtain ⟨rfl, rfl⟩ := h2
      exact .inr ⟨l, t, h, ha, rfl⟩
  · rintro (⟨rfl, h⟩ | ⟨l, t, h, ha, rfl⟩)
    · exact ⟨(none, c'), (stringBytes_iff hb).2 (.inl ⟨rfl, h⟩), rfl⟩
    · exact ⟨(some t, c'), (stringBytes_iff hb).2 (.inr ⟨l, t, rfl, ha, h⟩), rfl⟩

theorem boolDecode_iff {b : Bytes} {c c' : Nat} {rv v : Val} :
    boolDecode b c rv = (v, .ok c') ↔ (v = rv ∧ At b c .null c') ∨ ∃ x, At b c (.bool x) c' ∧ v = .bool x := by
  constructor
  · intro h
    simp only [boolDecode, iteErr_ok, onOk_ok] at h
    obtain ⟨_, x, hx, h⟩ := h
    split at h
    · simp only [onOk_ok, Prod.mk.injEq, Res.ok.injEq] at h
      obtain ⟨y, hy, rfl, rfl⟩ := h
      exact .inr ⟨y, readBool_iff.1 hy, rfl⟩
    split at h
    · rename_i hx'; subst hx'
      simp only [onOk_ok, Prod.mk.injEq, Res.ok.injEq] at h
      obtain ⟨y, hy, rfl, rfl⟩ := h
      exact .inl ⟨rfl, (validateNull_iff hx).1 hy⟩
    · simp at h
  · rintro (⟨rfl, h⟩ | ⟨x, h, rfl⟩)
    · have hx := h.idx
      have h2 := h.2
      simp only [Doc.text, List.length_cons, List.length_nil] at h2
      subst h2
      simp only [boolDecode, hasByte_false h.lt, hx, onOk_ok_eq, (validateNull_iff hx).2 h]
      simp (decide := true)
    · have hx := h.idx
      have h2 := h.2
      simp only [Doc.text, List.length_cons, List.length_nil] at h2
      subst h2
      simp only [boolDecode, hasByte_false h.lt, hx, onOk_ok_eq, readBool_iff.2 h]
      simp (decide := true)

/-! ### `,string` -/

theorem parseBool_iff {s : Bytes} {v : Bool} : parseBool s = some v ↔ BoolText s v := by
  unfold parseBool BoolText
  simp only [List.mem_cons, List.not_mem_nil, or_false]
  constructor
  · intro h
    split at h
    · cases h; exact .inl ⟨rfl, ‹_›⟩
    split at h
    · cases h; exact .inr ⟨rfl, ‹_›⟩
    · simp at h
  · rintro (⟨rfl, h⟩ | ⟨rfl, h⟩)
    · rw [if_pos h]
    · rw [if_neg, if_pos h]
      rcases h with rfl | rfl | rfl | rfl | rfl | rfl <;> decide

theorem decodeString_iff {W : World} {t : Ty} {s : Bytes} {c c' : Nat} {rv v : Val} (hs : wrappable W t = true) :
    decodeString W t s c rv = (v, .ok c') ↔ c' = c ∧ ScalarText W t s v := by
  unfold wrappable at hs
  unfold decodeString
  cases hu : W.unmOf t with
  | some id => simp [hu] at hs
  | none =>
    constructor
    · intro h
      cases hr : W.resolve t <;> simp only [hr, hu, Bool.false_eq_true] at hs h
      case bool =>
        split at h
        · rename_i x hx
          simp only [Prod.mk.injEq, Res.ok.injEq] at h
          obtain ⟨rfl, rfl⟩ := h
          exact ⟨rfl, .bool ⟨hu, hr⟩ (parseBool_iff.1 hx)⟩
        · simp at h
      case int k =>
        obtain ⟨rfl, i, h1, h2, rfl⟩ := processInt_iff.1 h
        exact ⟨rfl, .int ⟨hu, hr⟩ h1 h2⟩
      case uint k =>
        obtain ⟨rfl, h1, h2, rfl⟩ := processUint_iff.1 h
        exact ⟨rfl, .uint ⟨hu, hr⟩ h1 h2⟩
      case f32 =>
        obtain ⟨rfl, x, h1, h2, rfl⟩ := processFloat32_iff.1 h
        exact ⟨rfl, .f32 ⟨hu, hr⟩ h1 h2⟩
      case f64 =>
        obtain ⟨rfl, x, h1, rfl⟩ := processFloat64_iff.1 h
        exact ⟨rfl, .f64 ⟨hu, hr⟩ h1⟩
    · rintro ⟨rfl, h⟩
      cases h with
      | bool hp h => simp only [hp.2, parseBool_iff.2 h]
      | int hp h1 h2 => simp only [hp.2]; exact processInt_iff.2 ⟨rfl, _, h1, h2, rfl⟩
      | uint hp h1 h2 => simp only [hp.2]; exact processUint_iff.2 ⟨rfl, h1, h2, rfl⟩
      | f32 hp h1 h2 => simp only [hp.2]; exact processFloat32_iff.2 ⟨rfl, _, h1, h2, rfl⟩
      | f64 hp h1 => simp only [hp.2]; exact processFloat64_iff.2 ⟨rfl, _, h1, rfl⟩

theorem wrappedDecode_iff {W : World} {t : Ty} {b : Bytes} {c c' : Nat} {rv v : Val} (hb : b.length < 2 ^ 63)
    (hs : wrappable W t = true) :
    wrappedDecode W t b c rv = (v, .ok c') ↔ ∃ d, At b c d c' ∧ Wrapped W t d rv v := by
  unfold wrappedDecode
  rw [onOk_ok]
  constructor
  · rintro ⟨⟨ob, e⟩, h1, h2⟩
    rcases (stringBytes_iff hb).1 h1 with ⟨rfl, h⟩ | ⟨l, s, rfl, ha, h⟩
    · simp only [Prod.mk.injEq, Res.ok.injEq] at h2
      obtain ⟨rfl, rfl⟩ := h2
      exact ⟨_, h, .null (wrappable_iff.1 hs)⟩
    · dsimp only at h2
      rcases hd : decodeString W t s c rv with ⟨rv', r⟩
      rw [hd] at h2
      simp only [onOk_ok, Prod.mk.injEq, Res.ok.injEq] at h2
      obtain ⟨x, rfl, rfl, rfl⟩ := h2
      exact ⟨_, h, .str ha ((decodeString_iff hs).1 hd).2⟩
  · rintro ⟨d, h, hw⟩
    cases hw with
    | null _ => exact ⟨(none, c'), (stringBytes_iff hb).2 (.inl ⟨rfl, h⟩), rfl⟩
    | @str l s _ _ ha hw =>
      refine ⟨(some s, c'), (stringBytes_iff hb).2 (.inr ⟨l, s, rfl, ha, h⟩), ?_⟩
      dsimp only
      rw [(decodeString_iff hs).2 ⟨rfl, hw⟩]
      simp

end Verif

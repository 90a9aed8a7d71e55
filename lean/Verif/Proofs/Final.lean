import Verif.Spec.Errors
import Verif.Proofs.DecSafe
import Verif.Model.Unmarshal
/-
Two runs of the decoder: on `b` and on a longer input `b ++ p`. They end in the same way unless the first one ran out of
input.
-/
namespace Verif
open Spec

variable {b p : Bytes} {c depth : Nat}

/-- The second outcome is the first, if the first is a value, a panic, or an error other than running out of `b`. -/
def Ext (b : Bytes) {α} (r r' : Res α) : Prop :=
  match r with
  | .ok a => r' = .ok a
  | .err e => RanOut b e ∨ r' = .err e
  | .panic q => r' = .panic q
  | .diverge => True

/-- The same for an outcome with the destination's value. -/
def ExtD (b : Bytes) (x x' : DR) : Prop :=
  match x.2 with
  | .ok _ => x' = x
  | .err e => RanOut b e ∨ x' = x
  | .panic _ => x' = x
  | .diverge => True

theorem Ext.rfl {α} {r : Res α} : Ext b r r := by cases r <;> simp [Ext]
theorem ExtD.rfl {x : DR} : ExtD b x x := by obtain ⟨v, r⟩ := x; cases r <;> simp [ExtD]

theorem ext_end {α} {w : String} {o : Int} {r : Res α} : Ext b (.err (.unexpectedEnd w o)) r := .inl trivial
theorem extD_end {w : String} {o : Int} {v : Val} {x : DR} : ExtD b (v, .err (.unexpectedEnd w o)) x := .inl trivial

theorem ext_bind {α β} {r r' : Res α} {f f' : α → Res β} (h : Ext b r r') (hf : ∀ a, r = .ok a → Ext b (f a) (f' a)) :
    Ext b (r >>= f) (r' >>= f') := by
  cases r with
  | ok a => simp only [Ext] at h; subst h; exact hf a (Eq.refl _)
  | err e => rcases h with h | h
             · exact .inl h
             · subst h; exact .inr (Eq.refl _)
  | panic q => simp only [Ext] at h; subst h; exact Eq.refl _
  | diverge => trivial

theorem ext_onOk {α} {r r' : Res α} {rv : Val} {f f' : α → DR} (h : Ext b r r') (hf : ∀ a, r = .ok a → ExtD b (f a) (f' a)) :
    ExtD b (onOk rv r f) (onOk rv r' f') := by
  cases r with
  | ok a => simp only [Ext] at h; subst h; exact hf a (Eq.refl _)
  | err e => rcases h with h | h
             · exact .inl h
             · subst h; exact .inr (Eq.refl _)
  | panic q => simp only [Ext] at h; subst h; exact Eq.refl _
  | diverge => trivial

/-- What two related outcomes can be. -/
@[elab_as_elim] theorem extD_elim {x x' : DR} {motive : DR → DR → Prop} (h : ExtD b x x') (ok : ∀ v c, x = (v, .ok c) → motive (v, .ok c) (v, .ok c))
    (ran : ∀ v e y, RanOut b e → motive (v, .err e) y) (err : ∀ v e, motive (v, .err e) (v, .err e))
    (panic : ∀ v q, motive (v, .panic q) (v, .panic q)) (diverge : ∀ v y, motive (v, .diverge) y) : motive x x' := by
  obtain ⟨v, r⟩ := x
  cases r with
  | ok a => simp only [ExtD] at h; subst h; exact ok v a (Eq.refl _)
  | err e => rcases h with h | h
             · exact ran _ _ _ h
             · subst h; exact err _ _
  | panic q => simp only [ExtD] at h; subst h; exact panic _ _
  | diverge => exact diverge _ _

theorem extD_ran {v : Val} {e : Err} {y : DR} (h : RanOut b e) : ExtD b (v, .err e) y := .inl h
theorem extD_div {v : Val} {y : DR} : ExtD b (v, .diverge) y := trivial

theorem ext_ite {α} {q : Prop} [Decidable q] {x y x' y' : Res α} (h1 : q → Ext b x x') (h2 : ¬ q → Ext b y y') :
    Ext b (if q then x else y) (if q then x' else y') := by
  split
  · exact h1 ‹_›
  · exact h2 ‹_›

theorem extD_ite {q : Prop} [Decidable q] {x y x' y' : DR} (h1 : q → ExtD b x x') (h2 : ¬ q → ExtD b y y') :
    ExtD b (if q then x else y) (if q then x' else y') := by
  split
  · exact h1 ‹_›
  · exact h2 ‹_›

theorem has_app (h : c < b.length) : hasByte (b ++ p) c = true := by simp [hasByte]; omega

theorem ext_has {α} {w : String} {o : Int} {x x' z : Res α} (h : c < b.length → Ext b x x') :
    Ext b (if !hasByte b c then .err (.unexpectedEnd w o) else x) (if !hasByte (b ++ p) c then z else x') := by
  by_cases hc : c < b.length
  · rw [has_app hc, show hasByte b c = true by simp [hasByte, hc]]
    exact h hc
  · rw [show hasByte b c = false by simp [hasByte, hc]]
    exact ext_end

theorem extD_depth {v : Val} {o : Int} (hc : c < b.length) : ExtD b (v, .err (.maxDepth (byteAt b c) o)) (v, .err (.maxDepth (byteAt (b ++ p) c) o)) := by
  unfold byteAt
  rw [List.getElem?_append_left hc]
  exact .rfl

theorem extD_has {w : String} {o : Int} {v : Val} {x x' z : DR} (h : c < b.length → ExtD b x x') :
    ExtD b (if !hasByte b c then (v, .err (.unexpectedEnd w o)) else x) (if !hasByte (b ++ p) c then z else x') := by
  by_cases hc : c < b.length
  · rw [has_app hc, show hasByte b c = true by simp [hasByte, hc]]
    exact h hc
  · rw [show hasByte b c = false by simp [hasByte, hc]]
    exact extD_end

theorem ext_hasBytes {α} {w : String} {o i n : Int} {x x' z : Res α} (h : 0 ≤ i → 0 ≤ n → i ≤ (b.length : Int) - n → Ext b x x') :
    Ext b (if !hasBytes b i n then .err (.unexpectedEnd w o) else x) (if !hasBytes (b ++ p) i n then z else x') := by
  by_cases hc : 0 ≤ i ∧ 0 ≤ n ∧ i ≤ (b.length : Int) - n
  · rw [show hasBytes (b ++ p) i n = true by simp [hasBytes]; omega, show hasBytes b i n = true by simp [hasBytes]; omega]
    exact h hc.1 hc.2.1 hc.2.2
  · rw [show hasBytes b i n = false by simp [hasBytes]; omega]
    exact ext_end

theorem idx_app {i : Nat} (h : i < b.length) : idx (b ++ p) i = idx b i := by simp [idx, List.getElem?_append_left h]

theorem ext_idx {i : Nat} (h : i < b.length) : Ext b (idx b i) (idx (b ++ p) i) := by rw [idx_app h]; exact .rfl

theorem sub_app {i j : Nat} (h : j ≤ b.length) : sub (b ++ p) i j = sub b i j := by
  unfold sub
  by_cases hi : i ≤ j
  · rw [if_pos ⟨hi, by simp; omega⟩, if_pos ⟨hi, h⟩, List.drop_append_of_le_length (by omega), List.take_append_of_le_length (by simp; omega)]
  · rw [if_neg (by omega), if_neg (by omega)]

theorem scan_app {q : Byte → Bool} {l p : Bytes} (h : spanLen q l < l.length) : spanLen q (l ++ p) = spanLen q l := by
  induction l with
  | nil => simp at h
  | cons x l ih =>
    simp only [List.cons_append, spanLen]
    split
    · rename_i hq
      simp only [spanLen, hq, if_true, List.length_cons] at h
      rw [ih (by omega)]
    · rfl

theorem scanDigits_app (h : scanDigits b c < b.length) : scanDigits (b ++ p) c = scanDigits b c := by
  unfold scanDigits at *
  by_cases hc : c ≤ b.length
  · rw [List.drop_append_of_le_length hc, scan_app (by simp; omega)]
  · omega

theorem scanToSemi_app (h : scanToSemi b c < b.length) : scanToSemi (b ++ p) c = scanToSemi b c := by
  unfold scanToSemi at *
  by_cases hc : c ≤ b.length
  · rw [List.drop_append_of_le_length hc, scan_app (by simp; omega)]
  · omega

/-! ### Reading -/

theorem skipLen_ext : Ext b (skipLengthWithBothColon b c) (skipLengthWithBothColon (b ++ p) c) := by
  unfold skipLengthWithBothColon
  refine ext_has fun hc => ?_
  refine ext_bind (ext_idx hc) fun x hx => ?_
  refine ext_ite (fun _ => .rfl) fun _ => ?_
  dsimp only
  by_cases hs : scanDigits b (c + 1) < b.length
  · rw [scanDigits_app hs]
    refine ext_ite (fun _ => .rfl) fun _ => ?_
    refine ext_has fun hc => ?_
    refine ext_bind (ext_idx hc) fun x hx => ?_
    exact ext_ite (fun _ => .rfl) fun _ => .rfl
  · have hle := scanDigits_le (b := b) (c := c + 1) (by omega)
    have he : scanDigits b (c + 1) = b.length := by omega
    split
    · exact .inl ⟨by rw [he], .inl (Eq.refl _)⟩
    · rw [if_pos (by simp [hasByte]; omega)]
      exact ext_end

theorem readLength_ext : Ext b (readLength b c) (readLength (b ++ p) c) := by
  unfold readLength
  refine ext_bind skipLen_ext fun e he => ?_
  obtain ⟨ds, -, hd, h3⟩ := skipLen_sound he
  have := len_of_drop hd
  simp only [List.length_cons, List.length_append, List.length_drop] at this
  rw [sub_app (by omega)]
  exact .rfl

theorem readLength_lt {n : Int} {c' : Nat} (h : readLength b c = .ok (n, c')) : 0 ≤ n ∧ c' ≤ b.length := by
  obtain ⟨ds, m, -, rfl, h2, h3⟩ := readLength_sound h
  have := len_of_drop h2
  simp only [List.length_cons, List.length_append, List.length_drop] at this
  omega

theorem skipClassName_ext : Ext b (skipClassName b c) (skipClassName (b ++ p) c) := by
  unfold skipClassName
  refine ext_has fun hc => ?_
  refine ext_bind (ext_idx hc) fun x hx => ?_
  refine ext_ite (fun _ => .rfl) fun _ => ?_
  refine ext_bind readLength_ext ?_
  rintro ⟨n, st⟩ hn
  refine ext_has fun hc => ?_
  refine ext_bind (ext_idx hc) fun x hx => ?_
  refine ext_ite (fun _ => .rfl) fun _ => ?_
  dsimp only
  generalize wrap64 (st + n + 1) = e
  refine ext_hasBytes fun h1 h2 h3 => ?_
  refine ext_bind (ext_idx (by omega)) fun x hx => ?_
  refine ext_ite (fun _ => .rfl) fun _ => ?_
  refine ext_bind (ext_idx (by omega)) fun x hx => ?_
  exact ext_ite (fun _ => .rfl) fun _ => .rfl

theorem readString_ext (hb : b.length < 2 ^ 63) : Ext b (readString b c) (readString (b ++ p) c) := by
  unfold readString
  refine ext_bind readLength_ext ?_
  rintro ⟨n, e⟩ hn
  obtain ⟨ds, m, hl, rfl, -, -⟩ := readLength_sound hn
  refine ext_has fun hc => ?_
  refine ext_bind (ext_idx hc) fun x hx => ?_
  refine ext_ite (fun _ => .rfl) fun _ => ?_
  dsimp only
  have hm2 := hl.2.2
  have hw : 0 ≤ wrap64 ((m : Int) + 2) → wrap64 ((m : Int) + 2) = (m : Int) + 2 := by
    intro h0
    refine wrap64_of_range (by omega) (Int.not_le.1 fun hge => ?_)
    have := wrap64_over hge (by omega); omega
  generalize wrap64 ((m : Int) + 2) = w at hw
  refine ext_hasBytes fun h1 h2 h3 => ?_
  have hw := hw (by omega)
  refine ext_bind (ext_idx (by omega)) fun x hx => ?_
  refine ext_ite (fun _ => .rfl) fun _ => ?_
  refine ext_bind (ext_idx (by omega)) fun x hx => ?_
  refine ext_ite (fun _ => .rfl) fun _ => ?_
  rw [sub_app (by omega)]
  exact .rfl

theorem readIntegerBytes_ext : Ext b (readIntegerBytes b c) (readIntegerBytes (b ++ p) c) := by
  unfold readIntegerBytes
  refine ext_has fun hc => ?_
  refine ext_bind (ext_idx hc) fun x hx => ?_
  refine ext_ite (fun _ => .rfl) fun _ => ?_
  refine ext_hasBytes fun h1 h2 h3 => ?_
  refine ext_bind (ext_idx (by omega)) fun x hx => ?_
  refine ext_ite (fun _ => .rfl) fun _ => ?_
  dsimp only
  refine ext_bind (ext_idx (by omega)) fun x hx => ?_
  generalize hd : (if x = cMinus then c + 2 + 1 else c + 2) = d
  have hd' : d ≤ b.length := by split at hd <;> omega
  by_cases hs : scanDigits b d < b.length
  · rw [scanDigits_app hs]
    refine ext_ite (fun _ => .rfl) fun _ => ?_
    refine ext_has fun hc => ?_
    refine ext_bind (ext_idx hc) fun x hx => ?_
    refine ext_ite (fun _ => .rfl) fun _ => ?_
    rw [sub_app (by omega)]
    exact .rfl
  · have hle := scanDigits_le (b := b) (c := d) hd'
    have he : scanDigits b d = b.length := by omega
    split
    · exact .inl ⟨by rw [he], .inr (Eq.refl _)⟩
    · rw [if_pos (by simp [hasByte]; omega)]
      exact ext_end

theorem readFloatBytes_ext : Ext b (readFloatBytes b c) (readFloatBytes (b ++ p) c) := by
  unfold readFloatBytes
  refine ext_has fun hc => ?_
  refine ext_bind (ext_idx hc) fun x hx => ?_
  refine ext_ite (fun _ => .rfl) fun _ => ?_
  refine ext_hasBytes fun h1 h2 h3 => ?_
  refine ext_bind (ext_idx (by omega)) fun x hx => ?_
  refine ext_ite (fun _ => .rfl) fun _ => ?_
  dsimp only
  by_cases hs : scanToSemi b (c + 2) < b.length
  · rw [scanToSemi_app hs]
    refine ext_ite (fun _ => .rfl) fun _ => ?_
    refine ext_has fun hc => ?_
    rw [sub_app (by omega)]
    exact .rfl
  · rw [if_neg (by omega), if_pos (by simp [hasByte]; omega)]
    exact ext_end

theorem readBool_ext : Ext b (readBool b c) (readBool (b ++ p) c) := by
  unfold readBool
  refine ext_hasBytes fun h1 h2 h3 => ?_
  refine ext_bind (ext_idx (by omega)) fun x hx => ?_
  refine ext_ite (fun _ => .rfl) fun _ => ?_
  refine ext_bind (ext_idx (by omega)) fun x hx => ?_
  refine ext_ite (fun _ => .rfl) fun _ => ?_
  refine ext_bind (ext_idx (by omega)) fun x hx => ?_
  refine ext_ite (fun _ => .rfl) fun _ => ?_
  dsimp only
  refine ext_bind (ext_idx (by omega)) fun x hx => ?_
  exact .rfl

theorem validateNull_ext : Ext b (validateNull b c) (validateNull (b ++ p) c) := by
  unfold validateNull
  by_cases h : c + 1 ≥ b.length
  · rw [if_pos h]; exact ext_end
  rw [if_neg h, if_neg (by simp; omega), idx_app (by omega)]
  exact .rfl

theorem validateEmptyArray_ext : Ext b (validateEmptyArray b c) (validateEmptyArray (b ++ p) c) := by
  unfold validateEmptyArray
  by_cases h : c + 4 > b.length
  · rw [if_pos h]; exact ext_end
  rw [if_neg h, if_neg (by simp; omega), idx_app (by omega), idx_app (by omega), idx_app (by omega)]
  exact .rfl

theorem readInt_ext : Ext b (readInt b c) (readInt (b ++ p) c) := by
  unfold readInt
  exact ext_bind readIntegerBytes_ext fun _ _ => .rfl

/-! ### Skipping -/

theorem skipPairs_ext {s s' : Nat → Res Nat} (h : ∀ c, Ext b (s c) (s' c)) {n c : Nat} : Ext b (skipPairs s n c) (skipPairs s' n c) := by
  induction n generalizing c with
  | zero => exact .rfl
  | succ n ih =>
    unfold skipPairs
    exact ext_bind (h _) fun _ _ => ext_bind (h _) fun _ _ => ih

theorem skipArray_ext {s s' : Nat → Res Nat} (h : ∀ c, Ext b (s c) (s' c)) : Ext b (skipArray s b c depth) (skipArray s' (b ++ p) c depth) := by
  unfold skipArray
  refine ext_ite (fun _ => .rfl) fun _ => ?_
  refine ext_bind readLength_ext ?_
  rintro ⟨n, e⟩ hn
  refine ext_has fun hc => ?_
  refine ext_bind (ext_idx hc) fun x hx => ?_
  refine ext_ite (fun _ => .rfl) fun _ => ?_
  refine ext_bind (skipPairs_ext h) fun c1 _ => ?_
  refine ext_has fun hc => ?_
  rw [idx_app hc]
  exact .rfl

theorem skipValueF_ext (hb : b.length < 2 ^ 63) {f f' c depth : Nat} (hf : f ≤ f') : Ext b (skipValueF f b c depth) (skipValueF f' (b ++ p) c depth) := by
  induction f generalizing f' c depth with
  | zero => trivial
  | succ f ih =>
    obtain ⟨f', rfl⟩ : ∃ g, f' = g + 1 := ⟨f' - 1, by omega⟩
    unfold skipValueF
    refine ext_has fun hc => ?_
    refine ext_bind (ext_idx hc) fun x hx => ?_
    refine ext_ite (fun _ => ext_bind skipClassName_ext fun _ _ => skipArray_ext fun c => ih (by omega)) fun _ => ?_
    refine ext_ite (fun _ => skipArray_ext fun c => ih (by omega)) fun _ => ?_
    refine ext_ite (fun _ => ?_) fun _ => ?_
    · unfold skipString
      refine ext_has fun hc => ?_
      refine ext_bind (ext_idx hc) fun x hx => ?_
      refine ext_ite (fun _ => .rfl) fun _ => ?_
      exact ext_bind (readString_ext hb) fun _ _ => .rfl
    refine ext_ite (fun _ => ext_bind readFloatBytes_ext fun _ _ => .rfl) fun _ => ?_
    refine ext_ite (fun _ => ext_bind readIntegerBytes_ext fun _ _ => .rfl) fun _ => ?_
    refine ext_ite (fun _ => ext_bind readBool_ext fun _ _ => .rfl) fun _ => ?_
    refine ext_ite (fun _ => ext_bind validateNull_ext fun _ _ => .rfl) fun _ => ?_
    exact .rfl

theorem skipValue_ext (hb : b.length < 2 ^ 63) : Ext b (skipValue b c depth) (skipValue (b ++ p) c depth) :=
  skipValueF_ext hb (by simp)

/-! ### Decoding -/

theorem intBytes_ext : Ext b (intBytes b c) (intBytes (b ++ p) c) := by
  unfold intBytes
  refine ext_has fun hc => ?_
  refine ext_bind (ext_idx hc) fun x hx => ?_
  refine ext_ite (fun _ => ext_bind validateNull_ext fun _ _ => .rfl) fun _ => ?_
  exact ext_bind readIntegerBytes_ext fun _ _ => .rfl

theorem intDecode_ext {k : IKind} {rv : Val} : ExtD b (intDecode k b c rv) (intDecode k (b ++ p) c rv) := by
  unfold intDecode
  exact ext_onOk intBytes_ext fun _ _ => .rfl

theorem uintDecode_ext {k : UKind} {rv : Val} : ExtD b (uintDecode k b c rv) (uintDecode k (b ++ p) c rv) := by
  unfold uintDecode
  exact ext_onOk intBytes_ext fun _ _ => .rfl

theorem floatDecode_ext {W : World} {k : Bool} {rv : Val} : ExtD b (floatDecode W k b c rv) (floatDecode W k (b ++ p) c rv) := by
  unfold floatDecode
  refine ext_onOk ?_ fun _ _ => .rfl
  unfold floatBytes
  refine ext_has fun hc => ?_
  refine ext_bind (ext_idx hc) fun x hx => ?_
  refine ext_ite (fun _ => ext_bind validateNull_ext fun _ _ => .rfl) fun _ => ?_
  exact ext_ite (fun _ => ext_bind readFloatBytes_ext fun _ _ => .rfl) fun _ => .rfl

theorem boolDecode_ext {rv : Val} : ExtD b (boolDecode b c rv) (boolDecode (b ++ p) c rv) := by
  unfold boolDecode
  refine extD_has fun hc => ?_
  refine ext_onOk (ext_idx hc) fun x hx => ?_
  refine extD_ite (fun _ => ext_onOk readBool_ext fun _ _ => .rfl) fun _ => ?_
  exact extD_ite (fun _ => ext_onOk validateNull_ext fun _ _ => .rfl) fun _ => .rfl

theorem stringBytes_ext (hb : b.length < 2 ^ 63) : Ext b (stringBytes b c) (stringBytes (b ++ p) c) := by
  unfold stringBytes
  refine ext_has fun hc => ?_
  refine ext_bind (ext_idx hc) fun x hx => ?_
  refine ext_ite (fun _ => ext_bind validateNull_ext fun _ _ => .rfl) fun _ => ?_
  refine ext_ite (fun _ => .rfl) fun _ => ?_
  refine ext_ite (fun _ => .rfl) fun _ => ?_
  refine ext_ite (fun _ => ext_bind (readString_ext hb) fun _ _ => .rfl) fun _ => ?_
  exact .rfl

theorem stringDecode_ext (hb : b.length < 2 ^ 63) {rv : Val} : ExtD b (stringDecode b c rv) (stringDecode (b ++ p) c rv) := by
  unfold stringDecode
  exact ext_onOk (stringBytes_ext hb) fun _ _ => .rfl

theorem wrappedDecode_ext (hb : b.length < 2 ^ 63) {W : World} {t : Ty} {rv : Val} : ExtD b (wrappedDecode W t b c rv) (wrappedDecode W t (b ++ p) c rv) := by
  unfold wrappedDecode
  exact ext_onOk (stringBytes_ext hb) fun _ _ => .rfl

/-- A value built around the result of a nested decoder. -/
theorem extD_map {x x' : DR} (g : Val → Val) (h : ExtD b x x') :
    ExtD b (match x with | (v, r) => (g v, r)) (match x' with | (v, r) => (g v, r)) := by
  obtain ⟨v, r⟩ := x
  cases r with
  | ok a => simp only [ExtD] at h; subst h; exact .rfl
  | err e => rcases h with h | h
             · exact .inl h
             · subst h; exact .rfl
  | panic q => simp only [ExtD] at h; subst h; exact .rfl
  | diverge => trivial

theorem extD_wrap {x x' : DR} {rv : Val} (g : Val → Val) (h : ExtD b x x') :
    ExtD b (match x with | (v, r) => onOk rv r fun c => (g v, .ok c)) (match x' with | (v, r) => onOk rv r fun c => (g v, .ok c)) := by
  show ExtD b (onOk rv x.2 fun c => (g x.1, .ok c)) (onOk rv x'.2 fun c => (g x'.1, .ok c))
  exact extD_elim h (fun _ _ _ => .rfl) (fun _ _ _ h => extD_ran h) (fun _ _ => .rfl) (fun _ _ => .rfl) (fun _ _ => extD_div)

theorem ptrDecode_ext {i i' : Nat → Nat → Val → DR} {z rv : Val} (hc : c < b.length) (hi : ∀ v, ExtD b (i c depth v) (i' c depth v)) :
    ExtD b (ptrDecode i z b c depth rv) (ptrDecode i' z (b ++ p) c depth rv) := by
  unfold ptrDecode
  refine ext_onOk (ext_idx hc) fun x hx => ?_
  refine extD_ite (fun _ => ext_onOk validateNull_ext fun _ _ => .rfl) fun _ => ?_
  cases rv with
  | ptrNil => exact extD_map (fun v => .ptr v) (hi z)
  | ptr v => exact extD_map (fun v => .ptr v) (hi v)
  | _ => exact .rfl

theorem sliceLoop_ext {d d' : Nat → Val → DR} {z : Val} {es : Nat} (hd : ∀ c v, c < b.length → ExtD b (d c v) (d' c v))
    {f f' c : Nat} {slice : List Val} {rv : Val} (hf : f ≤ f') : ExtD b (sliceLoop d z es b f c slice rv) (sliceLoop d' z es (b ++ p) f' c slice rv) := by
  induction f generalizing f' c slice rv with
  | zero => trivial
  | succ f ih =>
    obtain ⟨f', rfl⟩ : ∃ g, f' = g + 1 := ⟨f' - 1, by omega⟩
    unfold sliceLoop
    refine extD_has fun hc => ?_
    refine ext_onOk readInt_ext ?_
    rintro ⟨i, c1⟩ h1
    refine extD_has fun hc1 => ?_
    dsimp only
    refine extD_ite (fun _ => .rfl) fun _ => ?_
    generalize (if decide (i ≥ slice.length) then slice ++ List.replicate (i + 1 - slice.length) z else slice) = sl
    cases sl[i]? with
    | none => exact .rfl
    | some v0 =>
      dsimp only
      refine extD_elim (hd _ _ hc1) (fun v c2 hx => ?_) (fun _ _ _ h => extD_ran h) (fun _ _ => .rfl) (fun _ _ => .rfl) (fun _ _ => extD_div)
      refine extD_has fun hc2 => ?_
      refine ext_onOk (ext_idx hc2) fun x hx => ?_
      exact extD_ite (fun _ => .rfl) fun _ => ih (by omega)

theorem sliceDecode_ext {d d' : Nat → Nat → Val → DR} {z rv : Val} {es : Nat} (hd : ∀ c v, depth + 1 ≤ maxDepth → c < b.length → ExtD b (d c (depth + 1) v) (d' c (depth + 1) v)) :
    ExtD b (sliceDecode d z es b c depth rv) (sliceDecode d' z es (b ++ p) c depth rv) := by
  unfold sliceDecode
  refine extD_has fun hc => ?_
  refine extD_ite (fun _ => extD_depth hc) fun _ => ?_
  refine ext_onOk (ext_idx hc) fun x hx => ?_
  refine extD_ite (fun _ => ext_onOk validateNull_ext fun _ _ => .rfl) fun _ => ?_
  refine extD_ite (fun _ => ?_) fun _ => .rfl
  refine extD_has fun hc => ?_
  refine ext_onOk (ext_idx hc) fun x hx => ?_
  refine extD_ite (fun _ => .rfl) fun _ => ?_
  refine extD_has fun hc => ?_
  refine ext_onOk (ext_idx hc) fun x hx => ?_
  refine extD_ite (fun _ => ext_onOk validateEmptyArray_ext fun _ _ => .rfl) fun _ => ?_
  refine ext_onOk readLength_ext ?_
  rintro ⟨n, c1⟩ h1
  refine extD_has fun hc => ?_
  refine ext_onOk (ext_idx hc) fun x hx => ?_
  refine extD_ite (fun _ => .rfl) fun _ => ?_
  refine extD_ite (fun _ => .rfl) fun _ => ?_
  exact sliceLoop_ext (fun c v => hd c v (by omega)) (by simp)

theorem bytesDecode_ext (hb : b.length < 2 ^ 63) (hc : c < b.length) {d d' : Nat → Nat → Val → DR} {z rv : Val}
    (hd : ∀ c v, depth + 1 ≤ maxDepth → c < b.length → ExtD b (d c (depth + 1) v) (d' c (depth + 1) v)) :
    ExtD b (bytesDecode d z b c depth rv) (bytesDecode d' z (b ++ p) c depth rv) := by
  unfold bytesDecode
  refine ext_onOk (ext_idx hc) fun x hx => ?_
  refine extD_ite (fun _ => sliceDecode_ext hd) fun _ => ?_
  exact ext_onOk (stringBytes_ext hb) fun _ _ => .rfl

theorem arrayLoop_ext {d d' : Nat → Val → DR} {s s' : Nat → Res Nat} (hd : ∀ c v, c < b.length → ExtD b (d c v) (d' c v))
    (hs : ∀ c, Ext b (s c) (s' c)) {f f' c : Nat} {vs : List Val} (hf : f ≤ f') :
    ExtD b (arrayLoop d s b f c vs) (arrayLoop d' s' (b ++ p) f' c vs) := by
  induction f generalizing f' c vs with
  | zero => trivial
  | succ f ih =>
    obtain ⟨f', rfl⟩ : ∃ g, f' = g + 1 := ⟨f' - 1, by omega⟩
    unfold arrayLoop
    refine extD_has fun hc => ?_
    refine ext_onOk readInt_ext ?_
    rintro ⟨i, c1⟩ h1
    refine extD_has fun hc1 => ?_
    dsimp only
    cases vs[i]? with
    | none =>
      refine ext_onOk (hs c1) fun c2 hx => ?_
      refine extD_has fun hc2 => ?_
      refine ext_onOk (ext_idx hc2) fun x hx => ?_
      exact extD_ite (fun _ => .rfl) fun _ => ih (by omega)
    | some v0 =>
      dsimp only
      refine extD_elim (hd _ _ hc1) (fun v c2 hx => ?_) (fun _ _ _ h => extD_ran h) (fun _ _ => .rfl) (fun _ _ => .rfl) (fun _ _ => extD_div)
      refine extD_has fun hc2 => ?_
      refine ext_onOk (ext_idx hc2) fun x hx => ?_
      exact extD_ite (fun _ => .rfl) fun _ => ih (by omega)

theorem arrayDecode_ext (hb : b.length < 2 ^ 63) {d d' : Nat → Nat → Val → DR} {z rv : Val} {n : Nat}
    (hd : ∀ c v, depth + 1 ≤ maxDepth → c < b.length → ExtD b (d c (depth + 1) v) (d' c (depth + 1) v)) :
    ExtD b (arrayDecode d z n b c depth rv) (arrayDecode d' z n (b ++ p) c depth rv) := by
  unfold arrayDecode
  refine extD_has fun hc => ?_
  refine extD_ite (fun _ => extD_depth hc) fun _ => ?_
  refine ext_onOk (ext_idx hc) fun x hx => ?_
  refine extD_ite (fun _ => ext_onOk validateNull_ext fun _ _ => .rfl) fun _ => ?_
  refine extD_ite (fun _ => ?_) fun _ => .rfl
  refine extD_has fun hc => ?_
  refine ext_onOk (ext_idx hc) fun x hx => ?_
  refine extD_ite (fun _ => .rfl) fun _ => ?_
  refine extD_has fun hc => ?_
  refine ext_onOk (ext_idx hc) fun x hx => ?_
  refine extD_ite (fun _ => ext_onOk validateEmptyArray_ext fun _ _ => .rfl) fun _ => ?_
  refine ext_onOk readLength_ext ?_
  rintro ⟨n, c1⟩ h1
  refine extD_has fun hc => ?_
  refine ext_onOk (ext_idx hc) fun x hx => ?_
  refine extD_ite (fun _ => .rfl) fun _ => ?_
  exact arrayLoop_ext (fun c v => hd c v (by omega)) (fun c => skipValue_ext hb) (by simp)

theorem mapLoop_ext {k k' v v' : Nat → DR} (hk : ∀ c, c < b.length → ExtD b (k c) (k' c)) (hv : ∀ c, c < b.length → ExtD b (v c) (v' c))
    {f f' c : Nat} {es : List (Val × Val)} (hf : f ≤ f') : ExtD b (mapLoop k v b f c es) (mapLoop k' v' (b ++ p) f' c es) := by
  induction f generalizing f' c es with
  | zero => trivial
  | succ f ih =>
    obtain ⟨f', rfl⟩ : ∃ g, f' = g + 1 := ⟨f' - 1, by omega⟩
    unfold mapLoop
    refine extD_has fun hc => ?_
    refine extD_elim (hk _ hc) (fun kv c1 hx => ?_) (fun _ _ _ h => extD_ran h) (fun _ _ => .rfl) (fun _ _ => .rfl) (fun _ _ => extD_div)
    refine extD_has fun hc1 => ?_
    refine extD_elim (hv _ hc1) (fun vv c2 hx => ?_) (fun _ _ _ h => extD_ran h) (fun _ _ => .rfl) (fun _ _ => .rfl) (fun _ _ => extD_div)
    refine extD_ite (fun _ => .rfl) fun _ => ?_
    refine extD_has fun hc2 => ?_
    refine ext_onOk (ext_idx hc2) fun x hx => ?_
    exact extD_ite (fun _ => .rfl) fun _ => ih (by omega)

theorem mapDecode_ext {k k' v v' : Nat → Nat → DR} {rv : Val} (hk : ∀ c, depth + 1 ≤ maxDepth → c < b.length → ExtD b (k c (depth + 1)) (k' c (depth + 1)))
    (hv : ∀ c, depth + 1 ≤ maxDepth → c < b.length → ExtD b (v c (depth + 1)) (v' c (depth + 1))) :
    ExtD b (mapDecode k v b c depth rv) (mapDecode k' v' (b ++ p) c depth rv) := by
  unfold mapDecode
  refine extD_has fun hc => ?_
  refine extD_ite (fun _ => extD_depth hc) fun _ => ?_
  refine ext_onOk (ext_idx hc) fun x hx => ?_
  refine extD_ite (fun _ => ext_onOk validateNull_ext fun _ _ => .rfl) fun _ => ?_
  refine ext_onOk (ext_ite (fun _ => ext_bind skipClassName_ext fun _ _ => .rfl) fun _ => .rfl) fun c1 h1 => ?_
  refine ext_onOk readLength_ext ?_
  rintro ⟨n, c2⟩ h2
  refine extD_has fun hc => ?_
  refine ext_onOk (ext_idx hc) fun x hx => ?_
  refine extD_ite (fun _ => .rfl) fun _ => ?_
  cases mapEntries rv with
  | none => exact .rfl
  | some es =>
    refine extD_has fun hc => ?_
    refine ext_onOk (ext_idx hc) fun x hx => ?_
    exact extD_ite (fun _ => .rfl) fun _ => mapLoop_ext (fun c => hk c (by omega)) (fun c => hv c (by omega)) (by simp)

theorem anyKey_ext (hb : b.length < 2 ^ 63) (hc : c < b.length) : ExtD b (anyKeyDecode b c) (anyKeyDecode (b ++ p) c) := by
  unfold anyKeyDecode
  refine ext_onOk (ext_idx hc) fun x hx => ?_
  refine extD_ite (fun _ => extD_wrap (fun v => .iface .str v) (stringDecode_ext hb)) fun _ => ?_
  exact extD_ite (fun _ => extD_wrap (fun v => .iface (.int .i64) v) intDecode_ext) fun _ => .rfl

theorem anyDecode_ext (hb : b.length < 2 ^ 63) (hc : c < b.length) {W : World} {a a' : Nat → Nat → DR} {rv : Val}
    (ha : ∀ c, depth + 1 ≤ maxDepth → c < b.length → ExtD b (a c (depth + 1)) (a' c (depth + 1))) :
    ExtD b (anyDecode W a b c depth rv) (anyDecode W a' (b ++ p) c depth rv) := by
  have m1 := mapDecode_ext (p := p) (c := c) (depth := depth) (rv := .mapNil) (k := fun c _ => stringDecode b c (.str [])) (k' := fun c _ => stringDecode (b ++ p) c (.str []))
    (fun c _ hc => stringDecode_ext hb) ha
  have m2 := mapDecode_ext (p := p) (c := c) (depth := depth) (rv := .mapNil) (k := fun c _ => anyKeyDecode b c) (k' := fun c _ => anyKeyDecode (b ++ p) c)
    (fun c _ hc => anyKey_ext hb hc) ha
  unfold anyDecode
  refine ext_onOk (ext_idx hc) fun x hx => ?_
  refine extD_ite (fun _ => extD_wrap (fun v => .iface (.map .str .any) v) m1) fun _ => ?_
  refine extD_ite (fun _ => extD_wrap (fun v => .iface (.map .any .any) v) m2) fun _ => ?_
  refine extD_ite (fun _ => extD_wrap (fun v => .iface .f64 v) floatDecode_ext) fun _ => ?_
  refine extD_ite (fun _ => ext_onOk (readString_ext hb) fun _ _ => .rfl) fun _ => ?_
  refine extD_ite (fun _ => extD_wrap (fun v => .iface (.int .i64) v) intDecode_ext) fun _ => ?_
  refine extD_ite (fun _ => ext_onOk readBool_ext fun _ _ => .rfl) fun _ => ?_
  exact extD_ite (fun _ => ext_onOk validateNull_ext fun _ _ => .rfl) fun _ => .rfl

theorem unmarshalDecode_ext (hb : b.length < 2 ^ 63) (hd : depth ≤ maxDepth) {W : World} {id : Nat} {rv : Val} :
    ExtD b (unmarshalDecode W id b c depth rv) (unmarshalDecode W id (b ++ p) c depth rv) := by
  simp only [unmarshalDecode_eq]
  refine ext_onOk (skipValue_ext hb) fun e he => ?_
  have := (skip_progress hb hd he).2
  rw [sub_app this]
  exact .rfl

theorem ifaceDecode_ext (hb : b.length < 2 ^ 63) (hd : depth ≤ maxDepth) (hc : c < b.length) {W : World} {rv : Val} :
    ExtD b (ifaceDecode W b c depth rv) (ifaceDecode W (b ++ p) c depth rv) := by
  unfold ifaceDecode
  split
  · simp only [dynDecode_eq]
    refine ext_onOk (skipValue_ext hb) fun e he => ?_
    have := (skip_progress hb hd he).2
    rw [sub_app this]
    exact .rfl
  · refine ext_onOk (ext_idx hc) fun x hx => ?_
    exact extD_ite (fun _ => ext_onOk validateNull_ext fun _ _ => .rfl) fun _ => .rfl

theorem structLoop_ext (hb : b.length < 2 ^ 63) {sets : List FieldSet} {d d' : FieldSet → Nat → Val → DR} {s s' : Nat → Res Nat}
    (hd : ∀ fs c v, c < b.length → ExtD b (d fs c v) (d' fs c v)) (hs : ∀ c, Ext b (s c) (s' c)) {f f' c : Nat} {vs : List Val} (hf : f ≤ f') :
    ExtD b (structLoop sets d s b f c vs) (structLoop sets d' s' (b ++ p) f' c vs) := by
  induction f generalizing f' c vs with
  | zero => trivial
  | succ f ih =>
    obtain ⟨f', rfl⟩ : ∃ g, f' = g + 1 := ⟨f' - 1, by omega⟩
    unfold structLoop
    refine extD_has fun hc => ?_
    refine ext_onOk (ext_bind (stringBytes_ext hb) fun _ _ => .rfl) ?_
    rintro ⟨fld, c1⟩ h1
    refine extD_has fun hc1 => ?_
    cases fld with
    | none =>
      refine ext_onOk (hs c1) fun c2 hx => ?_
      refine extD_has fun hc2 => ?_
      refine ext_onOk (ext_idx hc2) fun x hx => ?_
      exact extD_ite (fun _ => .rfl) fun _ => ih (by omega)
    | some st =>
      dsimp only
      cases vs[st.idx]? with
      | none => exact .rfl
      | some v0 =>
        dsimp only
        refine extD_elim (hd _ _ _ hc1) (fun v c2 hx => ?_) (fun _ _ _ h => extD_ran h) (fun _ _ => .rfl) (fun _ _ => .rfl) (fun _ _ => extD_div)
        refine extD_has fun hc2 => ?_
        refine ext_onOk (ext_idx hc2) fun x hx => ?_
        exact extD_ite (fun _ => .rfl) fun _ => ih (by omega)

theorem structDecode_ext (hb : b.length < 2 ^ 63) {sets : List FieldSet} {d d' : FieldSet → Nat → Nat → Val → DR} {rv : Val}
    (hd : ∀ fs c v, depth + 1 ≤ maxDepth → c < b.length → ExtD b (d fs c (depth + 1) v) (d' fs c (depth + 1) v)) :
    ExtD b (structDecode sets d b c depth rv) (structDecode sets d' (b ++ p) c depth rv) := by
  unfold structDecode
  refine extD_has fun hc => ?_
  refine extD_ite (fun _ => extD_depth hc) fun _ => ?_
  refine ext_onOk (ext_idx hc) fun x hx => ?_
  refine extD_ite (fun _ => ext_onOk validateNull_ext fun _ _ => .rfl) fun _ => ?_
  refine ext_onOk (ext_ite (fun _ => ext_bind skipClassName_ext fun _ _ => .rfl) fun _ => .rfl) fun c1 h1 => ?_
  refine extD_has fun hc => ?_
  refine ext_onOk (ext_idx hc) fun x hx => ?_
  refine extD_ite (fun _ => .rfl) fun _ => ?_
  refine ext_onOk skipLen_ext fun c2 h2 => ?_
  refine extD_has fun hc => ?_
  refine ext_onOk (ext_idx hc) fun x hx => ?_
  refine extD_ite (fun _ => .rfl) fun _ => ?_
  refine extD_has fun hc => ?_
  refine ext_onOk (ext_idx hc) fun x hx => ?_
  refine extD_ite (fun _ => .rfl) fun _ => ?_
  cases rv with
  | struct vs => exact structLoop_ext hb (fun fs c v => hd fs c v (by omega)) (fun c => skipValue_ext hb) (by simp)
  | _ => exact .rfl

theorem ptrKey_ext (hc : c < b.length) {x x' : DR} (h : ExtD b x x') : ExtD b (ptrKeyDecode x b c) (ptrKeyDecode x' (b ++ p) c) := by
  unfold ptrKeyDecode
  refine ext_onOk (ext_idx hc) fun y hy => ?_
  refine extD_ite (fun _ => ext_onOk validateNull_ext fun _ _ => .rfl) fun _ => ?_
  exact extD_elim h (fun _ _ _ => .rfl) (fun _ _ _ h => extD_ran h) (fun _ _ => .rfl) (fun _ _ => .rfl) (fun _ _ => extD_div)

theorem keyDecode_ext (hb : b.length < 2 ^ 63) (hd : depth ≤ maxDepth) (hc : c < b.length) {W : World} {a a' : Nat → Nat → DR} {k : Ty}
    (ha : ∀ c, depth + 1 ≤ maxDepth → c < b.length → ExtD b (a c (depth + 1)) (a' c (depth + 1))) :
    ExtD b (keyDecode W a b k c depth) (keyDecode W a' (b ++ p) k c depth) := by
  unfold keyDecode
  cases W.unmOf k with
  | some id => exact unmarshalDecode_ext hb hd
  | none =>
    dsimp only
    cases W.resolve k with
    | str => exact stringDecode_ext hb
    | bool => exact boolDecode_ext
    | int kd => exact intDecode_ext
    | uint kd => exact uintDecode_ext
    | any => exact anyDecode_ext hb hc ha
    | iface i => exact ifaceDecode_ext hb hd hc
    | ptr e =>
      dsimp only
      cases W.unmOf e with
      | some _ => exact .rfl
      | none =>
        dsimp only
        cases W.resolve e with
        | str => exact ptrKey_ext hc (stringDecode_ext hb)
        | bool => exact ptrKey_ext hc boolDecode_ext
        | int kd => exact ptrKey_ext hc intDecode_ext
        | uint kd => exact ptrKey_ext hc uintDecode_ext
        | any => exact ptrKey_ext hc (anyDecode_ext hb hc ha)
        | iface i => exact ptrKey_ext hc (anyDecode_ext hb hc ha)
        | _ => exact .rfl
    | _ => exact .rfl

theorem fieldDecode_ext (hb : b.length < 2 ^ 63) (hc : c < b.length) {W : World} {r r' : Ty → Nat → Nat → Val → DR} {s : FieldSet} {rv : Val}
    (hr : ∀ t v, ExtD b (r t c depth v) (r' t c depth v)) : ExtD b (fieldDecode W r b s c depth rv) (fieldDecode W r' (b ++ p) s c depth rv) := by
  unfold fieldDecode
  refine extD_ite (fun _ => ?_) fun _ => hr _ _
  cases W.resolve s.ty with
  | ptr e => exact extD_ite (fun _ => ptrDecode_ext hc fun v => wrappedDecode_ext hb) fun _ => .rfl
  | _ => exact extD_ite (fun _ => wrappedDecode_ext hb) fun _ => .rfl

theorem decodeNonPtr_ext (hb : b.length < 2 ^ 63) (hd : depth ≤ maxDepth) (hc : c < b.length) {W : World} {r r' : Ty → Nat → Nat → Val → DR} {t : Ty} {rv : Val}
    (hr : ∀ t c depth v, depth ≤ maxDepth → c < b.length → ExtD b (r t c depth v) (r' t c depth v)) :
    ExtD b (decodeNonPtr W r b t c depth rv) (decodeNonPtr W r' (b ++ p) t c depth rv) := by
  unfold decodeNonPtr
  cases W.unmOf t with
  | some id => exact unmarshalDecode_ext hb hd
  | none =>
    dsimp only
    cases W.resolve t with
    | str => exact stringDecode_ext hb
    | bool => exact boolDecode_ext
    | int kd => exact intDecode_ext
    | uint kd => exact uintDecode_ext
    | f32 => exact floatDecode_ext
    | f64 => exact floatDecode_ext
    | slice e =>
      exact extD_ite (fun _ => bytesDecode_ext hb hc fun c v h1 hc => hr _ _ _ _ h1 hc) fun _ =>
        sliceDecode_ext fun c v h1 hc => hr _ _ _ _ h1 hc
    | array n e => exact arrayDecode_ext hb fun c v h1 hc => hr _ _ _ _ h1 hc
    | map k v =>
      exact mapDecode_ext (fun c h1 hc => keyDecode_ext hb h1 hc fun c h2 hc => hr _ _ _ _ h2 hc) fun c h1 hc => hr _ _ _ _ h1 hc
    | struct id => exact structDecode_ext hb fun fs c v h1 hc => fieldDecode_ext hb hc fun t v => hr _ _ _ _ h1 hc
    | any => exact anyDecode_ext hb hc fun c h1 hc => hr _ _ _ _ h1 hc
    | iface i => exact ifaceDecode_ext hb hd hc
    | _ => exact .rfl

/-- Decoding a longer input does the same, unless the shorter one ended too early. -/
theorem decodeF_ext (hb : b.length < 2 ^ 63) {W : World} {f f' : Nat} (hf : f ≤ f') {t : Ty} {c depth : Nat} {rv : Val} (hd : depth ≤ maxDepth)
    (hc : c < b.length) : ExtD b (decodeF W b f t c depth rv) (decodeF W (b ++ p) f' t c depth rv) := by
  induction f generalizing f' t c depth rv with
  | zero => trivial
  | succ f ih =>
    obtain ⟨f', rfl⟩ : ∃ g, f' = g + 1 := ⟨f' - 1, by omega⟩
    have hn : ∀ t rv, ExtD b (decodeNonPtr W (decodeF W b f) b t c depth rv) (decodeNonPtr W (decodeF W (b ++ p) f') (b ++ p) t c depth rv) :=
      fun t rv => decodeNonPtr_ext hb hd hc fun t c depth v h1 h2 => ih (by omega) h1 h2
    unfold decodeF
    split
    · exact extD_ite (fun _ => .rfl) fun _ => ptrDecode_ext hc fun v => hn _ v
    · exact hn t rv

/-- An outcome other than success, and other than an error that says that the input ended, stays if more input follows. -/
theorem unmarshalInto_ext {W : World} {fuel : Nat} {data rest : Bytes} {t : Ty} {v v' : Val} {r : Res Unit} (hb : data.length < 2 ^ 63)
    (hl : ¬ data.length = 0) (h : unmarshalInto W fuel data t v = (v', r)) (hok : r ≠ .ok ()) (hdv : r ≠ .diverge)
    (he : ∀ e, r = .err e → ¬ RanOut data e) : unmarshalInto W fuel (data ++ rest) t v = (v', r) := by
  simp only [unmarshalInto] at h ⊢
  cases hcm : compileD W fuel [] t with
  | ok u =>
    rw [hcm] at h
    simp only [onOk] at h ⊢
    have hx := decodeF_ext (p := rest) hb (W := W) (t := t) (c := 0) (depth := 0) (rv := v) (f := data.length + 1)
      (f' := (data ++ rest).length + 1) (by simp) (by decide) (by omega)
    generalize hd : decodeF W data (data.length + 1) t 0 0 v = x at h hx
    generalize decodeF W (data ++ rest) ((data ++ rest).length + 1) t 0 0 v = x' at hx ⊢
    obtain ⟨v1, r1⟩ := x
    cases r1 with
    | ok c =>
      simp only [ExtD] at hx
      subst hx
      simp only [validateEndBuf] at h ⊢
      by_cases hcl : data.length = c
      · rw [if_pos hcl] at h
        cases h
        exact absurd (Eq.refl _) hok
      · obtain ⟨d, hat, -⟩ := decodeF_sound hb (by decide) hd
        have hle := hat.le
        rw [if_neg hcl] at h
        rw [if_neg (by simp only [List.length_append]; omega), idx_app (by omega)]
        exact h
    | err e' =>
      cases h
      rcases hx with hx | hx
      · exact absurd hx (he _ (Eq.refl _))
      · subst hx
        exact Eq.refl _
    | panic q =>
      simp only [ExtD] at hx
      subst hx
      exact h
    | diverge =>
      cases h
      exact absurd (Eq.refl _) hdv
  | err e' => rw [hcm] at h; exact h
  | panic q => rw [hcm] at h; exact h
  | diverge => rw [hcm] at h; exact h

theorem unmarshal_ext {W : World} {fuel : Nat} {data rest : Bytes} {dst : Dst} {o : Option Val} {r : Res Unit} (hb : data.length < 2 ^ 63)
    (h : unmarshal W fuel data dst = (o, r)) (hok : r ≠ .ok ()) (hdv : r ≠ .diverge) (he : ∀ e, r = .err e → ¬ RanOut data e) :
    unmarshal W fuel (data ++ rest) dst = (o, r) := by
  unfold unmarshal at h ⊢
  by_cases hl : data.length = 0
  · simp only [hl, if_true, Prod.mk.injEq] at h
    obtain ⟨-, rfl⟩ := h
    exact absurd trivial (he _ (Eq.refl _))
  have hl' : ¬ (data ++ rest).length = 0 := by simp only [List.length_append]; omega
  simp only [hl, hl', if_false] at h ⊢
  cases dst with
  | ptr t v =>
    dsimp only at h ⊢
    generalize hu : unmarshalInto W fuel data t v = x at h
    obtain ⟨v1, r1⟩ := x
    cases h
    rw [unmarshalInto_ext hb hl hu hok hdv he]
  | _ => exact h

end Verif

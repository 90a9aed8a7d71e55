import Verif.Proofs.DecComplete
import Verif.Spec.Typing
/-
Every run of a decoder ends, keeps its destination well-typed, and panics only where `Hazards` says so.
-/
set_option linter.unusedSimpArgs false
namespace Verif
open Spec

/-! ### Outcomes -/

theorem safe_of_returns {α : Type} {P : Panic → Prop} {r : Res α} (h : r.Returns) : Safe P r := by
  cases r <;> simp_all [Safe, Res.Returns]

/-- The destination satisfies `T` and the outcome is a result, an error or a panic in `P`. -/
def Good {β : Type} (T : Val → Prop) (P : Panic → Prop) (r : Val × Res β) : Prop := T r.1 ∧ Safe P r.2

theorem good_err {β : Type} {T : Val → Prop} {P : Panic → Prop} {v : Val} {e : Err} (h : T v) : Good (β := β) T P (v, .err e) :=
  ⟨h, trivial⟩

theorem good_ok {β : Type} {T : Val → Prop} {P : Panic → Prop} {v : Val} {a : β} (h : T v) : Good T P (v, .ok a) := ⟨h, trivial⟩

theorem good_panic {β : Type} {T : Val → Prop} {P : Panic → Prop} {v : Val} {p : Panic} (h : T v) (hp : P p) :
    Good (β := β) T P (v, .panic p) := ⟨h, hp⟩

theorem good_onOk {α β : Type} {T : Val → Prop} {P : Panic → Prop} {v : Val} {r : Res α} {k : α → Val × Res β} (h : T v)
    (hr : Safe P r) (hk : ∀ x, r = .ok x → Good T P (k x)) : Good T P (onOk v r k) := by
  cases r with
  | ok a => exact hk a rfl
  | err e => exact ⟨h, trivial⟩
  | panic p => exact ⟨h, hr⟩
  | diverge => exact hr.elim

theorem good_ite {β : Type} {T : Val → Prop} {P : Panic → Prop} {c : Prop} [Decidable c] {x y : Val × Res β}
    (hx : c → Good T P x) (hy : ¬ c → Good T P y) : Good T P (if c then x else y) := by
  split
  · exact hx ‹_›
  · exact hy ‹_›

theorem idx_safe {P : Panic → Prop} {b : Bytes} {c : Nat} (h : c < b.length) : Safe P (idx b c) := safe_of_returns (idx_returns h)

theorem lt_of_hasByte {b : Bytes} {c : Nat} (h : ¬ (!hasByte b c) = true) : c < b.length := by
  simpa [hasByte] using h

theorem inRange_zero (k : IKind) : InRange k 0 := by cases k <;> simp [InRange, intMax]

/-! ### Scanners -/

theorem intBytes_returns (b : Bytes) (c : Nat) : (intBytes b c).Returns := by
  unfold intBytes
  refine Res.returns_ite (fun _ => trivial) fun h => ?_
  refine Res.returns_bind (idx_returns (lt_of_hasByte h)) fun x _ => ?_
  refine Res.returns_ite (fun _ => ?_) fun _ => ?_
  · exact Res.returns_bind (validateNull_returns _ _) fun _ _ => trivial
  · exact Res.returns_bind (readIntegerBytes_returns _ _) fun _ _ => trivial

theorem floatBytes_returns (b : Bytes) (c : Nat) : (floatBytes b c).Returns := by
  unfold floatBytes
  refine Res.returns_ite (fun _ => trivial) fun h => ?_
  refine Res.returns_bind (idx_returns (lt_of_hasByte h)) fun x _ => ?_
  refine Res.returns_ite (fun _ => ?_) fun _ => Res.returns_ite (fun _ => ?_) fun _ => trivial
  · exact Res.returns_bind (validateNull_returns _ _) fun _ _ => trivial
  · exact Res.returns_bind (readFloatBytes_returns _ _) fun _ _ => trivial

theorem stringBytes_returns (b : Bytes) (c : Nat) : (stringBytes b c).Returns := by
  unfold stringBytes
  refine Res.returns_ite (fun _ => trivial) fun h => ?_
  refine Res.returns_bind (idx_returns (lt_of_hasByte h)) fun x _ => ?_
  refine Res.returns_ite (fun _ => ?_) fun _ => Res.returns_ite (fun _ => trivial) fun _ => Res.returns_ite (fun _ => trivial) fun _ =>
    Res.returns_ite (fun _ => ?_) fun _ => Res.returns_ite (fun _ => trivial) fun _ => trivial
  · exact Res.returns_bind (validateNull_returns _ _) fun _ _ => trivial
  · exact Res.returns_bind (readString_returns _ _) fun _ _ => trivial

theorem decodeKey_returns (sets : List FieldSet) (b : Bytes) (c : Nat) : (decodeKey sets b c).Returns := by
  unfold decodeKey
  exact Res.returns_bind (stringBytes_returns _ _) fun _ _ => trivial

theorem header_returns (b : Bytes) (c : Nat) (x : Byte) (e : Err) :
    (if x = cO then skipClassName b c >>= fun e => .ok (e + 1) else if x = ca then .ok (c + 1) else .err e : Res Nat).Returns := by
  refine Res.returns_ite (fun _ => ?_) fun _ => Res.returns_ite (fun _ => trivial) fun _ => trivial
  exact Res.returns_bind (skipClassName_returns _ _) fun _ _ => trivial

/-! ### Scalars -/

section Scalars
variable {W : World} {D : Ty → Prop} {P : Panic → Prop} {t : Ty} {b : Bytes} {c : Nat} {rv : Val}

theorem processInt_good {k : IKind} {s : Bytes} (ht : W.resolve t = .int k) (h : HasTy W D t rv) :
    Good (HasTy W D t) P (processInt k s c rv) := by
  unfold processInt
  have hr := parseInt64_returns s
  cases hp : parseInt64 s with
  | ok i =>
    refine good_ite (fun _ => good_err h) fun hf => good_ok ?_
    exact .int ht (fits_iff.1 (by simpa using hf))
  | err e => exact good_err h
  | panic p => rw [hp] at hr; exact hr.elim
  | diverge => rw [hp] at hr; exact hr.elim

theorem intDecode_good {k : IKind} (ht : W.resolve t = .int k) (h : HasTy W D t rv) :
    Good (HasTy W D t) P (intDecode k b c rv) := by
  unfold intDecode
  refine good_onOk h (safe_of_returns (intBytes_returns _ _)) ?_
  rintro ⟨ob, c'⟩ _
  cases ob with
  | none => exact good_ok h
  | some s => exact processInt_good ht h

theorem processUint_good {k : UKind} {s : Bytes} (ht : W.resolve t = .uint k) (h : HasTy W D t rv) :
    Good (HasTy W D t) P (processUint k s c rv) := by
  unfold processUint
  cases hp : parseUint s with
  | none => exact good_err h
  | some n =>
    refine good_ite (fun _ => good_err h) fun hf => good_ok ?_
    exact .uint ht (ufits_iff.1 (by simpa [UKind.fits] using hf))

theorem uintDecode_good {k : UKind} (ht : W.resolve t = .uint k) (h : HasTy W D t rv) :
    Good (HasTy W D t) P (uintDecode k b c rv) := by
  unfold uintDecode
  refine good_onOk h (safe_of_returns (intBytes_returns _ _)) ?_
  rintro ⟨ob, c'⟩ _
  cases ob with
  | none => exact good_ok h
  | some s => exact processUint_good ht h

theorem processFloat32_good {s : Bytes} (ht : W.resolve t = .f32) (h : HasTy W D t rv) :
    Good (HasTy W D t) P (processFloat W true s c rv) := by
  unfold processFloat
  cases floatOfText W s with
  | none => exact good_err h
  | some x => exact good_ite (fun _ => good_ite (fun _ => good_err h) fun _ => good_ok (.f32 ht)) (by simp)

theorem processFloat64_good {s : Bytes} (ht : W.resolve t = .f64) (h : HasTy W D t rv) :
    Good (HasTy W D t) P (processFloat W false s c rv) := by
  unfold processFloat
  cases floatOfText W s with
  | none => exact good_err h
  | some x => exact good_ite (by simp) fun _ => good_ok (.f64 ht)

theorem floatDecode32_good (ht : W.resolve t = .f32) (h : HasTy W D t rv) :
    Good (HasTy W D t) P (floatDecode W true b c rv) := by
  unfold floatDecode
  refine good_onOk h (safe_of_returns (floatBytes_returns _ _)) ?_
  rintro ⟨ob, c'⟩ _
  cases ob with
  | none => exact good_ok h
  | some s => exact processFloat32_good ht h

theorem floatDecode64_good (ht : W.resolve t = .f64) (h : HasTy W D t rv) :
    Good (HasTy W D t) P (floatDecode W false b c rv) := by
  unfold floatDecode
  refine good_onOk h (safe_of_returns (floatBytes_returns _ _)) ?_
  rintro ⟨ob, c'⟩ _
  cases ob with
  | none => exact good_ok h
  | some s => exact processFloat64_good ht h

theorem boolDecode_good (ht : W.resolve t = .bool) (h : HasTy W D t rv) : Good (HasTy W D t) P (boolDecode b c rv) := by
  unfold boolDecode
  refine good_ite (fun _ => good_err h) fun hc => ?_
  refine good_onOk h (idx_safe (lt_of_hasByte hc)) fun x _ => ?_
  refine good_ite (fun _ => ?_) fun _ => good_ite (fun _ => ?_) fun _ => good_err h
  · exact good_onOk h (safe_of_returns (readBool_returns _ _)) fun _ _ => good_ok (.bool ht)
  · exact good_onOk h (safe_of_returns (validateNull_returns _ _)) fun _ _ => good_ok h

theorem stringDecode_good (ht : W.resolve t = .str) (h : HasTy W D t rv) : Good (HasTy W D t) P (stringDecode b c rv) := by
  unfold stringDecode
  refine good_onOk h (safe_of_returns (stringBytes_returns _ _)) ?_
  rintro ⟨ob, c'⟩ _
  cases ob with
  | none => exact good_ok h
  | some s => exact good_ok (.str ht)

theorem decodeString_good {s : Bytes} (ht : wrappable W t = true) (h : HasTy W D t rv) :
    Good (HasTy W D t) P (decodeString W t s c rv) := by
  unfold decodeString
  have hw := wrappable_iff.1 ht
  rcases hw with hw | ⟨k, hw⟩ | ⟨k, hw⟩ | hw | hw
  all_goals simp only [hw.2]
  · cases parseBool s with
    | none => exact good_err h
    | some v => exact good_ok (.bool hw.2)
  · exact processInt_good hw.2 h
  · exact processUint_good hw.2 h
  · exact processFloat32_good hw.2 h
  · exact processFloat64_good hw.2 h

theorem wrappedDecode_good (ht : wrappable W t = true) (h : HasTy W D t rv) :
    Good (HasTy W D t) P (wrappedDecode W t b c rv) := by
  unfold wrappedDecode
  refine good_onOk h (safe_of_returns (stringBytes_returns _ _)) ?_
  rintro ⟨ob, c'⟩ _
  cases ob with
  | none => exact good_ok h
  | some s =>
    have hd := decodeString_good (P := P) (c := c) (s := s) ht h
    dsimp only
    rcases hx : decodeString W t s c rv with ⟨v, r⟩
    rw [hx] at hd
    exact good_onOk hd.1 hd.2 fun _ _ => good_ok hd.1

end Scalars

/-! ### Pointers and containers -/

theorem ptrDecode_good {W : World} {D : Ty → Prop} {P : Panic → Prop} {t e : Ty} {b : Bytes} {c depth : Nat} {rv z : Val}
    {inner : Nat → Nat → Val → DR} (ht : W.resolve t = .ptr e) (hc : c < b.length) (h : HasTy W D t rv)
    (hz : HasTy W D e z) (hi : ∀ v, HasTy W D e v → Good (HasTy W D e) P (inner c depth v)) :
    Good (HasTy W D t) P (ptrDecode inner z b c depth rv) := by
  unfold ptrDecode
  refine good_onOk h (idx_safe hc) fun x _ => ?_
  refine good_ite (fun _ => ?_) fun _ => ?_
  · exact good_onOk h (safe_of_returns (validateNull_returns _ _)) fun _ _ => good_ok (.ptrNil ht)
  · cases h with
    | @ptr _ e' v0 h1 h2 =>
      rw [ht] at h1; cases h1
      have := hi _ h2
      exact ⟨.ptr ht this.1, this.2⟩
    | ptrNil =>
      have := hi _ hz
      exact ⟨.ptr ht this.1, this.2⟩
    | _ => simp_all

theorem infix_of_drop {b ds r : Bytes} {c : Nat} {p : Bytes} (h : b.drop c = p ++ ds ++ r) : ds <:+: b :=
  ⟨b.take c ++ p, r, by rw [List.append_assoc, List.append_assoc, ← List.append_assoc p, ← h, List.take_append_drop]⟩

theorem makeSliceOk_false {es i : Nat} (hi : i < 2 ^ 63) (h : makeSliceOk es (wrap64 ((i : Int) + 1)) = false) :
    2 ^ 48 < es * (i + 1) ∨ 2 ^ 63 ≤ i + 1 := by
  by_cases hlt : i + 1 < 2 ^ 63
  · left
    have hw : wrap64 ((i : Int) + 1) = ((i + 1 : Nat) : Int) := by
      unfold wrap64
      omega
    rw [hw] at h
    simp [makeSliceOk] at h
    have : maxAlloc = 2 ^ 48 := rfl
    omega
  · right; omega

theorem oversized_of_int {es i c : Nat} {b txt r : Bytes} (h : IntText txt (i : Int)) (_ : i < 2 ^ 63)
    (hd : b.drop c = 105 :: 58 :: (txt ++ 59 :: r)) (ho : 2 ^ 48 < es * (i + 1) ∨ 2 ^ 63 ≤ i + 1) : Oversized es b := by
  generalize hj : (i : Int) = j at h
  cases h with
  | pos h =>
    refine ⟨txt, h, infix_of_drop (c := c) (p := [105, 58]) (r := 59 :: r) (by rw [hd]; simp), ?_⟩
    have : digitsVal txt = i := by omega
    rw [this]; exact ho
  | @neg ds h =>
    refine ⟨ds, h, infix_of_drop (c := c) (p := [105, 58, 45]) (r := 59 :: r) (by rw [hd]; simp), ?_⟩
    have : digitsVal ds = i := by omega
    rw [this]; exact ho

theorem oversized_of_len {es m c e : Nat} {b cnt : Bytes} (h : LenText cnt m) (hd : b.drop c = 58 :: (cnt ++ 58 :: b.drop e))
    (ho : makeSliceOk es (m : Int) = false) : Oversized es b := by
  refine ⟨cnt, h.1, infix_of_drop (c := c) (p := [58]) (r := 58 :: b.drop e) (by rw [hd]; simp), .inl ?_⟩
  rw [h.2.1]
  simp [makeSliceOk] at ho
  have := Nat.mul_add es m 1
  have : maxAlloc = 2 ^ 48 := rfl
  omega

theorem sliceLoop_good {T : Val → Prop} {E : Val → Prop} {P : Panic → Prop} {b : Bytes} {dec : Nat → Val → DR} {z : Val}
    {es lo : Nat} (hz : E z) (hT : ∀ vs, (∀ v ∈ vs, E v) → T (.slice vs)) (hP : Oversized es b → P .makeSlice)
    (hdec : ∀ c v, lo ≤ c → c < b.length → E v → Good E P (dec c v))
    (hprog : ∀ c v v' c', lo ≤ c → dec c v = (v', .ok c') → c < c' ∧ c' ≤ b.length) {f c : Nat} {sl : List Val} {rv : Val}
    (hf : b.length < c + f) (hc : c ≤ b.length) (hlo : lo ≤ c) (hsl : ∀ v ∈ sl, E v) (hrv : T rv) :
    Good T P (sliceLoop dec z es b f c sl rv) := by
  induction f generalizing c sl rv with
  | zero => omega
  | succ f ih =>
    unfold sliceLoop
    refine good_ite (fun _ => good_err hrv) fun hc1 => ?_
    refine good_onOk hrv (safe_of_returns (readInt_returns _ _)) ?_
    rintro ⟨i, c1⟩ hri
    obtain ⟨txt, ht1, hlt63, htd, hlt⟩ := readInt_sound hri
    refine good_ite (fun _ => good_err hrv) fun hc2 => ?_
    refine good_ite (fun hg => good_panic hrv (hP (oversized_of_int ht1 hlt63 htd ?_))) fun _ => ?_
    · simp only [Bool.and_eq_true, Bool.not_eq_true'] at hg
      exact makeSliceOk_false (by omega) hg.2
    have hsl' : ∀ v ∈ (if decide (i ≥ sl.length) = true then sl ++ List.replicate (i + 1 - sl.length) z else sl), E v := by
      split
      · intro v hv
        rcases List.mem_append.1 hv with hv | hv
        · exact hsl v hv
        · rw [(List.mem_replicate.1 hv).2]; exact hz
      · exact hsl
    have hlen : i < (if decide (i ≥ sl.length) = true then sl ++ List.replicate (i + 1 - sl.length) z else sl).length := by
      split <;> rename_i hh <;> simp at hh ⊢ <;> omega
    generalize (if decide (i ≥ sl.length) = true then sl ++ List.replicate (i + 1 - sl.length) z else sl) = sl' at hsl' hlen ⊢
    dsimp only
    rw [List.getElem?_eq_getElem hlen]
    dsimp only
    have hv0 := hsl' _ (List.getElem_mem hlen)
    have hg := hdec c1 _ (by omega) (lt_of_hasByte hc2) hv0
    rcases hx : dec c1 sl'[i] with ⟨v, r⟩
    rw [hx] at hg
    have hset : ∀ w ∈ sl'.set i v, E w := by
      intro w hw
      rcases List.mem_or_eq_of_mem_set hw with hw | rfl
      · exact hsl' _ hw
      · exact hg.1
    refine good_onOk ?_ hg.2 ?_
    · split
      · exact hrv
      · exact hT _ hset
    · intro c2 hr
      dsimp only at hr
      subst hr
      obtain ⟨p1, p2⟩ := hprog _ _ _ _ (by omega) hx
      have hrv' := hT _ hset
      refine good_ite (fun _ => good_err hrv') fun hc3 => ?_
      refine good_onOk hrv' (idx_safe (lt_of_hasByte hc3)) fun y _ => ?_
      refine good_ite (fun _ => good_ok hrv') fun _ => ?_
      exact ih (by omega) p2 (by omega) hset hrv'

theorem sliceDecode_good {T : Val → Prop} {E : Val → Prop} {P : Panic → Prop} {b : Bytes} {dec : Nat → Nat → Val → DR} {z : Val}
    {es c depth : Nat} {rv : Val} (hz : E z) (hT : ∀ vs, (∀ v ∈ vs, E v) → T (.slice vs)) (hT0 : T .sliceNil) (hP : Oversized es b → P .makeSlice)
    (hdec : ∀ c' v, depth + 1 ≤ maxDepth → c + 1 ≤ c' → c' < b.length → E v → Good E P (dec c' (depth + 1) v))
    (hprog : ∀ c v v' c', depth + 1 ≤ maxDepth → dec c (depth + 1) v = (v', .ok c') → c < c' ∧ c' ≤ b.length) (hrv : T rv) :
    Good T P (sliceDecode dec z es b c depth rv) := by
  unfold sliceDecode
  refine good_ite (fun _ => good_err hrv) fun hc0 => ?_
  refine good_ite (fun _ => good_err hrv) fun hdp => ?_
  have hdp : depth + 1 ≤ maxDepth := by omega
  refine good_onOk hrv (idx_safe (lt_of_hasByte hc0)) fun x _ => ?_
  refine good_ite (fun _ => ?_) fun _ => good_ite (fun _ => ?_) fun _ => good_ite (fun _ => good_err hrv) fun _ => good_err hrv
  · exact good_onOk hrv (safe_of_returns (validateNull_returns _ _)) fun _ _ => good_ok hT0
  refine good_ite (fun _ => good_err hrv) fun hc1 => ?_
  refine good_onOk hrv (idx_safe (lt_of_hasByte hc1)) fun _ _ => ?_
  refine good_ite (fun _ => good_err hrv) fun _ => ?_
  refine good_ite (fun _ => good_err hrv) fun hc2 => ?_
  refine good_onOk hrv (idx_safe (lt_of_hasByte hc2)) fun _ _ => ?_
  refine good_ite (fun _ => ?_) fun _ => ?_
  · exact good_onOk hrv (safe_of_returns (validateEmptyArray_returns _ _)) fun _ _ => good_ok hT0
  refine good_onOk hrv (safe_of_returns (readLength_returns _ _)) ?_
  rintro ⟨m, c1⟩ hm
  obtain ⟨cnt, m', hlt, rfl, hld, hc1'⟩ := readLength_sound hm
  refine good_ite (fun _ => good_err hrv) fun hc3 => ?_
  refine good_onOk hrv (idx_safe (lt_of_hasByte hc3)) fun _ _ => ?_
  refine good_ite (fun _ => good_err hrv) fun _ => ?_
  refine good_ite (fun hg => good_panic hrv (hP (oversized_of_len hlt hld (by simpa using hg)))) fun _ => ?_
  have := lt_of_hasByte hc3
  exact sliceLoop_good (lo := c + 1) hz hT hP (fun c' v h1 h2 h3 => hdec c' v hdp h1 h2 h3)
    (fun c' v v' c'' _ h => hprog c' v v' c'' hdp h) (by omega) (by omega) (by omega) (by simp) hrv

theorem bytesDecode_good {T : Val → Prop} {E : Val → Prop} {P : Panic → Prop} {b : Bytes} {dec : Nat → Nat → Val → DR} {z : Val}
    {c depth : Nat} {rv : Val} (hc : c < b.length) (hz : E z) (hT : ∀ vs, (∀ v ∈ vs, E v) → T (.slice vs)) (hT0 : T .sliceNil)
    (hTb : ∀ s, T (bytesVal s)) (hP : Oversized 1 b → P .makeSlice)
    (hdec : ∀ c' v, depth + 1 ≤ maxDepth → c + 1 ≤ c' → c' < b.length → E v → Good E P (dec c' (depth + 1) v))
    (hprog : ∀ c v v' c', depth + 1 ≤ maxDepth → dec c (depth + 1) v = (v', .ok c') → c < c' ∧ c' ≤ b.length) (hrv : T rv) :
    Good T P (bytesDecode dec z b c depth rv) := by
  unfold bytesDecode
  refine good_onOk hrv (idx_safe hc) fun x _ => ?_
  refine good_ite (fun _ => sliceDecode_good hz hT hT0 hP hdec hprog hrv) fun _ => ?_
  refine good_onOk hrv (safe_of_returns (stringBytes_returns _ _)) ?_
  rintro ⟨ob, c'⟩ _
  cases ob with
  | none => exact good_ok hrv
  | some s => exact good_ok (hTb s)

theorem arrayLoop_good {T : Val → Prop} {E : Val → Prop} {P : Panic → Prop} {n : Nat} {b : Bytes} {dec : Nat → Val → DR}
    {skip : Nat → Res Nat} {lo : Nat} (hT : ∀ vs, vs.length = n → (∀ v ∈ vs, E v) → T (.arr vs))
    (hdec : ∀ c v, lo ≤ c → c < b.length → E v → Good E P (dec c v))
    (hprog : ∀ c v v' c', lo ≤ c → dec c v = (v', .ok c') → c < c' ∧ c' ≤ b.length)
    (hskip : ∀ c, Safe P (skip c)) (hsprog : ∀ c c', skip c = .ok c' → c < c' ∧ c' ≤ b.length) {f c : Nat} {vs : List Val}
    (hf : b.length < c + f) (hc : c ≤ b.length) (hlo : lo ≤ c) (hlen : vs.length = n) (hvs : ∀ v ∈ vs, E v) :
    Good T P (arrayLoop dec skip b f c vs) := by
  induction f generalizing c vs with
  | zero => omega
  | succ f ih =>
    unfold arrayLoop
    have hrv := hT vs hlen hvs
    refine good_ite (fun _ => good_err hrv) fun hc1 => ?_
    refine good_onOk hrv (safe_of_returns (readInt_returns _ _)) ?_
    rintro ⟨i, c1⟩ hri
    obtain ⟨txt, -, -, -, hlt⟩ := readInt_sound hri
    refine good_ite (fun _ => good_err hrv) fun hc2 => ?_
    have key : ∀ (vs' : List Val) (r : Res Nat), vs'.length = n → (∀ v ∈ vs', E v) → Safe P r →
        (∀ c', r = .ok c' → c1 < c' ∧ c' ≤ b.length) →
        Good T P (onOk (.arr vs') r fun c =>
          if !hasByte b c then (.arr vs', .err (.unexpectedEnd "array" c)) else
          onOk (.arr vs') (idx b c) fun b' =>
          if b' = cRBrace then (.arr vs', .ok (c + 1)) else
          arrayLoop dec skip b f c vs') := by
      intro vs' r hl hE hr hp
      have hrv := hT vs' hl hE
      refine good_onOk hrv hr fun c2 hr2 => ?_
      obtain ⟨p1, p2⟩ := hp _ hr2
      refine good_ite (fun _ => good_err hrv) fun hc3 => ?_
      refine good_onOk hrv (idx_safe (lt_of_hasByte hc3)) fun y _ => ?_
      refine good_ite (fun _ => good_ok hrv) fun _ => ?_
      exact ih (by omega) p2 (by omega) hl hE
    dsimp only
    rcases hv : vs[i]? with _ | v0
    · exact key vs (skip c1) hlen hvs (hskip _) fun c' h => hsprog _ _ h
    · have hg := hdec c1 v0 (by omega) (lt_of_hasByte hc2) (hvs _ (List.mem_of_getElem? hv))
      rcases hx : dec c1 v0 with ⟨v, r⟩
      rw [hx] at hg
      dsimp only
      rw [hx]
      refine key (vs.set i v) r (by simpa using hlen) ?_ hg.2 ?_
      · intro w hw
        rcases List.mem_or_eq_of_mem_set hw with hw | rfl
        · exact hvs _ hw
        · exact hg.1
      · rintro c' rfl; exact hprog _ _ _ _ (by omega) hx

theorem skip_progress {b : Bytes} (hb : b.length < 2 ^ 63) {c d c' : Nat} (hd : d ≤ maxDepth) (h : skipValue b c d = .ok c') :
    c < c' ∧ c' ≤ b.length := by
  obtain ⟨d, -, hat⟩ := (skipValue_ok_iff hb hd).1 h
  have hat : At b c d c' := hat
  exact ⟨hat.lt', hat.le⟩

theorem arrayDecode_good {T : Val → Prop} {E : Val → Prop} {P : Panic → Prop} {n : Nat} {b : Bytes} (hb : b.length < 2 ^ 63)
    {dec : Nat → Nat → Val → DR} {z : Val} {c depth : Nat} {rv : Val} (hz : E z)
    (hT : ∀ vs, vs.length = n → (∀ v ∈ vs, E v) → T (.arr vs))
    (hdec : ∀ c' v, depth + 1 ≤ maxDepth → c + 1 ≤ c' → c' < b.length → E v → Good E P (dec c' (depth + 1) v))
    (hprog : ∀ c v v' c', depth + 1 ≤ maxDepth → dec c (depth + 1) v = (v', .ok c') → c < c' ∧ c' ≤ b.length) (hrv : T rv) :
    Good T P (arrayDecode dec z n b c depth rv) := by
  unfold arrayDecode
  refine good_ite (fun _ => good_err hrv) fun hc0 => ?_
  refine good_ite (fun _ => good_err hrv) fun hdp => ?_
  have hdp : depth + 1 ≤ maxDepth := by omega
  refine good_onOk hrv (idx_safe (lt_of_hasByte hc0)) fun x _ => ?_
  refine good_ite (fun _ => ?_) fun _ => good_ite (fun _ => ?_) fun _ => good_err hrv
  · exact good_onOk hrv (safe_of_returns (validateNull_returns _ _)) fun _ _ => good_ok hrv
  refine good_ite (fun _ => good_err hrv) fun hc1 => ?_
  refine good_onOk hrv (idx_safe (lt_of_hasByte hc1)) fun _ _ => ?_
  refine good_ite (fun _ => good_err hrv) fun _ => ?_
  have hzs : ∀ v ∈ List.replicate n z, E v := fun v hv => by rw [(List.mem_replicate.1 hv).2]; exact hz
  have hrv : T (.arr (List.replicate n z)) := hT _ (by simp) hzs
  refine good_ite (fun _ => good_err hrv) fun hc2 => ?_
  refine good_onOk hrv (idx_safe (lt_of_hasByte hc2)) fun _ _ => ?_
  refine good_ite (fun _ => ?_) fun _ => ?_
  · exact good_onOk hrv (safe_of_returns (validateEmptyArray_returns _ _)) fun _ _ => good_ok hrv
  refine good_onOk hrv (safe_of_returns (readLength_returns _ _)) ?_
  rintro ⟨m, c1⟩ hm
  obtain ⟨cnt, _, -, -, -, hc1'⟩ := readLength_sound hm
  refine good_ite (fun _ => good_err hrv) fun hc3 => ?_
  refine good_onOk hrv (idx_safe (lt_of_hasByte hc3)) fun _ _ => ?_
  refine good_ite (fun _ => good_err hrv) fun _ => ?_
  have := lt_of_hasByte hc3
  exact arrayLoop_good (lo := c + 1) hT (fun c' v h1 h2 h3 => hdec c' v hdp h1 h2 h3)
    (fun c' v v' c'' _ h => hprog c' v v' c'' hdp h) (fun _ => safe_of_returns (skipValue_returns hb _ _))
    (fun _ _ h => skip_progress hb hdp h) (by omega) (by omega) (by omega) (by simp) hzs

/-! ### Maps -/

theorem mapInsert_mem {k v : Val} {es : List (Val × Val)} {a b : Val} (h : (a, b) ∈ mapInsert k v es) :
    (a = k ∨ ∃ b', (a, b') ∈ es) ∧ (b = v ∨ ∃ a', (a', b) ∈ es) := by
  induction es with
  | nil => simp [mapInsert] at h; simp [h]
  | cons e es ih =>
    obtain ⟨k', v'⟩ := e
    unfold mapInsert at h
    split at h
    · rcases List.mem_cons.1 h with h | h
      · cases h; exact ⟨.inl rfl, .inl rfl⟩
      · exact ⟨.inr ⟨b, by simp [h]⟩, .inr ⟨a, by simp [h]⟩⟩
    · rcases List.mem_cons.1 h with h | h
      · cases h; exact ⟨.inr ⟨b, by simp⟩, .inr ⟨a, by simp⟩⟩
      · obtain ⟨h1, h2⟩ := ih h
        refine ⟨h1.imp id ?_, h2.imp id ?_⟩
        · rintro ⟨x, hx⟩; exact ⟨x, by simp [hx]⟩
        · rintro ⟨x, hx⟩; exact ⟨x, by simp [hx]⟩

/-- Entries with keys in `K` and values in `E`. -/
def EntriesOk (K E : Val → Prop) (es : List (Val × Val)) : Prop := (∀ a b, (a, b) ∈ es → K a) ∧ ∀ a b, (a, b) ∈ es → E b

theorem EntriesOk.insert {K E : Val → Prop} {es : List (Val × Val)} {k v : Val} (h : EntriesOk K E es) (hk : K k) (hv : E v) :
    EntriesOk K E (mapInsert k v es) := by
  refine ⟨fun a b hab => ?_, fun a b hab => ?_⟩
  · rcases (mapInsert_mem hab).1 with rfl | ⟨b', h'⟩
    · exact hk
    · exact h.1 _ _ h'
  · rcases (mapInsert_mem hab).2 with rfl | ⟨b', h'⟩
    · exact hv
    · exact h.2 _ _ h'

theorem mapLoop_good {T K E : Val → Prop} {P : Panic → Prop} {b : Bytes} {keyDec valDec : Nat → DR} {lo : Nat}
    (hT : ∀ es, EntriesOk K E es → T (.map es))
    (hkey : ∀ c, lo ≤ c → c < b.length → Good K P (keyDec c))
    (hhash : ∀ c v c', lo ≤ c → keyDec c = (v, .ok c') → K v → v.hashable = false → P .unhashable)
    (hkprog : ∀ c v' c', lo ≤ c → keyDec c = (v', .ok c') → c < c' ∧ c' ≤ b.length)
    (hval : ∀ c, lo ≤ c → c < b.length → Good E P (valDec c))
    (hvprog : ∀ c v' c', lo ≤ c → valDec c = (v', .ok c') → c < c' ∧ c' ≤ b.length)
    {f c : Nat} {es : List (Val × Val)}
    (hf : b.length < c + f) (hc : c ≤ b.length) (hlo : lo ≤ c) (hes : EntriesOk K E es) :
    Good T P (mapLoop keyDec valDec b f c es) := by
  induction f generalizing c es with
  | zero => omega
  | succ f ih =>
    unfold mapLoop
    have hrv := hT es hes
    refine good_ite (fun _ => good_err hrv) fun hc1 => ?_
    have hg := hkey c hlo (lt_of_hasByte hc1)
    rcases hk : keyDec c with ⟨k, r⟩
    rw [hk] at hg
    refine good_onOk hrv hg.2 fun c1 hr => ?_
    subst hr
    obtain ⟨p1, p2⟩ := hkprog _ _ _ hlo hk
    refine good_ite (fun _ => good_err hrv) fun hc2 => ?_
    have hg2 := hval c1 (by omega) (lt_of_hasByte hc2)
    rcases hv : valDec c1 with ⟨v, r⟩
    rw [hv] at hg2
    refine good_onOk hrv hg2.2 fun c2 hr => ?_
    subst hr
    obtain ⟨p3, p4⟩ := hvprog _ _ _ (by omega) hv
    refine good_ite (fun hh => good_panic hrv (hhash _ _ _ hlo hk hg.1 (by simpa using hh))) fun _ => ?_
    have hes' := hes.insert hg.1 hg2.1
    have hrv' := hT _ hes'
    refine good_ite (fun _ => good_err hrv') fun hc3 => ?_
    refine good_onOk hrv' (idx_safe (lt_of_hasByte hc3)) fun y _ => ?_
    refine good_ite (fun _ => good_ok hrv') fun _ => ?_
    exact ih (by omega) p4 (by omega) hes'

theorem header_progress {b : Bytes} {c c1 : Nat} {x : Byte} {e : Err} (hb : b.length < 2 ^ 63) (hx : idx b c = .ok x)
    (h : (if x = cO then skipClassName b c >>= fun e => .ok (e + 1) else if x = ca then .ok (c + 1) else .err e) = .ok c1) :
    c < c1 := by
  split at h
  · rename_i hO
    simp only [Res.bind_eq_ok] at h
    obtain ⟨e', h1, h2⟩ := h
    cases h2
    obtain ⟨l, s, -, -, -, h2⟩ := skipClassName_sound hb h1
    omega
  · split at h
    · cases h; omega
    · cases h

theorem mapDecode_good {T K E : Val → Prop} {P : Panic → Prop} {b : Bytes} (hb : b.length < 2 ^ 63)
    {keyDec valDec : Nat → Nat → DR} {c depth : Nat} {rv : Val}
    (hT : ∀ es, EntriesOk K E es → T (.map es)) (hT0 : T .mapNil)
    (hkey : ∀ c', depth + 1 ≤ maxDepth → c + 1 ≤ c' → c' < b.length → Good K P (keyDec c' (depth + 1)))
    (hhash : ∀ c v c', depth + 1 ≤ maxDepth → keyDec c (depth + 1) = (v, .ok c') → K v → v.hashable = false → P .unhashable)
    (hkprog : ∀ c v' c', depth + 1 ≤ maxDepth → keyDec c (depth + 1) = (v', .ok c') → c < c' ∧ c' ≤ b.length)
    (hval : ∀ c', depth + 1 ≤ maxDepth → c + 1 ≤ c' → c' < b.length → Good E P (valDec c' (depth + 1)))
    (hvprog : ∀ c v' c', depth + 1 ≤ maxDepth → valDec c (depth + 1) = (v', .ok c') → c < c' ∧ c' ≤ b.length)
    (hrv : T rv) (hes : rv = .mapNil ∨ ∃ es, rv = .map es ∧ EntriesOk K E es) :
    Good T P (mapDecode keyDec valDec b c depth rv) := by
  unfold mapDecode
  refine good_ite (fun _ => good_err hrv) fun hc0 => ?_
  refine good_ite (fun _ => good_err hrv) fun hdp => ?_
  have hdp : depth + 1 ≤ maxDepth := by omega
  refine good_onOk hrv (idx_safe (lt_of_hasByte hc0)) fun x hx => ?_
  refine good_ite (fun _ => ?_) fun _ => ?_
  · exact good_onOk hrv (safe_of_returns (validateNull_returns _ _)) fun _ _ => good_ok hT0
  refine good_onOk hrv (safe_of_returns (header_returns _ _ _ _)) fun c1 hh => ?_
  have p1 := header_progress hb hx hh
  refine good_onOk hrv (safe_of_returns (readLength_returns _ _)) ?_
  rintro ⟨m, c2⟩ hm
  obtain ⟨cnt, _, -, -, -, p2⟩ := readLength_sound hm
  refine good_ite (fun _ => good_err hrv) fun hc3 => ?_
  refine good_onOk hrv (idx_safe (lt_of_hasByte hc3)) fun _ _ => ?_
  refine good_ite (fun _ => good_err hrv) fun _ => ?_
  have key : ∃ es, mapEntries rv = some es ∧ EntriesOk K E es := by
    rcases hes with rfl | ⟨es, rfl, h⟩
    · exact ⟨[], rfl, by simp [EntriesOk]⟩
    · exact ⟨es, rfl, h⟩
  obtain ⟨es, he, hes⟩ := key
  rw [he]
  have hrv' := hT es hes
  dsimp only
  refine good_ite (fun _ => good_err hrv') fun hc4 => ?_
  have := lt_of_hasByte hc4
  refine good_onOk hrv' (idx_safe this) fun _ _ => ?_
  refine good_ite (fun _ => good_ok hrv') fun _ => ?_
  exact mapLoop_good (lo := c + 1) hT (fun c' h1 h2 => hkey c' hdp h1 h2)
    (fun c' v c'' _ h => hhash c' v c'' hdp h) (fun c' v' c'' _ h => hkprog c' v' c'' hdp h)
    (fun c' h1 h2 => hval c' hdp h1 h2) (fun c' v' c'' _ h => hvprog c' v' c'' hdp h) (by omega) (by omega) (by omega) hes

/-! ### Structs -/

theorem stringBytes_progress {b : Bytes} {c c' : Nat} {ob : Option Bytes} (hb : b.length < 2 ^ 63) (h : stringBytes b c = .ok (ob, c')) :
    c < c' ∧ c' ≤ b.length := by
  rcases (stringBytes_iff hb).1 h with ⟨-, h⟩ | ⟨_, _, -, -, h⟩ <;> exact ⟨h.lt', h.le⟩

theorem structLoop_good {W : World} {D : Ty → Prop} {id : Nat} {T : Val → Prop} {P : Panic → Prop} {b : Bytes} (hb : b.length < 2 ^ 63)
    {dec : FieldSet → Nat → Val → DR} {skip : Nat → Res Nat} {lo : Nat}
    (hT : ∀ vs, HasTy W D (.struct id) (.struct vs) → T (.struct vs))
    (hdec : ∀ i f c v, (W.fields id)[i]? = some f → lo ≤ c → c < b.length → HasTy W D f.ty v → Good (HasTy W D f.ty) P (dec (mkSet W i f) c v))
    (hprog : ∀ key i f c v v' c', FieldFor W id key i f → lo ≤ c → dec (mkSet W i f) c v = (v', .ok c') → c < c' ∧ c' ≤ b.length)
    (hskip : ∀ c, Safe P (skip c)) (hsprog : ∀ c c', skip c = .ok c' → c < c' ∧ c' ≤ b.length) {f c : Nat} {vs : List Val}
    (hf : b.length < c + f) (hc : c ≤ b.length) (hlo : lo ≤ c) (hvs : HasTy W D (.struct id) (.struct vs)) :
    Good T P (structLoop (fieldSets W 0 (W.fields id)) dec skip b f c vs) := by
  induction f generalizing c vs with
  | zero => omega
  | succ f ih =>
    unfold structLoop
    have hrv := hT vs hvs
    refine good_ite (fun _ => good_err hrv) fun hcn => ?_
    refine good_onOk hrv (safe_of_returns (decodeKey_returns _ _ _)) ?_
    rintro ⟨fld, cc⟩ hk
    simp only [decodeKey, Res.bind_eq_ok] at hk
    obtain ⟨⟨ob, cn⟩, hs, hk⟩ := hk
    cases hk
    have p1 := stringBytes_progress hb hs
    refine good_ite (fun _ => good_err hrv) fun hc2 => ?_
    have key : ∀ (vs' : List Val) (r : Res Nat), HasTy W D (.struct id) (.struct vs') → Safe P r →
        (∀ c', r = .ok c' → cn < c' ∧ c' ≤ b.length) →
        Good T P (onOk (.struct vs') r fun c =>
          if !hasByte b c then (.struct vs', .err (.unexpectedEnd "object" c)) else
          onOk (.struct vs') (idx b c) fun b' =>
          if b' = cRBrace then (.struct vs', .ok (c + 1)) else
          structLoop (fieldSets W 0 (W.fields id)) dec skip b f c vs') := by
      intro vs' r hE hr hp
      have hrv := hT vs' hE
      refine good_onOk hrv hr fun c2 hr2 => ?_
      obtain ⟨p1, p2⟩ := hp _ hr2
      refine good_ite (fun _ => good_err hrv) fun hc3 => ?_
      refine good_onOk hrv (idx_safe (lt_of_hasByte hc3)) fun y _ => ?_
      refine good_ite (fun _ => good_ok hrv) fun _ => ?_
      exact ih (by omega) p2 (by omega) hE
    dsimp only
    rcases hfind : (fieldSets W 0 (W.fields id)).find? (fun s => decide (s.key = ob.getD [])) with _ | fs
    · rw [hfind]
      exact key vs (skip cn) hvs (hskip _) fun c' h => hsprog _ _ h
    · obtain ⟨i, fd, hff, rfl⟩ := find_some hfind
      rw [hfind]
      dsimp only [mkSet]
      have hi : i < (W.fields id).length := (List.getElem?_eq_some_iff.1 hff.1).1
      cases hvs with
      | @struct _ id' _ h1 h2 h3 =>
        cases h1
        have hv0 : vs[i]? = some vs[i] := List.getElem?_eq_getElem (by omega)
        rw [hv0]
        dsimp only
        have hg := hdec i fd cn _ hff.1 (by omega) (lt_of_hasByte hc2) (h3 i fd _ hff.1 hv0)
        rcases hx : dec (mkSet W i fd) cn vs[i] with ⟨v, r⟩
        rw [hx] at hg
        rw [show dec { key := (structTag W fd).key, idx := i, ty := fd.ty, str := (structTag W fd).isString && stringTagOk W fd.ty } cn vs[i] = (v, r) from hx]
        refine key (vs.set i v) r ?_ hg.2 ?_
        · refine .struct (by rfl) (by simpa using h2) ?_
          intro j g w hj hw
          rw [List.getElem?_set] at hw
          split at hw
          · rename_i hij
            subst hij
            rw [hff.1] at hj; cases hj
            split at hw
            · cases hw; exact hg.1
            · cases hw
          · exact h3 j g w hj hw
        · rintro c' rfl; exact hprog _ _ _ _ _ _ _ hff (by omega) hx

theorem structDecode_good {W : World} {D : Ty → Prop} {id : Nat} {t : Ty} {P : Panic → Prop} {b : Bytes} (hb : b.length < 2 ^ 63)
    {dec : FieldSet → Nat → Nat → Val → DR} {c depth : Nat} {rv : Val} (ht : W.resolve t = .struct id)
    (hdec : ∀ i f c' v, depth + 1 ≤ maxDepth → (W.fields id)[i]? = some f → c + 1 ≤ c' → c' < b.length → HasTy W D f.ty v →
      Good (HasTy W D f.ty) P (dec (mkSet W i f) c' (depth + 1) v))
    (hprog : ∀ key i f c v v' c', depth + 1 ≤ maxDepth → FieldFor W id key i f → dec (mkSet W i f) c (depth + 1) v = (v', .ok c') →
      c < c' ∧ c' ≤ b.length)
    (hrv : HasTy W D t rv) : Good (HasTy W D t) P (structDecode (fieldSets W 0 (W.fields id)) dec b c depth rv) := by
  unfold structDecode
  refine good_ite (fun _ => good_err hrv) fun hc0 => ?_
  refine good_ite (fun _ => good_err hrv) fun hdp => ?_
  have hdp : depth + 1 ≤ maxDepth := by omega
  refine good_onOk hrv (idx_safe (lt_of_hasByte hc0)) fun x hx => ?_
  refine good_ite (fun _ => ?_) fun _ => ?_
  · exact good_onOk hrv (safe_of_returns (validateNull_returns _ _)) fun _ _ => good_ok hrv
  refine good_onOk hrv (safe_of_returns (header_returns _ _ _ _)) fun ch hh => ?_
  have p1 := header_progress hb hx hh
  refine good_ite (fun _ => good_err hrv) fun hc1 => ?_
  refine good_onOk hrv (idx_safe (lt_of_hasByte hc1)) fun _ _ => ?_
  refine good_ite (fun _ => good_err hrv) fun _ => ?_
  refine good_onOk hrv (safe_of_returns (skipLen_returns _ _)) fun c2 hl => ?_
  obtain ⟨cnt, -, -, p2⟩ := skipLen_sound hl
  refine good_ite (fun _ => good_err hrv) fun hc3 => ?_
  refine good_onOk hrv (idx_safe (lt_of_hasByte hc3)) fun _ _ => ?_
  refine good_ite (fun _ => good_err hrv) fun _ => ?_
  refine good_ite (fun _ => good_err hrv) fun hc4 => ?_
  have := lt_of_hasByte hc4
  refine good_onOk hrv (idx_safe this) fun _ _ => ?_
  refine good_ite (fun _ => good_ok hrv) fun _ => ?_
  cases hrv with
  | @struct _ id' vs h1 h2 h3 =>
    rw [ht] at h1; cases h1
    refine structLoop_good (lo := c + 1) hb (D := D) ?_ (fun i f c' v h1 h2 h3 => hdec i f c' v hdp h1 h2 h3)
      (fun key i f c' v v' c'' h1 _ h => hprog key i f c' v v' c'' hdp h1 h) (fun _ => safe_of_returns (skipValue_returns hb _ _))
      (fun _ _ h => skip_progress hb hdp h) (by omega) (by omega) (by omega) (.struct rfl h2 h3)
    intro vs h
    cases h with
    | struct h1 h2 h3 => cases h1; exact .struct ht h2 h3
  | _ => simp_all

/-! ### Interfaces and user methods -/

theorem sub_safe {P : Panic → Prop} {b : Bytes} {c e : Nat} (h1 : c ≤ e) (h2 : e ≤ b.length) : Safe P (sub b c e) :=
  safe_of_returns (sub_returns h1 h2)

theorem unmOf_named {W : World} {t : Ty} {id : Nat} (h : W.unmOf t = some id) : t = .named id := by
  cases t <;> simp [World.unmOf] at h
  rw [h.2]

theorem safe_mapErr {α : Type} {P : Panic → Prop} {f : Err → Err} {r : Res α} (h : Safe P r) : Safe P (r.mapErr f) := by
  cases r <;> exact h

theorem unmarshalDecode_good {W : World} {D : Ty → Prop} (hW : WorldOk W D) {P : Panic → Prop} {t : Ty} {id : Nat} {b : Bytes}
    (hb : b.length < 2 ^ 63) {c depth : Nat} {rv : Val} (hd : depth ≤ maxDepth) (hu : W.unmOf t = some id)
    (hs : ∀ s, Safe P (W.unmarshal id s)) (hrv : HasTy W D t rv) : Good (HasTy W D t) P (unmarshalDecode W id b c depth rv) := by
  rw [unmarshalDecode_eq]
  refine good_onOk hrv (safe_of_returns (skipValue_returns hb _ _)) fun e he => ?_
  obtain ⟨p1, p2⟩ := skip_progress hb hd he
  refine good_onOk hrv (sub_safe (by omega) p2) fun src _ => ?_
  refine good_ite (fun _ => good_err hrv) fun _ => ?_
  refine good_ite (fun _ => good_err hrv) fun _ => ?_
  refine good_ite (fun _ => good_err hrv) fun _ => ?_
  have := unmOf_named hu
  subst this
  refine good_ite (fun _ => good_ok (hW.namedZero id)) fun _ => ?_
  exact good_onOk hrv (safe_mapErr (hs _)) fun v hv => good_ok (hW.unmarshal _ _ _ (Res.mapErr_eq_ok.1 hv))

theorem ifaceDecode_good {W : World} {D : Ty → Prop} (hW : WorldOk W D) {P : Panic → Prop} {t : Ty} {i : Nat} {b : Bytes}
    (hb : b.length < 2 ^ 63) {c depth : Nat} {rv : Val} (hd : depth ≤ maxDepth) (ht : W.resolve t = .iface i) (hc : c < b.length)
    (hs : rv ≠ .ifaceNil → ∀ dt v s, Safe P (W.unmarshalDyn dt v s).2) (hrv : HasTy W D t rv) :
    Good (HasTy W D t) P (ifaceDecode W b c depth rv) := by
  unfold ifaceDecode
  have hnull : Good (HasTy W D t) P (onOk rv (idx b c) fun b' =>
      if b' = cN then onOk rv (validateNull b c) fun _ => (.ifaceNil, .ok (c + 2))
      else (rv, .err (.typeError "interface" c))) := by
    refine good_onOk hrv (idx_safe hc) fun _ _ => ?_
    refine good_ite (fun _ => ?_) fun _ => good_err hrv
    exact good_onOk hrv (safe_of_returns (validateNull_returns _ _)) fun _ _ => good_ok (.ifaceNil ht)
  have hr := hrv
  cases hrv with
  | ifaceNil h1 => exact hnull
  | @iface _ _ dt v h1 h2 =>
    dsimp only
    split
    · rename_i dt' v' hq
      split at hq
      · cases hq
        rw [dynDecode_eq]
        refine good_onOk hr (safe_of_returns (skipValue_returns hb _ _)) fun e he => ?_
        obtain ⟨p1, p2⟩ := skip_progress hb hd he
        refine good_onOk hr (sub_safe (by omega) p2) fun src _ => ?_
        refine good_ite (fun _ => good_ok (.ifaceNil ht)) fun _ => ?_
        have h3 : ∀ s, HasTy W D t (.iface dt (W.unmarshalDyn dt v s).1) := fun s => .iface ht (hW.unmarshalDyn _ _ _ h2)
        have h4 := hs (by simp) dt v
        exact good_onOk (h3 _) (h4 _) fun _ _ => good_ok (h3 _)
      · cases hq
    · exact hnull
  | _ => simp_all

theorem anyKeyDecode_good {W : World} {D : Ty → Prop} (hD : ∀ t, Documented t → D t) {P : Panic → Prop} {b : Bytes} {c : Nat}
    (hc : c < b.length) : Good (HasTy W D .any) P (anyKeyDecode b c) := by
  unfold anyKeyDecode
  have h0 : HasTy W D .any .ifaceNil := .anyNil rfl
  refine good_onOk h0 (idx_safe hc) fun _ _ => ?_
  refine good_ite (fun _ => ?_) fun _ => good_ite (fun _ => ?_) fun _ => good_err h0
  · have hg := stringDecode_good (P := P) (W := W) (D := D) (t := .str) (b := b) (c := c) rfl (.str rfl (s := []))
    exact good_onOk h0 hg.2 fun _ _ => good_ok (.any rfl (hD _ (by simp [Documented])) hg.1)
  · have hg := intDecode_good (P := P) (W := W) (D := D) (t := .int .i64) (b := b) (c := c) rfl (.int rfl (i := 0) (inRange_zero _))
    exact good_onOk h0 hg.2 fun _ _ => good_ok (.any rfl (hD _ (by simp [Documented])) hg.1)

theorem anyDecode_good {W : World} {D : Ty → Prop} (hD : ∀ t, Documented t → D t) {P : Panic → Prop} {t : Ty} {b : Bytes}
    {anyDec : Nat → Nat → DR} (hb : b.length < 2 ^ 63) {c depth : Nat} {rv : Val} {T : Val → Prop}
    (hT0 : T .ifaceNil) (hT : ∀ dt v, Documented dt → HasTy W D dt v → T (.iface dt v)) (hc : c < b.length)
    (hany : ∀ c', depth + 1 ≤ maxDepth → c + 1 ≤ c' → c' < b.length → Good (HasTy W D .any) P (anyDec c' (depth + 1)))
    (hprog : ∀ c v' c', depth + 1 ≤ maxDepth → anyDec c (depth + 1) = (v', .ok c') → c < c' ∧ c' ≤ b.length)
    (hrv : T rv) : Good T P (anyDecode W anyDec b c depth rv) := by
  unfold anyDecode
  refine good_onOk hrv (idx_safe hc) fun _ _ => ?_
  refine good_ite (fun _ => ?_) fun _ => good_ite (fun _ => ?_) fun _ => good_ite (fun _ => ?_) fun _ => good_ite (fun _ => ?_) fun _ =>
    good_ite (fun _ => ?_) fun _ => good_ite (fun _ => ?_) fun _ => good_ite (fun _ => ?_) fun _ => good_err hrv
  · have hg := mapDecode_good (T := HasTy W D (.map .str .any)) (K := HasTy W D .str) (E := HasTy W D .any) (P := P) hb
      (keyDec := fun c _ => stringDecode b c (.str [])) (valDec := anyDec) (c := c) (depth := depth) (rv := .mapNil)
      (fun es h => .map rfl h.1 h.2) (.mapNil rfl) (fun c' _ _ _ => stringDecode_good rfl (.str rfl))
      (fun c v c' _ h hK hh => by cases hK <;> simp_all [World.resolve, Val.hashable])
      (fun c' v' c'' _ h => by
        simp only [stringDecode, onOk_ok] at h
        obtain ⟨⟨ob, e⟩, hs, h⟩ := h
        have := stringBytes_progress hb hs
        cases ob <;> cases h <;> exact this)
      hany hprog (.mapNil rfl) (.inl rfl)
    exact good_onOk hrv hg.2 fun _ _ => good_ok (hT _ _ (by simp [Documented]) hg.1)
  · have hg := mapDecode_good (T := HasTy W D (.map .any .any)) (K := HasTy W D .any) (E := HasTy W D .any) (P := P) hb
      (keyDec := fun c _ => anyKeyDecode b c) (valDec := anyDec) (c := c) (depth := depth) (rv := .mapNil)
      (fun es h => .map rfl h.1 h.2) (.mapNil rfl) (fun c' _ _ hc' => anyKeyDecode_good hD hc')
      (fun c v c' _ h hK hh => by
        obtain ⟨d, -, ⟨_, _, -, -, -, rfl⟩ | ⟨_, _, -, -, rfl⟩⟩ := anyKeyDecode_sound hb h <;> simp [Val.hashable] at hh)
      (fun c' v' c'' _ h => by
        obtain ⟨d, hat, -⟩ := anyKeyDecode_sound hb h
        exact ⟨hat.lt', hat.le⟩)
      hany hprog (.mapNil rfl) (.inl rfl)
    exact good_onOk hrv hg.2 fun _ _ => good_ok (hT _ _ (by simp [Documented]) hg.1)
  · have hg := floatDecode64_good (P := P) (W := W) (D := D) (t := .f64) (b := b) (c := c) rfl (.f64 rfl (x := 0))
    exact good_onOk hrv hg.2 fun _ _ => good_ok (hT _ _ (by simp [Documented]) hg.1)
  · exact good_onOk hrv (safe_of_returns (readString_returns _ _)) fun _ _ => good_ok (hT _ _ (by simp [Documented]) (.str rfl))
  · have hg := intDecode_good (P := P) (W := W) (D := D) (t := .int .i64) (b := b) (c := c) rfl (.int rfl (i := 0) (inRange_zero _))
    exact good_onOk hrv hg.2 fun _ _ => good_ok (hT _ _ (by simp [Documented]) hg.1)
  · exact good_onOk hrv (safe_of_returns (readBool_returns _ _)) fun _ _ => good_ok (hT _ _ (by simp [Documented]) (.bool rfl))
  · exact good_onOk hrv (safe_of_returns (validateNull_returns _ _)) fun _ _ => good_ok hT0

/-! ### Zero values -/

theorem zero_hasTy {W : World} {D : Ty → Prop} (hW : WorldOk W D) (t : Ty) : HasTy W D t (W.zero t) := by
  induction t with
  | bool => exact .bool rfl
  | int k => exact .int rfl (inRange_zero _)
  | uint k => exact .uint rfl (by cases k <;> decide)
  | f32 => exact .f32 rfl
  | f64 => exact .f64 rfl
  | str => exact .str rfl
  | slice e => exact .sliceNil rfl
  | array n e ih =>
    refine .arr rfl (by simp) fun v hv => ?_
    rw [(List.mem_replicate.1 hv).2]; exact ih
  | map k v => exact .mapNil rfl
  | ptr e => exact .ptrNil rfl
  | struct id => exact hW.structZero id
  | any => exact .anyNil rfl
  | iface i => exact .ifaceNil rfl
  | other => exact .other rfl
  | named id => exact hW.namedZero id

theorem zero_iface {W : World} {D : Ty → Prop} (hW : WorldOk W D) {t : Ty} {i : Nat} (h : W.resolve t = .iface i) : W.zero t = .ifaceNil := by
  cases t <;> simp [World.resolve] at h
  · rfl
  · exact hW.ifaceZero _ _ h

/-! ### Keys and fields -/

theorem invalidDecode_good {T : Val → Prop} {P : Panic → Prop} {c : Nat} {rv : Val} (h : T rv) : Good T P (invalidDecode c rv) :=
  good_err h

theorem ptrKeyDecode_good {T : Val → Prop} {P : Panic → Prop} {scratch : DR} {b : Bytes} {c : Nat} (hT : T .ptrNil)
    (hP : P .reflectKind) (hs : Safe P scratch.2) (hc : c < b.length) : Good T P (ptrKeyDecode scratch b c) := by
  unfold ptrKeyDecode
  refine good_onOk hT (idx_safe hc) fun _ _ => ?_
  refine good_ite (fun _ => ?_) fun _ => ?_
  · exact good_onOk hT (safe_of_returns (validateNull_returns _ _)) fun _ _ => good_ok hT
  · exact good_onOk hT hs fun _ _ => good_panic hT hP

/-- What decoding a map key of type `k` may do wrong. -/
structure KeyHazards (W : World) (P : Panic → Prop) (k : Ty) : Prop where
  any : (W.resolve k = .any ∨ ∃ p i, W.resolve k = .ptr p ∧ (W.resolve p = .any ∨ W.resolve p = .iface i)) → P .unhashable
  unm : ∀ id, W.unmOf k = some id → P .unhashable ∧ ∀ s, Safe P (W.unmarshal id s)
  ptr : ∀ p, W.resolve k = .ptr p → P .reflectKind

theorem keyDecode_good {W : World} {D : Ty → Prop} (hW : WorldOk W D) (hD : ∀ t, Documented t → D t) {P : Panic → Prop} {k : Ty} {b : Bytes}
    {anyDec : Nat → Nat → DR} (hb : b.length < 2 ^ 63) {c depth : Nat} (hd : depth ≤ maxDepth) (hc : c < b.length)
    (hk : KeyHazards W P k)
    (hany : (W.resolve k = .any ∨ ∃ p i, W.resolve k = .ptr p ∧ (W.resolve p = .any ∨ W.resolve p = .iface i)) →
      ∀ c', depth + 1 ≤ maxDepth → c + 1 ≤ c' → c' < b.length → Good (HasTy W D .any) P (anyDec c' (depth + 1)))
    (hprog : ∀ c v' c', depth + 1 ≤ maxDepth → anyDec c (depth + 1) = (v', .ok c') → c < c' ∧ c' ≤ b.length) :
    Good (HasTy W D k) P (keyDecode W anyDec b k c depth) := by
  have hz := zero_hasTy (D := D) hW k
  unfold keyDecode
  rcases hu : W.unmOf k with _ | id
  · dsimp only
    rcases hr : W.resolve k
    case bool => exact boolDecode_good hr hz
    case int => exact intDecode_good hr hz
    case uint => exact uintDecode_good hr hz
    case str => exact stringDecode_good hr hz
    case any =>
      exact anyDecode_good (t := k) hD hb (.anyNil hr) (fun dt v h1 h2 => .any hr (hD _ h1) h2) hc (hany (.inl hr)) hprog hz
    case iface i => exact ifaceDecode_good hW hb hd hr hc (fun h => absurd (zero_iface hW hr) h) hz
    case ptr e =>
      dsimp only
      have hp := hk.ptr e hr
      have hn : HasTy W D k .ptrNil := .ptrNil hr
      rcases W.unmOf e with _ | id
      · dsimp only
        rcases hre : W.resolve e
        case bool => exact ptrKeyDecode_good hn hp (boolDecode_good (W := W) (D := D) (t := .bool) rfl (.bool rfl)).2 hc
        case int => exact ptrKeyDecode_good hn hp (intDecode_good (W := W) (D := D) (t := .int .i64) rfl (.int rfl (inRange_zero _))).2 hc
        case uint => exact ptrKeyDecode_good hn hp (uintDecode_good (W := W) (D := D) (t := .uint .u64) rfl (.uint rfl (by decide))).2 hc
        case str => exact ptrKeyDecode_good hn hp (stringDecode_good (W := W) (D := D) (t := .str) rfl (.str rfl)).2 hc
        case any =>
          exact ptrKeyDecode_good hn hp (anyDecode_good (T := HasTy W D .any) (t := .any) hD hb (.anyNil rfl)
            (fun dt v h1 h2 => .any rfl (hD _ h1) h2) hc (hany (.inr ⟨e, 0, hr, .inl hre⟩)) hprog (.anyNil rfl)).2 hc
        case iface i =>
          exact ptrKeyDecode_good hn hp (anyDecode_good (T := HasTy W D .any) (t := .any) hD hb (.anyNil rfl)
            (fun dt v h1 h2 => .any rfl (hD _ h1) h2) hc (hany (.inr ⟨e, i, hr, .inr hre⟩)) hprog (.anyNil rfl)).2 hc
        all_goals exact invalidDecode_good hz
      · exact invalidDecode_good hz
    all_goals exact invalidDecode_good hz
  · exact unmarshalDecode_good hW hb hd hu (hk.unm id hu).2 hz

theorem keyDecode_hash {W : World} {D : Ty → Prop} (hW : WorldOk W D) {P : Panic → Prop} {k : Ty} {b : Bytes}
    {anyDec : Nat → Nat → DR} {c c' depth : Nat} {v : Val} (hk : KeyHazards W P k)
    (h : keyDecode W anyDec b k c depth = (v, .ok c')) (hv : HasTy W D k v) (hh : v.hashable = false) : P .unhashable := by
  unfold keyDecode at h
  rcases hu : W.unmOf k with _ | id
  · rw [hu] at h
    dsimp only at h
    rcases hr : W.resolve k <;> rw [hr] at h <;> dsimp only at h
    case bool => cases hv <;> simp_all [Val.hashable]
    case int => cases hv <;> simp_all [Val.hashable]
    case uint => cases hv <;> simp_all [Val.hashable]
    case str => cases hv <;> simp_all [Val.hashable]
    case any => exact hk.any (.inl hr)
    case iface i =>
      rw [zero_iface hW hr] at h
      simp only [ifaceDecode, onOk_ok] at h
      obtain ⟨_, -, h⟩ := h
      split at h
      · simp only [onOk_ok] at h
        obtain ⟨_, -, h⟩ := h
        cases h
        simp [Val.hashable] at hh
      · cases h
    case ptr e =>
      rcases hue : W.unmOf e with _ | id <;> rw [hue] at h <;> dsimp only at h
      · split at h
        case h_7 => simp [invalidDecode] at h
        all_goals
          have := (ptrKeyDecode_sound h).2
          subst this
          simp [Val.hashable] at hh
      · simp [invalidDecode] at h
    all_goals simp [invalidDecode] at h
  · exact (hk.unm id hu).1

theorem fieldDecode_good {W : World} {D : Ty → Prop} (hW : WorldOk W D) {P : Panic → Prop} {b : Bytes}
    {rec : Ty → Nat → Nat → Val → DR} {s : FieldSet} {c depth : Nat} {rv : Val} (hc : c < b.length)
    (hrec : Good (HasTy W D s.ty) P (rec s.ty c depth rv)) (hrv : HasTy W D s.ty rv) :
    Good (HasTy W D s.ty) P (fieldDecode W rec b s c depth rv) := by
  unfold fieldDecode
  refine good_ite (fun _ => ?_) fun _ => hrec
  split
  · rename_i e hr
    refine good_ite (fun hw => ?_) fun _ => good_err hrv
    exact ptrDecode_good hr hc hrv (zero_hasTy hW e) fun v hv => wrappedDecode_good hw hv
  · exact good_ite (fun hw => wrappedDecode_good hw hrv) fun _ => good_err hrv

theorem hasTy_map {W : World} {D : Ty → Prop} {t k v : Ty} {rv : Val} (ht : W.resolve t = .map k v) (h : HasTy W D t rv) :
    rv = .mapNil ∨ ∃ es, rv = .map es ∧ EntriesOk (HasTy W D k) (HasTy W D v) es := by
  cases h with
  | mapNil => exact .inl rfl
  | map h1 h2 h3 => rw [ht] at h1; cases h1; exact .inr ⟨_, rfl, h2, h3⟩
  | _ => simp_all

theorem bytesVal_hasTy {W : World} {D : Ty → Prop} {t e : Ty} (ht : W.resolve t = .slice e) (he : W.isByte e = true) (s : Bytes) :
    HasTy W D t (bytesVal s) := by
  refine .slice ht fun v hv => ?_
  simp only [List.mem_map] at hv
  obtain ⟨c, -, rfl⟩ := hv
  exact .uint (k := .u8) (by simpa [World.isByte] using he) (ufits_iff.1 c.toNat_lt)

/-! ### All types -/

/-- What is known about decoding components of a value that starts at `c`. -/
structure RecGood (W : World) (D : Ty → Prop) (P : Panic → Prop) (T : Ty → Prop) (b : Bytes) (rec : Ty → Nat → Nat → Val → DR) (c : Nat) :
    Prop where
  good : ∀ t c' depth v, depth ≤ maxDepth → c + 1 ≤ c' → c' < b.length → T t → HasTy W D t v → Good (HasTy W D t) P (rec t c' depth v)
  sound : ∀ t c depth rv v c', depth ≤ maxDepth → rec t c depth rv = (v, .ok c') →
    ∃ d, At b c d c' ∧ DecDoc W t (maxDepth - depth) d rv v

theorem RecGood.prog {W D P T b rec c} (h : RecGood W D P T b rec c) (t : Ty) (c depth : Nat) (rv v : Val) (c' : Nat)
    (hd : depth ≤ maxDepth) (h1 : rec t c depth rv = (v, .ok c')) : c < c' ∧ c' ≤ b.length := by
  obtain ⟨d, hat, -⟩ := h.sound t c depth rv v c' hd h1
  exact ⟨hat.lt', hat.le⟩

theorem decodeNonPtr_good {W : World} {D : Ty → Prop} (hW : WorldOk W D) (hD : ∀ t, Documented t → D t) {P : Panic → Prop} {T : Ty → Prop}
    {b : Bytes} (hH : Hazards W b P T) (hb : b.length < 2 ^ 63) {rec : Ty → Nat → Nat → Val → DR} {t : Ty} {c depth : Nat} {rv : Val}
    (hrec : RecGood W D P T b rec c) (hd : depth ≤ maxDepth) (hc : c < b.length) (hTt : T t) (hrv : HasTy W D t rv) :
    Good (HasTy W D t) P (decodeNonPtr W rec b t c depth rv) := by
  unfold decodeNonPtr
  rcases hu : W.unmOf t with _ | id
  · dsimp only
    rcases hr : W.resolve t
    case bool => exact boolDecode_good hr hrv
    case int => exact intDecode_good hr hrv
    case uint => exact uintDecode_good hr hrv
    case f32 => exact floatDecode32_good hr hrv
    case f64 => exact floatDecode64_good hr hrv
    case str => exact stringDecode_good hr hrv
    case slice e =>
      obtain ⟨hTe, hP⟩ := hH.slice t e hTt hu hr
      dsimp only
      refine good_ite (fun hby => ?_) fun hby => ?_
      · rw [show esize W e = 1 by simp [esize, hby]] at hP
        exact bytesDecode_good (E := HasTy W D e) hc (zero_hasTy hW e) (fun vs h => .slice hr h) (.sliceNil hr) (bytesVal_hasTy hr hby) hP
          (fun c' v h1 h2 h3 h4 => hrec.good e c' _ v h1 h2 h3 hTe h4) (fun c v v' c' h1 h => hrec.prog e c _ v v' c' h1 h) hrv
      · rw [show esize W e = W.elemSize e by simp [esize, hby]] at hP
        exact sliceDecode_good (E := HasTy W D e) (zero_hasTy hW e) (fun vs h => .slice hr h) (.sliceNil hr) hP
          (fun c' v h1 h2 h3 h4 => hrec.good e c' _ v h1 h2 h3 hTe h4) (fun c v v' c' h1 h => hrec.prog e c _ v v' c' h1 h) hrv
    case array n e =>
      have hTe := hH.array t n e hTt hu hr
      exact arrayDecode_good (E := HasTy W D e) hb (zero_hasTy hW e) (fun vs h1 h2 => .arr hr h1 h2)
          (fun c' v h1 h2 h3 h4 => hrec.good e c' _ v h1 h2 h3 hTe h4) (fun c v v' c' h1 h => hrec.prog e c _ v v' c' h1 h) hrv
    case map k v =>
      have hTv := hH.mapVal t k v hTt hu hr
      have hkh : KeyHazards W P k := ⟨fun h => (hH.mapAny t k v hTt hu hr h).2, fun id h => hH.mapUnm t k v id hTt hu hr h,
        fun p h => hH.mapPtr t k v p hTt hu hr h⟩
      refine mapDecode_good (K := HasTy W D k) (E := HasTy W D v) hb (fun es h => .map hr h.1 h.2) (.mapNil hr) ?_ ?_ ?_
        (fun c' h1 h2 h3 => hrec.good v c' _ _ h1 h2 h3 hTv (zero_hasTy hW v))
        (fun c v' c' h1 h => hrec.prog v c _ _ v' c' h1 h) hrv (hasTy_map hr hrv)
      · intro c' hd' h2 h3
        refine keyDecode_good hW hD hb hd' h3 hkh ?_ ?_
        · intro ha c'' h4 h5 h6
          exact hrec.good .any c'' _ _ h4 (by omega) h6 (hH.mapAny t k v hTt hu hr ha).1 (.anyNil rfl)
        · intro c v' c' h4 h
          exact hrec.prog .any c _ _ v' c' h4 h
      · intro c v c' _ h hv hh
        exact keyDecode_hash hW hkh h hv hh
      · intro c v' c' hd' h
        obtain ⟨d, hat, -⟩ := keyDecode_sound hb hd' (fun h1 c v c' h => hrec.sound .any c _ _ v c' h1 h) h
        exact ⟨hat.lt', hat.le⟩
    case struct id =>
      refine structDecode_good hb hr ?_ ?_ hrv
      · intro i f c' v hd' hf h1 h2 h3
        exact fieldDecode_good (s := mkSet W i f) hW h2 (hrec.good f.ty c' _ v hd' h1 h2
          (hH.struct t id f hTt hu hr (List.mem_of_getElem? hf)) h3) h3
      · intro key i f c v v' c' hd' hff h
        obtain ⟨d, hat, -⟩ := fieldDecode_sound hb (fun t c rv v c' h => hrec.sound t c _ rv v c' hd' h) hff h
        exact ⟨hat.lt', hat.le⟩
    case any =>
      have hTa := hH.any t hTt hu hr
      exact anyDecode_good (t := t) hD hb (.anyNil hr) (fun dt v h1 h2 => .any hr (hD _ h1) h2) hc
        (fun c' h1 h2 h3 => hrec.good .any c' _ _ h1 h2 h3 hTa (.anyNil rfl)) (fun c v' c' h1 h => hrec.prog .any c _ _ v' c' h1 h) hrv
    case iface i => exact ifaceDecode_good hW hb hd hr hc (fun _ => hH.iface t i hTt hu hr) hrv
    all_goals exact good_err hrv
  · exact unmarshalDecode_good hW hb hd hu (hH.unm t id hTt hu) hrv

/-- Decoding keeps the destination valid, ends, and panics only as `Hazards` allows. -/
theorem decodeF_good {W : World} {D : Ty → Prop} (hW : WorldOk W D) (hD : ∀ t, Documented t → D t) {P : Panic → Prop} {T : Ty → Prop}
    {b : Bytes} (hH : Hazards W b P T) (hb : b.length < 2 ^ 63) {f : Nat} {t : Ty} {c depth : Nat} {rv : Val}
    (hd : depth ≤ maxDepth) (hc : c < b.length) (hf : b.length ≤ c + f) (hTt : T t) (hrv : HasTy W D t rv) :
    Good (HasTy W D t) P (decodeF W b f t c depth rv) := by
  induction f generalizing t c depth rv with
  | zero => omega
  | succ f ih =>
    have hrec : RecGood W D P T b (decodeF W b f) c :=
      ⟨fun t c' depth v h1 h2 h3 h4 h5 => ih h1 h3 (by omega) h4 h5, fun t c depth rv v c' h1 h => decodeF_sound hb h1 h⟩
    unfold decodeF
    split
    · rename_i e hu hr
      refine good_ite (fun _ => good_err hrv) fun _ => ?_
      exact ptrDecode_good hr hc hrv (zero_hasTy hW e) fun v hv =>
        decodeNonPtr_good hW hD hH hb hrec hd hc (hH.ptr t e hTt hu hr) hv
    · exact decodeNonPtr_good hW hD hH hb hrec hd hc hTt hrv

end Verif

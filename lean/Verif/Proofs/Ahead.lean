import Verif.Proofs.DecSafe
/-
The lexer looks at no byte before its cursor.
-/
namespace Verif

/-- The two buffers agree from `c` on. -/
structure SameFrom (b b0 : Bytes) (c : Nat) : Prop where
  len : b.length = b0.length
  rest : b.drop c = b0.drop c

theorem bind_same {α β : Type} {r : Res α} {f g : α → Res β} (h : ∀ a, r = .ok a → f a = g a) : r >>= f = r >>= g := by
  cases r with
  | ok a => exact h a rfl
  | err e => rfl
  | panic p => rfl
  | diverge => rfl

theorem ite_same {α : Type} {p : Prop} [Decidable p] {x y x' y' : α} (hx : p → x = x') (hy : ¬ p → y = y') : (if p then x else y) = if p then x' else y' := by
  by_cases h : p
  · simpa only [if_pos h] using hx h
  · simpa only [if_neg h] using hy h

namespace SameFrom
variable {b b0 : Bytes} {c c1 : Nat}

theorem rfl' : SameFrom b b c := ⟨rfl, rfl⟩

theorem drop (h : SameFrom b b0 c) (hc : c ≤ c1) : b.drop c1 = b0.drop c1 := by
  have := congrArg (List.drop (c1 - c)) h.rest
  rw [List.drop_drop, List.drop_drop] at this
  rwa [show c + (c1 - c) = c1 by omega] at this

theorem mono (h : SameFrom b b0 c) (hc : c ≤ c1) : SameFrom b b0 c1 := ⟨h.len, h.drop hc⟩

theorem hasByte (h : SameFrom b b0 c) (i : Nat) : hasByte b i = hasByte b0 i := by unfold Verif.hasByte; rw [h.len]

theorem hasBytes (h : SameFrom b b0 c) (i k : Int) : hasBytes b i k = hasBytes b0 i k := by unfold Verif.hasBytes; rw [h.len]

theorem byteAt (h : SameFrom b b0 c) : byteAt b c = byteAt b0 c := by
  have e : ∀ l : Bytes, l[c]? = (l.drop c)[0]? := fun l => by simp
  unfold Verif.byteAt
  rw [e b, e b0, h.rest]

theorem idx (h : SameFrom b b0 c) (hc : c ≤ c1) : idx b c1 = idx b0 c1 := by
  have e : ∀ l : Bytes, l[c1]? = (l.drop c1)[0]? := fun l => by simp
  unfold Verif.idx
  rw [e b, e b0, h.drop hc]

theorem sub (h : SameFrom b b0 c) (hc : c ≤ c1) (k : Nat) : sub b c1 k = sub b0 c1 k := by
  unfold Verif.sub
  rw [h.len, h.drop hc]

theorem scanDigits (h : SameFrom b b0 c) (hc : c ≤ c1) : scanDigits b c1 = scanDigits b0 c1 := by
  unfold Verif.scanDigits
  rw [h.drop hc]

theorem scanToSemi (h : SameFrom b b0 c) (hc : c ≤ c1) : scanToSemi b c1 = scanToSemi b0 c1 := by
  unfold Verif.scanToSemi
  rw [h.drop hc]

theorem le_scanDigits : c ≤ Verif.scanDigits b c := by unfold Verif.scanDigits; omega
theorem le_scanToSemi : c ≤ Verif.scanToSemi b c := by unfold Verif.scanToSemi; omega

theorem skipLength (h : SameFrom b b0 c) (hc : c ≤ c1) : skipLengthWithBothColon b c1 = skipLengthWithBothColon b0 c1 := by
  unfold skipLengthWithBothColon
  have := le_scanDigits (b := b0) (c := c1 + 1)
  simp only [h.hasByte, h.idx hc, h.scanDigits (show c ≤ c1 + 1 by omega), h.idx (show c ≤ Verif.scanDigits b0 (c1 + 1) by omega)]

theorem readLength (h : SameFrom b b0 c) (hc : c ≤ c1) : readLength b c1 = readLength b0 c1 := by
  unfold Verif.readLength
  simp only [h.skipLength hc, h.sub (show c ≤ c1 + 1 by omega)]

theorem wrap64_small {x : Int} (h : 0 ≤ wrap64 x) (h0 : 0 ≤ x) (h1 : x < 2 ^ 64) : wrap64 x = x := by
  unfold wrap64 at h ⊢
  omega

theorem skipClassName (hb : b0.length < 2 ^ 63) (h : SameFrom b b0 c) (hc : c ≤ c1) : skipClassName b c1 = skipClassName b0 c1 := by
  unfold Verif.skipClassName
  rw [h.hasByte, h.idx hc, h.readLength (show c ≤ c1 + 1 by omega)]
  refine ite_same (fun _ => rfl) fun _ => bind_same fun x _ => ite_same (fun _ => rfl) fun _ => bind_same ?_
  rintro ⟨k, s⟩ hk
  obtain ⟨ds, m, hm, rfl, h2, h3⟩ := readLength_sound hk
  dsimp only
  rw [h.hasByte, h.idx (show c ≤ s by omega)]
  refine ite_same (fun _ => rfl) fun hs => bind_same fun x _ => ite_same (fun _ => rfl) fun _ => ?_
  rw [h.hasBytes]
  refine ite_same (fun _ => rfl) fun he => ?_
  have hs' : s < b0.length := by simpa [Verif.hasByte] using hs
  have hm' := hm.2
  have hw : wrap64 ((s : Int) + m + 1) = (s : Int) + m + 1 := by
    simp only [Verif.hasBytes, Bool.not_eq_true, Bool.not_eq_false', decide_eq_true_eq] at he
    refine wrap64_small (by omega) (by omega) ?_
    omega
  rw [h.idx (show c ≤ (wrap64 ((s : Int) + m + 1)).toNat by omega), h.idx (show c ≤ (wrap64 ((s : Int) + m + 1)).toNat + 1 by omega)]

theorem readString (h : SameFrom b b0 c) (hc : c ≤ c1) : readString b c1 = readString b0 c1 := by
  unfold Verif.readString
  rw [h.readLength hc]
  refine bind_same ?_
  rintro ⟨k, s⟩ hk
  obtain ⟨ds, m, hm, rfl, h2, h3⟩ := readLength_sound hk
  dsimp only
  simp only [h.hasByte, h.hasBytes, h.idx (show c ≤ s by omega), h.idx (show c ≤ s + 1 + (m : Int).toNat by omega),
    h.idx (show c ≤ s + 1 + (m : Int).toNat + 1 by omega), h.sub (show c ≤ s + 1 by omega)]

theorem readIntegerBytes (h : SameFrom b b0 c) (hc : c ≤ c1) : readIntegerBytes b c1 = readIntegerBytes b0 c1 := by
  unfold Verif.readIntegerBytes
  dsimp only
  rw [h.hasByte, h.idx hc, h.hasBytes, h.idx (show c ≤ c1 + 1 by omega), h.idx (show c ≤ c1 + 2 by omega)]
  refine ite_same (fun _ => rfl) fun _ => bind_same fun x _ => ite_same (fun _ => rfl) fun _ => ite_same (fun _ => rfl) fun _ => bind_same fun x _ =>
    ite_same (fun _ => rfl) fun _ => bind_same fun x _ => ?_
  have h1 : c ≤ (if x = cMinus then c1 + 2 + 1 else c1 + 2) := by split <;> omega
  generalize (if x = cMinus then c1 + 2 + 1 else c1 + 2) = p at h1
  have := le_scanDigits (b := b0) (c := p)
  simp only [h.scanDigits h1, h.hasByte, h.idx (show c ≤ Verif.scanDigits b0 p by omega), h.sub (show c ≤ c1 + 2 by omega)]

theorem readFloatBytes (h : SameFrom b b0 c) (hc : c ≤ c1) : readFloatBytes b c1 = readFloatBytes b0 c1 := by
  unfold Verif.readFloatBytes
  simp only [h.hasByte, h.idx hc, h.hasBytes, h.idx (show c ≤ c1 + 1 by omega), h.scanToSemi (show c ≤ c1 + 2 by omega), h.sub (show c ≤ c1 + 2 by omega)]

theorem readBool (h : SameFrom b b0 c) (hc : c ≤ c1) : readBool b c1 = readBool b0 c1 := by
  unfold Verif.readBool
  simp only [h.hasBytes, h.idx hc, h.idx (show c ≤ c1 + 1 by omega), h.idx (show c ≤ c1 + 2 by omega), h.idx (show c ≤ c1 + 3 by omega)]

theorem validateNull (h : SameFrom b b0 c) (hc : c ≤ c1) : validateNull b c1 = validateNull b0 c1 := by
  unfold Verif.validateNull
  simp only [h.len, h.idx (show c ≤ c1 + 1 by omega)]

theorem validateEmptyArray (h : SameFrom b b0 c) (hc : c ≤ c1) : validateEmptyArray b c1 = validateEmptyArray b0 c1 := by
  unfold Verif.validateEmptyArray
  simp only [h.len, h.idx (show c ≤ c1 + 1 by omega), h.idx (show c ≤ c1 + 2 by omega), h.idx (show c ≤ c1 + 3 by omega)]

theorem readInt (h : SameFrom b b0 c) (hc : c ≤ c1) : readInt b c1 = readInt b0 c1 := by
  unfold Verif.readInt
  simp only [h.readIntegerBytes hc]

theorem skipInt (h : SameFrom b b0 c) (hc : c ≤ c1) : skipInt b c1 = skipInt b0 c1 := by
  unfold Verif.skipInt
  simp only [h.readIntegerBytes hc]

theorem skipString (h : SameFrom b b0 c) (hc : c ≤ c1) : skipString b c1 = skipString b0 c1 := by
  unfold Verif.skipString
  simp only [h.hasByte, h.idx hc, h.readString (show c ≤ c1 + 1 by omega)]

theorem skipPairs {s s0 : Nat → Res Nat} (hs : ∀ c1, c ≤ c1 → s c1 = s0 c1) (hp : ∀ c1 c2, c ≤ c1 → s0 c1 = .ok c2 → c ≤ c2) (k : Nat) (hc : c ≤ c1) :
    skipPairs s k c1 = skipPairs s0 k c1 ∧ ∀ c2, Verif.skipPairs s0 k c1 = .ok c2 → c ≤ c2 := by
  induction k generalizing c1 with
  | zero => exact ⟨rfl, by rintro _ ⟨⟩; exact hc⟩
  | succ k ih =>
    unfold Verif.skipPairs
    constructor
    · rw [hs c1 hc]
      refine bind_same fun a ha => ?_
      rw [hs a (hp _ _ hc ha)]
      exact bind_same fun a' ha' => (ih (hp _ _ (hp _ _ hc ha) ha')).1
    · intro c2 h
      simp only [Res.bind_eq_ok] at h
      obtain ⟨a, ha, a', ha', h⟩ := h
      exact (ih (hp _ _ (hp _ _ hc ha) ha')).2 c2 h

theorem skipValueF (hb : b0.length < 2 ^ 63) (h : SameFrom b b0 c) {f d : Nat} (hc : c ≤ c1) :
    skipValueF f b c1 d = skipValueF f b0 c1 d ∧ ∀ c2, Verif.skipValueF f b0 c1 d = .ok c2 → c ≤ c2 := by
  induction f generalizing c1 d with
  | zero => exact ⟨rfl, by rintro _ ⟨⟩⟩
  | succ f ih =>
    have arr : ∀ c2, c ≤ c2 → skipArray (fun c => Verif.skipValueF f b c (d + 1)) b c2 (d + 1) = skipArray (fun c => Verif.skipValueF f b0 c (d + 1)) b0 c2 (d + 1) ∧
        ∀ c3, skipArray (fun c => Verif.skipValueF f b0 c (d + 1)) b0 c2 (d + 1) = .ok c3 → c ≤ c3 := by
      intro c2 hc2
      unfold skipArray
      constructor
      · refine ite_same (fun _ => rfl) fun _ => ?_
        rw [h.readLength hc2]
        refine bind_same ?_
        rintro ⟨k, s⟩ hk
        obtain ⟨ds, m, hm, rfl, h2, h3⟩ := readLength_sound hk
        dsimp only
        rw [h.hasByte, h.idx (show c ≤ s by omega)]
        refine ite_same (fun _ => rfl) fun _ => bind_same fun x _ => ite_same (fun _ => rfl) fun _ => ?_
        obtain ⟨h4, h5⟩ := skipPairs (c := c) (fun c1 hc => (ih (d := d + 1) hc).1) (fun c1 c2 hc h => (ih (d := d + 1) hc).2 c2 h) (m : Int).toNat (c1 := s + 1) (by omega)
        rw [h4]
        refine bind_same fun a ha => ?_
        rw [h.hasByte, h.idx (h5 a ha)]
      · intro c3 h'
        split at h'
        · cases h'
        simp only [Res.bind_eq_ok] at h'
        obtain ⟨⟨k, s⟩, hk, h'⟩ := h'
        obtain ⟨ds, m, hm, rfl, h2, h3⟩ := readLength_sound hk
        dsimp only at h'
        obtain ⟨-, h5⟩ := skipPairs (c := c) (fun c1 hc => (ih (d := d + 1) hc).1) (fun c1 c2 hc h => (ih (d := d + 1) hc).2 c2 h) (m : Int).toNat (c1 := s + 1) (by omega)
        split at h'
        · cases h'
        simp only [Res.bind_eq_ok] at h'
        obtain ⟨x, -, h'⟩ := h'
        split at h'
        · cases h'
        simp only [Res.bind_eq_ok] at h'
        obtain ⟨a, ha, h'⟩ := h'
        have := h5 a ha
        split at h'
        · cases h'
        simp only [Res.bind_eq_ok] at h'
        obtain ⟨y, -, h'⟩ := h'
        split at h'
        · cases h'
        cases h'
        omega
    have hcls : ∀ e, Verif.skipClassName b0 c1 = .ok e → c ≤ e := by
      intro e he
      obtain ⟨l, s, -, -, -, h2⟩ := skipClassName_sound hb he
      omega
    unfold Verif.skipValueF
    constructor
    · rw [h.hasByte, h.idx hc, h.skipClassName hb hc, h.skipString hc, h.readFloatBytes hc, h.skipInt hc, h.readBool hc, h.validateNull hc, (arr (c1 + 1) (by omega)).1]
      refine ite_same (fun _ => rfl) fun _ => bind_same fun x _ => ite_same (fun _ => bind_same fun e he => ?_) fun _ => rfl
      exact (arr (e + 1) (by have := hcls e he; omega)).1
    · intro c2 h'
      split at h'
      · cases h'
      simp only [Res.bind_eq_ok] at h'
      obtain ⟨x, hx, h'⟩ := h'
      split at h'
      · simp only [Res.bind_eq_ok] at h'
        obtain ⟨e, he, h'⟩ := h'
        exact (arr (e + 1) (by have := hcls e he; omega)).2 c2 h'
      split at h'
      · exact (arr (c1 + 1) (by omega)).2 c2 h'
      split at h'
      · unfold Verif.skipString at h'
        split at h'
        · cases h'
        simp only [Res.bind_eq_ok] at h'
        obtain ⟨y, -, h'⟩ := h'
        split at h'
        · cases h'
        simp only [Res.bind_eq_ok, Res.ok.injEq] at h'
        obtain ⟨⟨s, e⟩, hs, rfl⟩ := h'
        obtain ⟨_, -, -, h⟩ := readString_sound hs
        dsimp only; omega
      split at h'
      · simp only [Res.bind_eq_ok, Res.ok.injEq] at h'
        obtain ⟨⟨s, e⟩, hs, rfl⟩ := h'
        have := (readFloatBytes_iff.1 hs).2.2.lt'
        dsimp only; omega
      split at h'
      · simp only [Verif.skipInt, Res.bind_eq_ok, Res.ok.injEq] at h'
        obtain ⟨⟨s, e⟩, hs, rfl⟩ := h'
        have := (readIntegerBytes_iff.1 hs).2.lt'
        dsimp only; omega
      split at h'
      · simp only [Res.bind_eq_ok, Res.ok.injEq] at h'
        obtain ⟨_, -, rfl⟩ := h'
        omega
      split at h'
      · simp only [Res.bind_eq_ok, Res.ok.injEq] at h'
        obtain ⟨_, -, rfl⟩ := h'
        omega
      · cases h'

theorem skipValue (hb : b0.length < 2 ^ 63) (h : SameFrom b b0 c) {d : Nat} (hc : c ≤ c1) : skipValue b c1 d = skipValue b0 c1 d := by
  unfold Verif.skipValue
  rw [h.len]
  exact (h.skipValueF hb hc).1

/-! ### Scalars -/

theorem intBytes (h : SameFrom b b0 c) (hc : c ≤ c1) : intBytes b c1 = intBytes b0 c1 := by
  unfold Verif.intBytes
  simp only [h.hasByte, h.idx hc, h.validateNull hc, h.readIntegerBytes hc]

theorem floatBytes (h : SameFrom b b0 c) (hc : c ≤ c1) : floatBytes b c1 = floatBytes b0 c1 := by
  unfold Verif.floatBytes
  simp only [h.hasByte, h.idx hc, h.validateNull hc, h.readFloatBytes hc]

theorem stringBytes (h : SameFrom b b0 c) (hc : c ≤ c1) : stringBytes b c1 = stringBytes b0 c1 := by
  unfold Verif.stringBytes
  simp only [h.hasByte, h.idx hc, h.validateNull hc, h.readString (show c ≤ c1 + 1 by omega)]

theorem intDecode (h : SameFrom b b0 c) (hc : c ≤ c1) (k : IKind) : intDecode k b c1 = intDecode k b0 c1 := by
  funext v
  unfold Verif.intDecode
  rw [h.intBytes hc]

theorem uintDecode (h : SameFrom b b0 c) (hc : c ≤ c1) (k : UKind) : uintDecode k b c1 = uintDecode k b0 c1 := by
  funext v
  unfold Verif.uintDecode
  rw [h.intBytes hc]

theorem floatDecode (h : SameFrom b b0 c) (hc : c ≤ c1) (W : World) (k : Bool) : floatDecode W k b c1 = floatDecode W k b0 c1 := by
  funext v
  unfold Verif.floatDecode
  rw [h.floatBytes hc]

theorem boolDecode (h : SameFrom b b0 c) (hc : c ≤ c1) : boolDecode b c1 = boolDecode b0 c1 := by
  funext v
  unfold Verif.boolDecode
  rw [h.hasByte, h.idx hc, h.readBool hc, h.validateNull hc]

theorem stringDecode (h : SameFrom b b0 c) (hc : c ≤ c1) : stringDecode b c1 = stringDecode b0 c1 := by
  funext v
  unfold Verif.stringDecode
  rw [h.stringBytes hc]

theorem wrappedDecode (h : SameFrom b b0 c) (hc : c ≤ c1) (W : World) (t : Ty) : wrappedDecode W t b c1 = wrappedDecode W t b0 c1 := by
  funext v
  unfold Verif.wrappedDecode
  rw [h.stringBytes hc]

theorem anyKeyDecode (h : SameFrom b b0 c) (hc : c ≤ c1) : anyKeyDecode b c1 = anyKeyDecode b0 c1 := by
  unfold Verif.anyKeyDecode
  rw [h.idx hc, h.stringDecode hc, h.intDecode hc]

theorem decodeKey (h : SameFrom b b0 c) (hc : c ≤ c1) (sets : List FieldSet) : decodeKey sets b c1 = decodeKey sets b0 c1 := by
  unfold Verif.decodeKey
  rw [h.stringBytes hc]

theorem validateEndBuf (h : SameFrom b b0 c) (hc : c ≤ c1) : validateEndBuf b c1 = validateEndBuf b0 c1 := by
  unfold Verif.validateEndBuf
  rw [h.len, h.idx hc]

end SameFrom

end Verif

import Verif.Proofs.Safety
/-
How deep decoder calls nest: a call at the depth limit makes no further nested decoder calls, so the fuel of `decodeF` and `skipValueF`
does not matter beyond the limit.
-/
namespace Verif
open Spec

section Congr
variable {b : Bytes} {c d : Nat} {v : Val}

theorem sliceDecode_congr {dec dec' : Nat → Nat → Val → DR} {z : Val} {n : Nat}
    (h : d + 1 ≤ maxDepth → ∀ c v, dec c (d + 1) v = dec' c (d + 1) v) : sliceDecode dec z n b c d v = sliceDecode dec' z n b c d v := by
  unfold sliceDecode
  by_cases hd : d + 1 > maxDepth
  · simp only [if_pos hd]
  · have : (fun c v => dec c (d + 1) v) = fun c v => dec' c (d + 1) v := by
      funext c v
      exact h (by omega) c v
    simp only [this]

theorem bytesDecode_congr {dec dec' : Nat → Nat → Val → DR} {z : Val}
    (h : d + 1 ≤ maxDepth → ∀ c v, dec c (d + 1) v = dec' c (d + 1) v) : bytesDecode dec z b c d v = bytesDecode dec' z b c d v := by
  unfold bytesDecode
  rw [sliceDecode_congr h]

theorem arrayDecode_congr {dec dec' : Nat → Nat → Val → DR} {z : Val} {n : Nat}
    (h : d + 1 ≤ maxDepth → ∀ c v, dec c (d + 1) v = dec' c (d + 1) v) : arrayDecode dec z n b c d v = arrayDecode dec' z n b c d v := by
  unfold arrayDecode
  by_cases hd : d + 1 > maxDepth
  · simp only [if_pos hd]
  · have : (fun c v => dec c (d + 1) v) = fun c v => dec' c (d + 1) v := by
      funext c v
      exact h (by omega) c v
    simp only [this]

theorem mapDecode_congr {kd kd' vd vd' : Nat → Nat → DR} (hk : d + 1 ≤ maxDepth → ∀ c, kd c (d + 1) = kd' c (d + 1))
    (hv : d + 1 ≤ maxDepth → ∀ c, vd c (d + 1) = vd' c (d + 1)) : mapDecode kd vd b c d v = mapDecode kd' vd' b c d v := by
  unfold mapDecode
  by_cases hd : d + 1 > maxDepth
  · simp only [if_pos hd]
  · have h1 : (fun c => kd c (d + 1)) = fun c => kd' c (d + 1) := by
      funext c
      exact hk (by omega) c
    have h2 : (fun c => vd c (d + 1)) = fun c => vd' c (d + 1) := by
      funext c
      exact hv (by omega) c
    simp only [h1, h2]

theorem anyDecode_congr {W : World} {ad ad' : Nat → Nat → DR} (h : d + 1 ≤ maxDepth → ∀ c, ad c (d + 1) = ad' c (d + 1)) :
    anyDecode W ad b c d v = anyDecode W ad' b c d v := by
  unfold anyDecode
  rw [mapDecode_congr (kd' := fun c _ => stringDecode b c (.str [])) (vd' := ad') (fun _ _ => rfl) h,
    mapDecode_congr (kd' := fun c _ => anyKeyDecode b c) (vd' := ad') (fun _ _ => rfl) h]

theorem keyDecode_congr {W : World} {ad ad' : Nat → Nat → DR} {k : Ty} (h : d + 1 ≤ maxDepth → ∀ c, ad c (d + 1) = ad' c (d + 1)) :
    keyDecode W ad b k c d = keyDecode W ad' b k c d := by
  unfold keyDecode
  simp only [anyDecode_congr h]

theorem structDecode_congr {sets : List FieldSet} {dec dec' : FieldSet → Nat → Nat → Val → DR}
    (h : d + 1 ≤ maxDepth → ∀ s c v, dec s c (d + 1) v = dec' s c (d + 1) v) : structDecode sets dec b c d v = structDecode sets dec' b c d v := by
  unfold structDecode
  by_cases hd : d + 1 > maxDepth
  · simp only [if_pos hd]
  · have : (fun s c v => dec s c (d + 1) v) = fun s c v => dec' s c (d + 1) v := by
      funext s c v
      exact h (by omega) s c v
    simp only [this]

theorem decodeNonPtr_congr {W : World} {R R' : Ty → Nat → Nat → Val → DR} {t : Ty}
    (h : d + 1 ≤ maxDepth → ∀ t c v, R t c (d + 1) v = R' t c (d + 1) v)
    (h2 : d + 2 ≤ maxDepth → ∀ t c v, R t c (d + 2) v = R' t c (d + 2) v) : decodeNonPtr W R b t c d v = decodeNonPtr W R' b t c d v := by
  unfold decodeNonPtr
  cases W.unmOf t with
  | some id => rfl
  | none =>
    cases W.resolve t with
    | slice e =>
      simp only
      split
      · exact bytesDecode_congr fun hd => h hd e
      · exact sliceDecode_congr fun hd => h hd e
    | array n e => exact arrayDecode_congr fun hd => h hd e
    | map k e =>
      exact mapDecode_congr (fun hd c => keyDecode_congr fun hd' c => h2 hd' _ c _) fun hd c => h hd e c _
    | struct id =>
      refine structDecode_congr fun hd s c v => ?_
      unfold fieldDecode
      rw [h hd]
    | any => exact anyDecode_congr fun hd c => h hd _ c _
    | _ => rfl

end Congr

/-- Fuel beyond the depth limit makes no difference to `decodeF`. -/
theorem decodeF_fuel {W : World} {b : Bytes} : ∀ {f f' : Nat} {t : Ty} {c d : Nat} {v : Val}, d ≤ maxDepth → maxDepth + 1 ≤ f + d →
    maxDepth + 1 ≤ f' + d → decodeF W b f t c d v = decodeF W b f' t c d v
  | 0, _, _, _, _, _, _, _, _ => by omega
  | _, 0, _, _, _, _, _, _, _ => by omega
  | f + 1, f' + 1, t, c, d, v, hd, h1, h2 => by
    have step : ∀ t c v, decodeNonPtr W (decodeF W b f) b t c d v = decodeNonPtr W (decodeF W b f') b t c d v := fun t c v =>
      decodeNonPtr_congr (fun hd' t c v => decodeF_fuel hd' (by omega) (by omega)) fun hd' t c v => decodeF_fuel hd' (by omega) (by omega)
    unfold decodeF
    cases W.unmOf t with
    | some id => exact step _ _ _
    | none =>
      cases W.resolve t with
      | ptr e =>
        simp only
        split
        · rfl
        · unfold ptrDecode
          simp only [step]
      | _ => exact step _ _ _

theorem skipArray_congr {b : Bytes} {c d : Nat} {s s' : Nat → Res Nat} (h : d ≤ maxDepth → ∀ c, s c = s' c) :
    skipArray s b c d = skipArray s' b c d := by
  unfold skipArray
  by_cases hd : d > maxDepth
  · simp only [if_pos hd]
  · have : s = s' := by
      funext c
      exact h (by omega) c
    rw [this]

/-- Fuel beyond the depth limit makes no difference to `skipValueF`. -/
theorem skipValueF_fuel {b : Bytes} : ∀ {f f' c d : Nat}, d ≤ maxDepth → maxDepth + 1 ≤ f + d → maxDepth + 1 ≤ f' + d →
    skipValueF f b c d = skipValueF f' b c d
  | 0, _, _, _, _, _, _ => by omega
  | _, 0, _, _, _, _, _ => by omega
  | f + 1, f' + 1, c, d, hd, h1, h2 => by
    have step : ∀ c, skipArray (fun c => skipValueF f b c (d + 1)) b c (d + 1) = skipArray (fun c => skipValueF f' b c (d + 1)) b c (d + 1) :=
      fun c => skipArray_congr fun hd' c => skipValueF_fuel hd' (by omega) (by omega)
    unfold skipValueF
    simp only [step]

/-- Decoder calls end at the smaller of the input length and the depth limit. -/
theorem decodeF_nesting {W : World} {D : Ty → Prop} (hW : WorldOk W D) (hD : ∀ t, Documented t → D t) {P : Panic → Prop} {T : Ty → Prop}
    {b : Bytes} (hH : Hazards W b P T) (hb : b.length < 2 ^ 63) (hne : b ≠ []) {f : Nat} {t : Ty} {rv : Val}
    (hf : min b.length (maxDepth + 1) ≤ f) (hTt : T t) (hrv : HasTy W D t rv) : Good (HasTy W D t) P (decodeF W b f t 0 0 rv) := by
  have hlen : 0 < b.length := List.length_pos_iff.2 hne
  by_cases h : b.length ≤ f
  · exact decodeF_good hW hD hH hb (by omega) hlen (by omega) hTt hrv
  · have h2 : maxDepth + 1 ≤ f := by omega
    rw [decodeF_fuel (f' := f + b.length) (by omega) (by omega) (by omega)]
    exact decodeF_good hW hD hH hb (by omega) hlen (by omega) hTt hrv

theorem skipValueF_nesting {b : Bytes} (hb : b.length < 2 ^ 63) {f c d : Nat} (hd : d ≤ maxDepth)
    (hf : min (b.length + 1 - c) (maxDepth + 1 - d) ≤ f) (h1 : 1 ≤ f) : (skipValueF f b c d).Returns := by
  by_cases h : b.length + 1 ≤ f + c
  · exact skipValueF_returns hb h1 h
  · rw [skipValueF_fuel (f' := f + b.length + 1) hd (by omega) (by omega)]
    exact skipValueF_returns hb (by omega) (by omega)

end Verif

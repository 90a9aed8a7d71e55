import Verif.Proofs.DecSound
/-
Completeness of the decoders: whatever the specification allows to be stored is accepted, with the specified result.
-/
set_option linter.unusedSimpArgs false

namespace Verif
open Spec

theorem PairsAt.inv {b : Bytes} {c c' : Nat} {k v : Doc} {es : List (Doc × Doc)} (h : PairsAt b c ((k, v) :: es) c') :
    ∃ c1 c2, At b c k c1 ∧ At b c1 v c2 ∧ PairsAt b c2 es c' := by
  obtain ⟨h1, h2⟩ := h
  simp only [pairsText, List.append_assoc] at h1
  simp only [pairsText, List.length_append] at h2
  have e1 := drop_append_eq h1
  have e2 := drop_append_eq e1
  exact ⟨_, _, .of h1, .of e1, e2, by omega⟩

theorem PairsAt.idx {b : Bytes} {c c' : Nat} {es : List (Doc × Doc)} (h : PairsAt b c es c') :
    ∃ x, Verif.idx b c = .ok x ∧ (es = [] ↔ x = cRBrace) ∧ (es = [] → c' = c + 1) := by
  cases es with
  | nil =>
    refine ⟨125, idx_of_drop (t := b.drop c') (by simpa [pairsText] using h.1), by simp, ?_⟩
    intro _; simpa [pairsText] using h.2
  | cons kv es =>
    obtain ⟨k, v⟩ := kv
    obtain ⟨c1, c2, hk, _, _⟩ := h.inv
    have := hk.idx
    refine ⟨_, this, ?_, by simp⟩
    cases k <;> simp (decide := true)

theorem PairsAt.lt {b : Bytes} {c c' : Nat} {es : List (Doc × Doc)} (h : PairsAt b c es c') : c < b.length := by
  obtain ⟨x, hx, _⟩ := h.idx
  exact lt_of_drop_cons (drop_of_idx hx)

theorem arr_inv {b : Bytes} {c c' : Nat} {cnt : Bytes} {es : List (Doc × Doc)} (h : At b c (.arr cnt es) c') :
    Verif.idx b c = .ok 97 ∧ ∃ c2, b.drop (c + 1) = 58 :: (cnt ++ 58 :: 123 :: b.drop c2) ∧ c2 = c + cnt.length + 4 ∧ PairsAt b c2 es c' := by
  obtain ⟨h1, h2⟩ := at_arr_iff.1 h
  have e1 := drop_tail h1
  have e2 := drop_tail e1
  have e3 := drop_append_eq e2
  have e4 := drop_tail (drop_tail e3)
  refine ⟨idx_of_drop h1, c + 1 + 1 + cnt.length + 1 + 1, by rw [e1, e4], by omega, by rw [PairsAt, e4]; exact ⟨rfl, by omega⟩⟩

theorem container_inv {b : Bytes} {c c' : Nat} {d : Doc} {cnt : Bytes} {es : List (Doc × Doc)} (hb : b.length < 2 ^ 63)
    (hc : Container d cnt es) (h : At b c d c') :
    ∃ x c1 c2, idx b c = .ok x ∧ x ≠ cN ∧ (∀ e, (if x = cO then skipClassName b c >>= fun e => .ok (e + 1) else
        if x = ca then .ok (c + 1) else .err e) = .ok c1) ∧
      b.drop c1 = 58 :: (cnt ++ 58 :: 123 :: b.drop c2) ∧ c2 = c1 + cnt.length + 3 ∧ PairsAt b c2 es c' := by
  cases hc with
  | arr =>
    obtain ⟨h1, c2, h2, h3, h4⟩ := arr_inv h
    exact ⟨97, c + 1, c2, h1, by decide, by simp (decide := true), h2, by omega, h4⟩
  | @obj clen cls _ _ hl =>
    have hx := h.idx
    obtain ⟨h1, h2⟩ := at_obj_iff.1 h
    have e1 := drop_tail (drop_tail h1)
    have e2 := drop_tail (drop_tail (drop_append_eq e1))
    have e3 := drop_append_eq e2
    have e4 := drop_tail e3
    have e5 := drop_append_eq (drop_tail e4)
    have e6 := drop_tail (drop_tail e5)
    refine ⟨79, c + 1 + 1 + clen.length + 1 + 1 + cls.length + 1, c + 1 + 1 + clen.length + 1 + 1 + cls.length + 1 + 1 + cnt.length + 1 + 1, hx, by decide, ?_, ?_, by omega, ?_⟩
    · intro e
      rw [if_pos rfl, skipClassName_complete hb hl h1]
      simp only [Res.bind_ok]
      rw [show c + clen.length + cls.length + 4 + 1 = c + 1 + 1 + clen.length + 1 + 1 + cls.length + 1 by omega]
    · rw [e4, e6]
    · rw [PairsAt, e6]; exact ⟨rfl, by omega⟩

theorem int_readInt {b : Bytes} {c c1 i : Nat} {t : Bytes} (h : At b c (.int t) c1) (ht : IntText t (i : Nat)) (hi : i < 2 ^ 63) :
    readInt b c = .ok (i, c1) := by
  obtain ⟨h1, h2⟩ := at_int_iff.1 h
  rw [readInt_complete ht hi h1, h2]

/-- One step of the slice loop. -/
theorem sliceLoop_step {W : World} {e : Ty} {b : Bytes} {dec : Nat → Val → DR} {f c c1 c2 c' i : Nat} {t : Bytes}
    {sl : List Val} {rv v0 v : Val} {vs : List Val} {es : List (Doc × Doc)}
    (hk : At b c (.int t) c1) (ht : IntText t (i : Nat)) (hi : i < 2 ^ 63)
    (hg : sl.length ≤ i → i + 1 < 2 ^ 63 ∧ esize W e * (i + 1) ≤ 2 ^ 48)
    (hv0 : (padTo (W.zero e) i sl)[i]? = some v0) (h1 : c1 < b.length) (hdec : dec c1 v0 = (v, .ok c2)) (hp : PairsAt b c2 es c')
    (hnil : es = [] → (padTo (W.zero e) i sl).set i v = vs)
    (hrest : es ≠ [] → sliceLoop dec (W.zero e) (esize W e) b f c2 ((padTo (W.zero e) i sl).set i v)
      (.slice ((padTo (W.zero e) i sl).set i v)) = (.slice vs, .ok c')) :
    sliceLoop dec (W.zero e) (esize W e) b (f + 1) c sl rv = (.slice vs, .ok c') := by
  have hpad : (if decide (i ≥ sl.length) = true then sl ++ List.replicate (i + 1 - sl.length) (W.zero e) else sl) =
      padTo (W.zero e) i sl := by
    unfold padTo
    split
    · rfl
    · rename_i hlt
      simp only [ge_iff_le, decide_eq_true_eq, Nat.not_le] at hlt
      rw [show i + 1 - sl.length = 0 by omega]; simp
  have hms : (decide (i ≥ sl.length) && !makeSliceOk (esize W e) (wrap64 ((i : Int) + 1))) = false := by
    by_cases hle : sl.length ≤ i
    · obtain ⟨g1, g2⟩ := hg hle
      rw [wrap64_of_range (by omega) (by omega)]
      have : makeSliceOk (esize W e) ((i : Int) + 1) = true := by
        unfold makeSliceOk
        rw [decide_eq_true_iff]
        refine ⟨by omega, ?_⟩
        rwa [show ((i : Int) + 1).toNat = i + 1 by omega]
      simp [this]
    · generalize wrap64 ((i : Int) + 1) = w
      simp [hle]
  simp only [sliceLoop, hasByte_false hk.lt, int_readInt hk ht hi, onOk_ok_eq, hasByte_false h1, hms, hpad, hv0, hdec]
  obtain ⟨x, hx, hx1, hx2⟩ := hp.idx
  simp only [hasByte_false hp.lt, hx, onOk_ok_eq]
  by_cases hes : es = []
  · rw [if_pos (hx1.1 hes)]; simp [hx2 hes, hnil hes]
  · rw [if_neg (fun h => hes (hx1.2 h))]
    simpa using hrest hes

theorem arrayLoop_store {b : Bytes} {dec : Nat → Val → DR} {skip : Nat → Res Nat} {f c c1 c2 c' i : Nat} {t : Bytes}
    {sl : List Val} {v0 v : Val} {vs : List Val} {es : List (Doc × Doc)}
    (hk : At b c (.int t) c1) (ht : IntText t (i : Nat)) (hi : i < 2 ^ 63)
    (hv0 : sl[i]? = some v0) (h1 : c1 < b.length) (hdec : dec c1 v0 = (v, .ok c2)) (hp : PairsAt b c2 es c')
    (hnil : es = [] → sl.set i v = vs)
    (hrest : es ≠ [] → arrayLoop dec skip b f c2 (sl.set i v) = (.arr vs, .ok c')) :
    arrayLoop dec skip b (f + 1) c sl = (.arr vs, .ok c') := by
  simp only [arrayLoop, hasByte_false hk.lt, int_readInt hk ht hi, onOk_ok_eq, hasByte_false h1, hv0, hdec]
  obtain ⟨x, hx, hx1, hx2⟩ := hp.idx
  simp only [hasByte_false hp.lt, hx, onOk_ok_eq]
  by_cases hes : es = []
  · rw [if_pos (hx1.1 hes)]; simp [hx2 hes, hnil hes]
  · rw [if_neg (fun h => hes (hx1.2 h))]
    simpa using hrest hes

theorem arrayLoop_skip {b : Bytes} {dec : Nat → Val → DR} {skip : Nat → Res Nat} {f c c1 c2 c' i : Nat} {t : Bytes}
    {sl : List Val} {vs : List Val} {es : List (Doc × Doc)}
    (hk : At b c (.int t) c1) (ht : IntText t (i : Nat)) (hi : i < 2 ^ 63)
    (hv0 : sl.length ≤ i) (h1 : c1 < b.length) (hskip : skip c1 = .ok c2) (hp : PairsAt b c2 es c')
    (hnil : es = [] → sl = vs)
    (hrest : es ≠ [] → arrayLoop dec skip b f c2 sl = (.arr vs, .ok c')) :
    arrayLoop dec skip b (f + 1) c sl = (.arr vs, .ok c') := by
  have hv : sl[i]? = none := by simpa using hv0
  simp only [arrayLoop, hasByte_false hk.lt, int_readInt hk ht hi, onOk_ok_eq, hasByte_false h1, hv, hskip]
  obtain ⟨x, hx, hx1, hx2⟩ := hp.idx
  simp only [hasByte_false hp.lt, hx, onOk_ok_eq]
  by_cases hes : es = []
  · rw [if_pos (hx1.1 hes)]; simp [hx2 hes, hnil hes]
  · rw [if_neg (fun h => hes (hx1.2 h))]
    simpa using hrest hes

theorem mapLoop_step {b : Bytes} {keyDec valDec : Nat → DR} {f c c1 c2 c' : Nat} {k x : Val}
    {m m' : List (Val × Val)} {es : List (Doc × Doc)} (h0 : c < b.length)
    (hk : keyDec c = (k, .ok c1)) (h1 : c1 < b.length) (hdec : valDec c1 = (x, .ok c2)) (hh : Hashable k) (hp : PairsAt b c2 es c')
    (hnil : es = [] → mapInsert k x m = m')
    (hrest : es ≠ [] → mapLoop keyDec valDec b f c2 (mapInsert k x m) = (.map m', .ok c')) :
    mapLoop keyDec valDec b (f + 1) c m = (.map m', .ok c') := by
  simp only [mapLoop, hasByte_false h0, hk, onOk_ok_eq, hasByte_false h1, hdec, hashable_of hh]
  obtain ⟨x, hx, hx1, hx2⟩ := hp.idx
  simp only [hasByte_false hp.lt, hx, onOk_ok_eq]
  by_cases hes : es = []
  · rw [if_pos (hx1.1 hes)]; simp [hx2 hes, hnil hes]
  · rw [if_neg (fun h => hes (hx1.2 h))]
    simpa using hrest hes

theorem fieldKey_stringBytes {b : Bytes} {c c1 : Nat} {kd : Doc} {s : Bytes} (hb : b.length < 2 ^ 63) (hk : FieldKey kd s)
    (h : At b c kd c1) : ∃ ob, stringBytes b c = .ok (ob, c1) ∧ ob.getD [] = s := by
  cases hk with
  | @str len s hl => exact ⟨some s, (stringBytes_iff hb).2 (.inr ⟨_, _, rfl, hl, h⟩), rfl⟩
  | null => exact ⟨none, (stringBytes_iff hb).2 (.inl ⟨rfl, h⟩), rfl⟩

theorem structLoop_store {W : World} {id : Nat} {b : Bytes} {dec : FieldSet → Nat → Val → DR} {skip : Nat → Res Nat}
    {f c c1 c2 c' i : Nat} {kd : Doc} {s : Bytes} {fd : Field}
    {sl : List Val} {v0 v : Val} {vs : List Val} {es : List (Doc × Doc)} (hb : b.length < 2 ^ 63)
    (hk : At b c kd c1) (hkd : FieldKey kd s) (hf : FieldFor W id s i fd)
    (hv0 : sl[i]? = some v0) (h1 : c1 < b.length) (hdec : dec (mkSet W i fd) c1 v0 = (v, .ok c2)) (hp : PairsAt b c2 es c')
    (hnil : es = [] → sl.set i v = vs)
    (hrest : es ≠ [] → structLoop (fieldSets W 0 (W.fields id)) dec skip b f c2 (sl.set i v) = (.struct vs, .ok c')) :
    structLoop (fieldSets W 0 (W.fields id)) dec skip b (f + 1) c sl = (.struct vs, .ok c') := by
  obtain ⟨ob, hob, rfl⟩ := fieldKey_stringBytes hb hkd hk
  have hidx : (mkSet W i fd).idx = i := rfl
  simp only [structLoop, hasByte_false hk.lt, decodeKey, hob, Res.bind_ok, find_of_fieldFor hf, onOk_ok_eq, hasByte_false h1,
    hidx, hv0, hdec]
  obtain ⟨x, hx, hx1, hx2⟩ := hp.idx
  simp only [hasByte_false hp.lt, hx, onOk_ok_eq]
  by_cases hes : es = []
  · rw [if_pos (hx1.1 hes)]; simp [hx2 hes, hnil hes]
  · rw [if_neg (fun h => hes (hx1.2 h))]
    simpa using hrest hes

theorem structLoop_skip {W : World} {id : Nat} {b : Bytes} {dec : FieldSet → Nat → Val → DR} {skip : Nat → Res Nat}
    {f c c1 c2 c' : Nat} {kd : Doc} {s : Bytes}
    {sl : List Val} {vs : List Val} {es : List (Doc × Doc)} (hb : b.length < 2 ^ 63)
    (hk : At b c kd c1) (hkd : FieldKey kd s) (hf : NoField W id s)
    (h1 : c1 < b.length) (hskip : skip c1 = .ok c2) (hp : PairsAt b c2 es c')
    (hnil : es = [] → sl = vs)
    (hrest : es ≠ [] → structLoop (fieldSets W 0 (W.fields id)) dec skip b f c2 sl = (.struct vs, .ok c')) :
    structLoop (fieldSets W 0 (W.fields id)) dec skip b (f + 1) c sl = (.struct vs, .ok c') := by
  obtain ⟨ob, hob, rfl⟩ := fieldKey_stringBytes hb hkd hk
  simp only [structLoop, hasByte_false hk.lt, decodeKey, hob, Res.bind_ok, find_none.2 hf, onOk_ok_eq, hasByte_false h1,
    hskip]
  obtain ⟨x, hx, hx1, hx2⟩ := hp.idx
  simp only [hasByte_false hp.lt, hx, onOk_ok_eq]
  by_cases hes : es = []
  · rw [if_pos (hx1.1 hes)]; simp [hx2 hes, hnil hes]
  · rw [if_neg (fun h => hes (hx1.2 h))]
    simpa using hrest hes

/-! ### Containers -/

theorem null_end {b : Bytes} {c c' : Nat} (h : At b c .null c') : c' = c + 2 ∧ idx b c = .ok cN ∧ validateNull b c = .ok () := by
  have h2 := (at_null_iff.1 h).2
  subst h2
  have hx := h.idx
  exact ⟨rfl, hx, (validateNull_iff hx).2 h⟩

theorem sliceDecode_null {dec : Nat → Nat → Val → DR} {z : Val} {es : Nat} {b : Bytes} {c c' depth : Nat} {rv : Val}
    (hd : depth + 1 ≤ maxDepth) (h : At b c .null c') : sliceDecode dec z es b c depth rv = (.sliceNil, .ok c') := by
  obtain ⟨rfl, hx, hv⟩ := null_end h
  simp only [sliceDecode, hasByte_false h.lt, hx, hv, onOk_ok_eq]
  rw [if_neg (by simp), if_neg (by omega), if_pos trivial]

theorem emptyArr_inv {b : Bytes} {c c' : Nat} (h : At b c (.arr [48] []) c') :
    idx b c = .ok ca ∧ idx b (c + 1) = .ok cColon ∧ idx b (c + 1 + 1) = .ok c0 ∧ validateEmptyArray b (c + 1 + 1) = .ok () ∧
      c + 1 + 1 < b.length ∧ c' = c + 1 + 1 + 4 := by
  obtain ⟨h1, h2⟩ := at_arr_iff.1 h
  simp only [pairsText, List.nil_append, List.cons_append] at h1
  simp [pairsText] at h2
  have e1 := drop_tail h1
  have e2 := drop_tail e1
  exact ⟨idx_of_drop h1, idx_of_drop e1, idx_of_drop e2, validateEmptyArray_complete e2, lt_of_drop_cons e2, by omega⟩

theorem sliceDecode_empty {dec : Nat → Nat → Val → DR} {z : Val} {es : Nat} {b : Bytes} {c c' depth : Nat} {rv : Val}
    (hd : depth + 1 ≤ maxDepth) (h : At b c (.arr [48] []) c') : sliceDecode dec z es b c depth rv = (.sliceNil, .ok c') := by
  obtain ⟨h1, h2, h3, h4, h5, rfl⟩ := emptyArr_inv h
  simp only [sliceDecode, hasByte_false h.lt, h1, h2, h3, h4, onOk_ok_eq, hasByte_false (Nat.lt_of_succ_lt h5), hasByte_false h5]
  rw [if_neg (by simp), if_neg (by omega)]
  simp (decide := true)

theorem arrayDecode_empty {dec : Nat → Nat → Val → DR} {z : Val} {l : Nat} {b : Bytes} {c c' depth : Nat} {rv : Val}
    (hd : depth + 1 ≤ maxDepth) (h : At b c (.arr [48] []) c') :
    arrayDecode dec z l b c depth rv = (.arr (List.replicate l z), .ok c') := by
  obtain ⟨h1, h2, h3, h4, h5, rfl⟩ := emptyArr_inv h
  simp only [arrayDecode, hasByte_false h.lt, h1, h2, h3, h4, onOk_ok_eq, hasByte_false (Nat.lt_of_succ_lt h5), hasByte_false h5]
  rw [if_neg (by simp), if_neg (by omega)]
  simp (decide := true)

/-- Reading the count of an array. -/
theorem arr_count {b : Bytes} {c c2 : Nat} {cnt : Bytes} {m : Nat} (hm : LenText cnt m)
    (h : b.drop (c + 1) = 58 :: (cnt ++ 58 :: 123 :: b.drop c2)) (hc2 : c2 = c + cnt.length + 4) :
    idx b (c + 1) = .ok cColon ∧ (∃ z, idx b (c + 1 + 1) = .ok z ∧ cnt.head? = some z) ∧
      readLengthInt b (c + 1 + 1 - 1) = .ok ((m : Int), c2 - 1) ∧ idx b (c2 - 1) = .ok cLBrace ∧ c2 - 1 + 1 = c2 := by
  have e1 := drop_tail h
  have e2 := drop_append_eq e1
  have e3 := drop_tail e2
  have hx : ∃ z, idx b (c + 1 + 1) = .ok z ∧ cnt.head? = some z := by
    cases hcnt : cnt with
    | nil => exact absurd hcnt hm.1.1
    | cons z zs => subst hcnt; exact ⟨z, idx_of_drop e1, rfl⟩
  refine ⟨idx_of_drop h, hx, ?_, ?_, by omega⟩
  · unfold readLengthInt
    rw [show c + 1 + 1 - 1 = c + 1 by omega, readLength_complete hm h]
    rw [show c2 - 1 = c + 1 + cnt.length + 2 by omega]
  · rw [show c2 - 1 = c + 1 + 1 + cnt.length + 1 by omega]
    exact idx_of_drop e3

theorem sliceDecode_complete {dec : Nat → Nat → Val → DR} {z : Val} {es : Nat} {b : Bytes} {c c' depth : Nat} {rv v : Val}
    {cnt : Bytes} {m : Nat} {ps : List (Doc × Doc)}
    (hd : depth + 1 ≤ maxDepth) (h : At b c (.arr cnt ps) c') (hm : LenText cnt m) (hz : cnt.head? ≠ some 48)
    (hms : es * m ≤ 2 ^ 48)
    (hloop : ∀ c2, PairsAt b c2 ps c' → sliceLoop (fun c v => dec c (depth + 1) v) z es b (b.length + 1) c2 [] rv = (v, .ok c')) :
    sliceDecode dec z es b c depth rv = (v, .ok c') := by
  obtain ⟨h1, c2, h2, h3, h4⟩ := arr_inv h
  obtain ⟨g1, ⟨y, g2, g2'⟩, g3, g4, g5⟩ := arr_count hm h2 h3
  have l1 := lt_of_drop_cons (drop_of_idx g1)
  have l2 := lt_of_drop_cons (drop_of_idx g2)
  have l3 := lt_of_drop_cons (drop_of_idx g4)
  have hy : y ≠ c0 := by rintro rfl; exact hz g2'
  have hmk : makeSliceOk es (m : Int) = true := by
    unfold makeSliceOk
    rw [decide_eq_true_iff]
    exact ⟨by omega, by simpa using hms⟩
  simp only [sliceDecode, hasByte_false h.lt, h1, g1, g2, g3, g4, g5, onOk_ok_eq, hasByte_false l1, hasByte_false l2,
    hasByte_false l3, hmk, hloop c2 h4]
  rw [if_neg (by simp), if_neg (by omega)]
  simp (decide := true) [hy]

theorem arrayDecode_complete {dec : Nat → Nat → Val → DR} {z : Val} {l : Nat} {b : Bytes} {c c' depth : Nat} {rv v : Val}
    {cnt : Bytes} {m : Nat} {ps : List (Doc × Doc)}
    (hd : depth + 1 ≤ maxDepth) (h : At b c (.arr cnt ps) c') (hm : LenText cnt m) (hz : cnt.head? ≠ some 48)
    (hloop : ∀ c2, PairsAt b c2 ps c' → arrayLoop (fun c v => dec c (depth + 1) v) (fun c => skipValue b c (depth + 1)) b
      (b.length + 1) c2 (List.replicate l z) = (v, .ok c')) :
    arrayDecode dec z l b c depth rv = (v, .ok c') := by
  obtain ⟨h1, c2, h2, h3, h4⟩ := arr_inv h
  obtain ⟨g1, ⟨y, g2, g2'⟩, g3, g4, g5⟩ := arr_count hm h2 h3
  have l1 := lt_of_drop_cons (drop_of_idx g1)
  have l2 := lt_of_drop_cons (drop_of_idx g2)
  have l3 := lt_of_drop_cons (drop_of_idx g4)
  have hy : y ≠ c0 := by rintro rfl; exact hz g2'
  simp only [arrayDecode, hasByte_false h.lt, h1, g1, g2, g3, g4, g5, onOk_ok_eq, hasByte_false l1, hasByte_false l2,
    hasByte_false l3, hloop c2 h4]
  rw [if_neg (by simp), if_neg (by omega)]
  simp (decide := true) [hy]

theorem arrayDecode_null {dec : Nat → Nat → Val → DR} {z : Val} {l : Nat} {b : Bytes} {c c' depth : Nat} {rv : Val}
    (hd : depth + 1 ≤ maxDepth) (h : At b c .null c') : arrayDecode dec z l b c depth rv = (rv, .ok c') := by
  obtain ⟨rfl, hx, hv⟩ := null_end h
  simp only [arrayDecode, hasByte_false h.lt, hx, hv, onOk_ok_eq]
  rw [if_neg (by simp), if_neg (by omega), if_pos trivial]

theorem mapDecode_null {kd vd : Nat → Nat → DR} {b : Bytes} {c c' depth : Nat} {rv : Val}
    (hd : depth + 1 ≤ maxDepth) (h : At b c .null c') : mapDecode kd vd b c depth rv = (.mapNil, .ok c') := by
  obtain ⟨rfl, hx, hv⟩ := null_end h
  simp only [mapDecode, hasByte_false h.lt, hx, hv, onOk_ok_eq]
  rw [if_neg (by simp), if_neg (by omega), if_pos trivial]

theorem mapDecode_complete {kd vd : Nat → Nat → DR} {b : Bytes} {c c' depth : Nat} {rv : Val}
    {d : Doc} {cnt : Bytes} {m : Nat} {ps : List (Doc × Doc)} {es0 es1 : List (Val × Val)} (hb : b.length < 2 ^ 63)
    (hd : depth + 1 ≤ maxDepth) (h : At b c d c') (hc : Container d cnt ps) (hm : LenText cnt m) (h0 : MapBase rv es0)
    (hnil : ps = [] → es0 = es1)
    (hloop : ∀ c2, PairsAt b c2 ps c' → ps ≠ [] →
      mapLoop (fun c => kd c (depth + 1)) (fun c => vd c (depth + 1)) b (b.length + 1) c2 es0 = (.map es1, .ok c')) :
    mapDecode kd vd b c depth rv = (.map es1, .ok c') := by
  obtain ⟨x, c1, c2, hx, hxn, hhd, hdr, hc2, hp⟩ := container_inv hb hc h
  have hl := readLength_complete hm hdr
  have e1 := drop_tail (drop_append_eq (drop_tail hdr))
  have hy : idx b (c1 + cnt.length + 2) = .ok cLBrace := by
    rw [show c1 + cnt.length + 2 = c1 + 1 + cnt.length + 1 by omega]; exact idx_of_drop e1
  have l3 := lt_of_drop_cons (drop_of_idx hy)
  have hc3 : c1 + cnt.length + 2 + 1 = c2 := by omega
  obtain ⟨z, hz, hz1, hz2⟩ := hp.idx
  simp only [mapDecode, hasByte_false h.lt, hx, onOk_ok_eq, hhd, hl, hasByte_false l3, hy, mapEntries_iff.2 h0, hc3,
    hasByte_false hp.lt, hz]
  rw [if_neg (by simp), if_neg (by omega), if_neg hxn]
  by_cases hes : ps = []
  · simp [hz1.1 hes, hz2 hes, hnil hes]
  · have : z ≠ cRBrace := fun h => hes (hz1.2 h)
    simp [this, hloop c2 hp hes]

theorem structDecode_null {sets : List FieldSet} {dec : FieldSet → Nat → Nat → Val → DR} {b : Bytes} {c c' depth : Nat} {rv : Val}
    (hd : depth + 1 ≤ maxDepth) (h : At b c .null c') : structDecode sets dec b c depth rv = (rv, .ok c') := by
  obtain ⟨rfl, hx, hv⟩ := null_end h
  simp only [structDecode, hasByte_false h.lt, hx, hv, onOk_ok_eq]
  rw [if_neg (by simp), if_neg (by omega), if_pos trivial]

theorem structDecode_complete {sets : List FieldSet} {dec : FieldSet → Nat → Nat → Val → DR} {b : Bytes} {c c' depth : Nat}
    {rv v : Val} {d : Doc} {cnt : Bytes} {ps : List (Doc × Doc)} (hb : b.length < 2 ^ 63)
    (hd : depth + 1 ≤ maxDepth) (h : At b c d c') (hc : Container d cnt ps) (hm : IsDigits cnt)
    (hnil : ps = [] → rv = v)
    (hloop : ps ≠ [] → ∃ vs, rv = .struct vs ∧ ∀ c2, PairsAt b c2 ps c' →
      structLoop sets (fun s c v => dec s c (depth + 1) v) (fun c => skipValue b c (depth + 1)) b (b.length + 1) c2 vs = (v, .ok c')) :
    structDecode sets dec b c depth rv = (v, .ok c') := by
  obtain ⟨x, c1, c2, hx, hxn, hhd, hdr, hc2, hp⟩ := container_inv hb hc h
  have hl := skipLen_complete hm hdr
  have e1 := drop_tail (drop_append_eq (drop_tail hdr))
  have hy : idx b (c1 + cnt.length + 2) = .ok cLBrace := by
    rw [show c1 + cnt.length + 2 = c1 + 1 + cnt.length + 1 by omega]; exact idx_of_drop e1
  have l3 := lt_of_drop_cons (drop_of_idx hy)
  have l1 := lt_of_drop_cons hdr
  have hc3 : c1 + cnt.length + 2 + 1 = c2 := by omega
  obtain ⟨z, hz, hz1, hz2⟩ := hp.idx
  simp only [structDecode, hasByte_false h.lt, hx, onOk_ok_eq, hhd, hasByte_false l1, idx_of_drop hdr, hl, hasByte_false l3, hy, hc3,
    hasByte_false hp.lt, hz]
  rw [if_neg (by simp), if_neg (by omega), if_neg hxn]
  by_cases hes : ps = []
  · simp (decide := true) [hz1.1 hes, hz2 hes, hnil hes]
  · have : z ≠ cRBrace := fun h => hes (hz1.2 h)
    obtain ⟨vs, rfl, hl⟩ := hloop hes
    simp (decide := true) [this, hl c2 hp]

/-! ### Keys, interfaces, Unmarshaler types -/

theorem decodeF_succ {W : World} {b : Bytes} {f : Nat} {t : Ty} {c depth : Nat} {rv : Val}
    (h : W.unmOf t ≠ none ∨ W.isPtr t = false) :
    decodeF W b (f + 1) t c depth rv = decodeNonPtr W (decodeF W b f) b t c depth rv := by
  unfold decodeF
  split
  · rename_i e hu hr
    rcases h with h | h
    · exact absurd hu h
    · simp [World.isPtr, hr] at h
  · rfl

theorem decodeF_plain {W : World} {b : Bytes} {f : Nat} {t k : Ty} {c depth : Nat} {rv : Val} (h : Plain W t k)
    (hk : ∀ e, k ≠ .ptr e) :
    decodeF W b (f + 1) t c depth rv = decodeNonPtr W (decodeF W b f) b t c depth rv := by
  refine decodeF_succ (.inr ?_)
  unfold World.isPtr
  rw [h.2]
  split
  · exact absurd rfl (hk _)
  · rfl

theorem decodeF_nonptr {W : World} {b : Bytes} {f : Nat} {t k : Ty} {c depth : Nat} {rv : Val} {r : DR} (hp : Plain W t k)
    (hk : ∀ e, k ≠ .ptr e)
    (h : W.resolve t = k → W.unmOf t = none → decodeNonPtr W (decodeF W b f) b t c depth rv = r) :
    decodeF W b (f + 1) t c depth rv = r := by
  rw [decodeF_plain hp hk]
  exact h hp.2 hp.1

theorem keyDecode_eq {W : World} {rec : Ty → Nat → Nat → Val → DR} {b : Bytes} {k : Ty} {c depth : Nat} (hk : KeyType W k)
    : keyDecode W (fun c d => rec .any c d .ifaceNil) b k c depth = decodeNonPtr W rec b k c depth (W.zero k) := by
  unfold keyDecode decodeNonPtr
  cases hu : W.unmOf k with
  | some id => rfl
  | none =>
    rcases hk with h | h | h | ⟨i, h⟩ | ⟨i, h⟩ | h | ⟨i, h⟩
    · exact absurd hu h
    all_goals simp only [h]

theorem keyType_nonptr {W : World} {k : Ty} (hk : KeyType W k) : W.unmOf k ≠ none ∨ W.isPtr k = false := by
  unfold World.isPtr
  rcases hk with h | h | h | ⟨i, h⟩ | ⟨i, h⟩ | h | ⟨i, h⟩
  · exact .inl h
  all_goals (right; simp [h])

theorem ptrKeyDecode_null {b : Bytes} {scratch : DR} {c c' : Nat} (h : At b c .null c') :
    ptrKeyDecode scratch b c = (.ptrNil, .ok c') := by
  obtain ⟨rfl, hx, hv⟩ := null_end h
  simp only [ptrKeyDecode, hx, onOk_ok_eq, hv]
  rw [if_pos trivial]

theorem keyDecode_ptr {W : World} {anyDec : Nat → Nat → DR} {b : Bytes} {k p : Ty} {c c' depth : Nat} (hk : Plain W k (.ptr p))
    (hu : W.unmOf p = none) (hp : KeyType W p) (h : At b c .null c') :
    keyDecode W anyDec b k c depth = (.ptrNil, .ok c') := by
  unfold keyDecode
  rw [hk.1, hk.2]
  simp only [hu]
  rcases hp with h | h | h | ⟨i, h⟩ | ⟨i, h⟩ | h | ⟨i, h⟩
  · exact absurd hu h
  all_goals (simp only [h]; exact ptrKeyDecode_null ‹_›)

theorem anyKeyDecode_int {b : Bytes} {c c' : Nat} {txt : Bytes} {i : Int} (h : At b c (.int txt) c') (ht : IntText txt i)
    (hr : InRange .i64 i) : anyKeyDecode b c = (.iface (.int .i64) (.int i), .ok c') := by
  have := (intDecode_iff (rv := .int 0)).2 (.inr ⟨txt, i, h, ht, hr, rfl⟩)
  simp only [anyKeyDecode, h.idx, onOk_ok_eq, this]
  simp (decide := true)

theorem anyKeyDecode_str {b : Bytes} {c c' : Nat} {l s : Bytes} (hb : b.length < 2 ^ 63) (h : At b c (.str l s) c') (ht : LenText l s.length)
    : anyKeyDecode b c = (.iface .str (.str s), .ok c') := by
  have := (stringDecode_iff (rv := .str []) hb).2 (.inr ⟨l, s, h, ht, rfl⟩)
  simp only [anyKeyDecode, h.idx, onOk_ok_eq, this]
  simp (decide := true)

theorem skip_complete {b : Bytes} {c c' depth : Nat} {d : Doc} (hb : b.length < 2 ^ 63) (hd : depth ≤ maxDepth)
    (hs : Strict (maxDepth - depth) d) (h : At b c d c') :
    skipValue b c depth = .ok c' ∧ sub b c c' = .ok d.text := by
  refine ⟨(skipValue_ok_iff hb hd).2 ⟨d, hs, h.1, h.2⟩, ?_⟩
  have := sub_of_drop h.1 (Nat.le_of_lt h.lt)
  rwa [← h.2] at this

theorem text_guards (d : Doc) : ¬ d.text.head? = some 91 ∧ ¬ d.text.head? = some cLBrace ∧
    ¬ (d.text.head? = some cMinus ∨ (d.text.head?.any isDigit) = true) := by
  cases d <;> simp (decide := true) [Doc.text]

theorem unmarshalDecode_complete {W : World} {id : Nat} {b : Bytes} {c c' depth : Nat} {rv v : Val} {d : Doc}
    (hb : b.length < 2 ^ 63) (hd : depth ≤ maxDepth) (h : At b c d c') (hs : Strict (maxDepth - depth) d)
    (hv : (d = .null ∧ v = W.namedZero id) ∨ (d ≠ .null ∧ W.unmarshal id d.text = .ok v)) :
    unmarshalDecode W id b c depth rv = (v, .ok c') := by
  obtain ⟨h1, h2⟩ := skip_complete hb hd hs h
  obtain ⟨g1, g2, g3⟩ := text_guards d
  simp only [unmarshalDecode_eq, h1, h2, onOk_ok_eq, unquote_text]
  rw [if_neg g1, if_neg g2, if_neg g3]
  rcases hv with ⟨rfl, rfl⟩ | ⟨hn, hv⟩
  · rw [if_pos ((text_null_iff hs).2 rfl)]
  · rw [if_neg (fun h => hn ((text_null_iff hs).1 h)), hv]; rfl

theorem ifaceDecode_null {W : World} {b : Bytes} {c c' depth : Nat} {rv : Val}
    (hb : b.length < 2 ^ 63) (hd : depth ≤ maxDepth) (h : At b c .null c') :
    ifaceDecode W b c depth rv = (.ifaceNil, .ok c') := by
  unfold ifaceDecode
  split
  · obtain ⟨h1, h2⟩ := skip_complete hb hd .null h
    simp only [dynDecode_eq, h1, h2, onOk_ok_eq]
    rw [if_pos (by rfl)]
  · obtain ⟨rfl, hx, hv⟩ := null_end h
    simp only [hx, hv, onOk_ok_eq]
    rw [if_pos trivial]

theorem ifaceDecode_dyn {W : World} {b : Bytes} {c c' depth : Nat} {d : Doc} {dt : Ty} {dv dv' : Val}
    (hb : b.length < 2 ^ 63) (hd : depth ≤ maxDepth) (h : At b c d c') (hs : Strict (maxDepth - depth) d) (hn : d ≠ .null)
    (hdyn : W.dynUnm dt = true) (hu : W.unmarshalDyn dt dv d.text = (dv', .ok ())) :
    ifaceDecode W b c depth (.iface dt dv) = (.iface dt dv', .ok c') := by
  obtain ⟨h1, h2⟩ := skip_complete hb hd hs h
  simp only [ifaceDecode, hdyn, if_true, dynDecode_eq, h1, h2, onOk_ok_eq, unquote_text, hu]
  rw [if_neg (fun h => hn ((text_null_iff hs).1 h))]

theorem ptrDecode_null {b : Bytes} {inner : Nat → Nat → Val → DR} {z : Val} {c c' depth : Nat} {rv : Val} (h : At b c .null c') :
    ptrDecode inner z b c depth rv = (.ptrNil, .ok c') := by
  obtain ⟨rfl, hx, hv⟩ := null_end h
  simp only [ptrDecode, hx, hv, onOk_ok_eq]
  rw [if_pos trivial]

theorem At.idx_ne {b : Bytes} {c c' : Nat} {d : Doc} (h : At b c d c') (hn : d ≠ .null) : ∃ x, Verif.idx b c = .ok x ∧ x ≠ cN := by
  refine ⟨_, h.idx, ?_⟩
  cases d <;> simp (decide := true) at hn ⊢

theorem ptrDecode_some {b : Bytes} {inner : Nat → Nat → Val → DR} {z : Val} {c c' depth : Nat} {rv v0 v : Val} {d : Doc}
    (h : At b c d c') (hn : d ≠ .null) (hrv : (rv = .ptrNil ∧ v0 = z) ∨ rv = .ptr v0) (hi : inner c depth v0 = (v, .ok c')) :
    ptrDecode inner z b c depth rv = (.ptr v, .ok c') := by
  obtain ⟨x, hx, hxn⟩ := h.idx_ne hn
  simp only [ptrDecode, hx, onOk_ok_eq]
  rw [if_neg hxn]
  rcases hrv with ⟨rfl, rfl⟩ | rfl <;> simp [hi]

theorem arr_text_len {cnt : Bytes} {es : List (Doc × Doc)} : (Doc.arr cnt es).text.length = cnt.length + (pairsText es).length + 5 := by
  simp [Doc.text]; omega

theorem container_text_len {d : Doc} {cnt : Bytes} {es : List (Doc × Doc)} (h : Container d cnt es) :
    (pairsText es).length + 5 ≤ d.text.length := by
  cases h <;> simp [Doc.text] <;> omega

theorem pairs_len_le (es : List (Doc × Doc)) : es.length ≤ (pairsText es).length := by
  induction es with
  | nil => simp
  | cons kv es ih =>
    have := text_length_pos kv.1
    simp [pairsText]; omega

theorem es_len_le {b : Bytes} {c c' : Nat} {es : List (Doc × Doc)} (h : PairsAt b c es c') : es.length ≤ b.length + 1 := by
  have h1 := congrArg List.length h.1
  have h2 := pairs_len_le es
  simp at h1
  omega

theorem text_split {b : Bytes} {c c1 : Nat} {k : Doc} (h : At b c k c1) : k.text.length = c1 - c := by
  have := h.2; omega

theorem pairs_cons_len {k v : Doc} {es : List (Doc × Doc)} :
    (pairsText ((k, v) :: es)).length = k.text.length + v.text.length + (pairsText es).length := by
  simp [pairsText]; omega

theorem fieldDecode_plain {W : World} {rec : Ty → Nat → Nat → Val → DR} {b : Bytes} {i c depth : Nat} {f : Field} {rv : Val}
    (h : ¬ HasString W f ∨ StringIgnored W f.ty) :
    fieldDecode W rec b (mkSet W i f) c depth rv = rec f.ty c depth rv := by
  unfold fieldDecode
  rw [if_neg]
  · rfl
  · simp only [mkSet, Bool.and_eq_true, not_and, Bool.not_eq_true]
    intro hs
    rcases h with h | h
    · exact absurd (hasString_iff.2 hs) h
    · exact stringTagOk_iff.2 h

theorem stringTagOk_of {W : World} {t : Ty} (h : ¬ StringIgnored W t) : stringTagOk W t = true := by
  rw [← stringTagOk_iff] at h; simpa using h

theorem fieldDecode_wrapped {W : World} {rec : Ty → Nat → Nat → Val → DR} {b : Bytes} {i c depth : Nat} {f : Field} {rv : Val}
    (hs : HasString W f) (h : IsScalar W f.ty) :
    fieldDecode W rec b (mkSet W i f) c depth rv = wrappedDecode W f.ty b c rv := by
  unfold fieldDecode
  rw [if_pos]
  · have hw : wrappable W (mkSet W i f).ty = true := wrappable_iff.2 h
    split
    · rename_i e he
      change W.resolve f.ty = .ptr e at he
      rcases h with h | ⟨k, h⟩ | ⟨k, h⟩ | h | h <;> (rw [h.2] at he; simp at he)
    · rw [if_pos hw]; rfl
  · simp only [mkSet, Bool.and_eq_true]
    exact ⟨hasString_iff.1 hs, stringTagOk_of (isScalar_not_ignored h)⟩

theorem fieldDecode_wrappedPtr {W : World} {rec : Ty → Nat → Nat → Val → DR} {b : Bytes} {i c depth : Nat} {f : Field} {rv : Val}
    {e : Ty} (hs : HasString W f) (hp : Plain W f.ty (.ptr e)) (h : IsScalar W e) :
    fieldDecode W rec b (mkSet W i f) c depth rv = ptrDecode (fun c _ v => wrappedDecode W e b c v) (W.zero e) b c depth rv := by
  unfold fieldDecode
  rw [if_pos]
  · have hr : W.resolve (mkSet W i f).ty = .ptr e := hp.2
    simp only [hr]
    rw [if_pos (wrappable_iff.2 h)]
  · simp only [mkSet, Bool.and_eq_true]
    exact ⟨hasString_iff.1 hs, stringTagOk_of (ptr_not_ignored hp)⟩

theorem keyDec_key {W : World} {b : Bytes} {F : Nat} {k : Ty} {c depth : Nat} (hk : KeyType W k) :
    keyDecode W (fun c d => decodeF W b F .any c d .ifaceNil) b k c depth = decodeF W b (F + 1) k c depth (W.zero k) := by
  rw [keyDecode_eq hk, decodeF_succ (keyType_nonptr hk)]

/-- Key decoder of a key mode. -/
def keyDecOf (W : World) (b : Bytes) (F : Nat) : KeyMode → Nat → Nat → DR
  | .ofType k => keyDecode W (fun c d => decodeF W b F .any c d .ifaceNil) b k
  | .anyKey => fun c _ => anyKeyDecode b c

/-! ### The whole decoder -/

/-- The completeness statement for documents of at most `N` bytes. -/
def CompleteAt (W : World) (b : Bytes) (N : Nat) : Prop :=
  ∀ {t : Ty} {n : Nat} {d : Doc} {rv v : Val}, DecDoc W t n d rv v → ∀ {F c depth c' : Nat}, d.text.length ≤ N →
    depth ≤ maxDepth → n = maxDepth - depth → At b c d c' → d.text.length ≤ F + 1 →
    decodeF W b (F + 1) t c depth rv = (v, .ok c')

theorem decElems_complete {W : World} {b : Bytes} (hb : b.length < 2 ^ 63) {N : Nat} (IH : CompleteAt W b N)
    {e : Ty} {n : Nat} {es : List (Doc × Doc)} {sl vs : List Val} (h : DecElems W e n es sl vs) (hne : es ≠ [])
    {F f c depth c' : Nat} {rv : Val}
    (hd : depth ≤ maxDepth) (hn : n = maxDepth - depth) (hp : PairsAt b c es c') (hN : (pairsText es).length ≤ N) (hF : (pairsText es).length ≤ F + 1) (hf : es.length ≤ f) :
        sliceLoop (fun c v => decodeF W b (F + 1) e c depth v) (W.zero e) (esize W e) b f c sl rv = (.slice vs, .ok c') := by
    induction es generalizing sl rv f c with
    | nil => exact absurd rfl hne
    | cons p es ih =>
    cases h with
    | @cons _ _ txt i d _ _ v0 v _ ht hi hg hv0 hdd hrest =>
      obtain ⟨c1, c2, hk, hv, hp'⟩ := hp.inv
      rw [pairs_cons_len] at hF hN
      obtain ⟨f', rfl⟩ : ∃ f', f = f' + 1 := ⟨f - 1, by simp at hf; omega⟩
      refine sliceLoop_step hk ht hi hg hv0 hv.lt (IH hdd (by omega) hd hn hv (by omega)) hp' ?_ fun hes => ?_
      · rintro rfl; cases hrest; rfl
      · exact ih hrest hes hp' (by omega) (by omega) (by simp at hf; omega)

theorem decArr_complete {W : World} {b : Bytes} (hb : b.length < 2 ^ 63) {N : Nat} (IH : CompleteAt W b N)
    {e : Ty} {n : Nat} {es : List (Doc × Doc)} {sl vs : List Val} (h : DecArr W e n es sl vs) (hne : es ≠ [])
    {F f c depth c' : Nat}
    (hd : depth ≤ maxDepth) (hn : n = maxDepth - depth) (hp : PairsAt b c es c') (hN : (pairsText es).length ≤ N) (hF : (pairsText es).length ≤ F + 1) (hf : es.length ≤ f) :
        arrayLoop (fun c v => decodeF W b (F + 1) e c depth v) (fun c => skipValue b c depth) b f c sl = (.arr vs, .ok c') := by
    induction es generalizing sl f c with
    | nil => exact absurd rfl hne
    | cons p es ih =>
    cases h with
    | @store _ _ txt i d _ _ v0 v _ ht hi hv0 hdd hrest =>
      obtain ⟨c1, c2, hk, hv, hp'⟩ := hp.inv
      rw [pairs_cons_len] at hF hN
      obtain ⟨f', rfl⟩ : ∃ f', f = f' + 1 := ⟨f - 1, by simp at hf; omega⟩
      refine arrayLoop_store hk ht hi hv0 hv.lt (IH hdd (by omega) hd hn hv (by omega)) hp' ?_ fun hes => ?_
      · rintro rfl; cases hrest; rfl
      · exact ih hrest hes hp' (by omega) (by omega) (by simp at hf; omega)
    | @skip _ _ txt i d _ _ _ ht hi hlen hs hrest =>
      obtain ⟨c1, c2, hk, hv, hp'⟩ := hp.inv
      rw [pairs_cons_len] at hF hN
      obtain ⟨f', rfl⟩ : ∃ f', f = f' + 1 := ⟨f - 1, by simp at hf; omega⟩
      refine arrayLoop_skip hk ht hi hlen hv.lt (skip_complete hb hd (hn ▸ hs) hv).1 hp' ?_ fun hes => ?_
      · rintro rfl; cases hrest; rfl
      · exact ih hrest hes hp' (by omega) (by omega) (by simp at hf; omega)

theorem decPairs_complete {W : World} {b : Bytes} (hb : b.length < 2 ^ 63) {N : Nat} (IH : CompleteAt W b N)
    {km : KeyMode} {vt : Ty} {n : Nat} {es : List (Doc × Doc)} {m m' : List (Val × Val)} (h : DecPairs W km vt n es m m') (hne : es ≠ [])
    {F f c depth c' : Nat}
    (hd : depth ≤ maxDepth) (hn : n = maxDepth - depth) (hp : PairsAt b c es c') (hN : (pairsText es).length ≤ N) (hF : (pairsText es).length ≤ F + 1) (hf : es.length ≤ f) :
        mapLoop (fun c => keyDecOf W b (F + 1) km c depth) (fun c => decodeF W b (F + 1) vt c depth (W.zero vt)) b f c m = (.map m', .ok c') := by
    induction es generalizing m f c with
    | nil => exact absurd rfl hne
    | cons p es ih =>
    cases h with
    | @key k _ _ kd d _ kv x _ _ hkt hkd hdd hh hrest =>
      obtain ⟨c1, c2, hk, hv, hp'⟩ := hp.inv
      rw [pairs_cons_len] at hF hN
      obtain ⟨f', rfl⟩ : ∃ f', f = f' + 1 := ⟨f - 1, by simp at hf; omega⟩
      refine mapLoop_step hk.lt ?_ hv.lt (IH hdd (by omega) hd hn hv (by omega)) hh hp' ?_ fun hes => ?_
      · simp only [keyDecOf]
        rw [keyDec_key hkt]
        exact IH hkd (by omega) hd hn hk (by omega)
      · rintro rfl; cases hrest; rfl
      · exact ih hrest hes hp' (by omega) (by omega) (by simp at hf; omega)
    | @ptrKey k p _ _ d _ x _ _ hpk hpu hkt hdd hrest =>
      obtain ⟨c1, c2, hk, hv, hp'⟩ := hp.inv
      rw [pairs_cons_len] at hF hN
      obtain ⟨f', rfl⟩ : ∃ f', f = f' + 1 := ⟨f - 1, by simp at hf; omega⟩
      refine mapLoop_step hk.lt (keyDecode_ptr hpk hpu hkt hk) hv.lt (IH hdd (by omega) hd hn hv (by omega)) .ptrNil hp' ?_ fun hes => ?_
      · rintro rfl; cases hrest; rfl
      · exact ih hrest hes hp' (by omega) (by omega) (by simp at hf; omega)
    | @anyInt _ _ txt i d _ x _ _ ht hr hdd hrest =>
      obtain ⟨c1, c2, hk, hv, hp'⟩ := hp.inv
      rw [pairs_cons_len] at hF hN
      obtain ⟨f', rfl⟩ : ∃ f', f = f' + 1 := ⟨f - 1, by simp at hf; omega⟩
      refine mapLoop_step hk.lt (anyKeyDecode_int hk ht hr) hv.lt (IH hdd (by omega) hd hn hv (by omega)) (.iface .int) hp' ?_ fun hes => ?_
      · rintro rfl; cases hrest; rfl
      · exact ih hrest hes hp' (by omega) (by omega) (by simp at hf; omega)
    | @anyStr _ _ len s d _ x _ _ ht hdd hrest =>
      obtain ⟨c1, c2, hk, hv, hp'⟩ := hp.inv
      rw [pairs_cons_len] at hF hN
      obtain ⟨f', rfl⟩ : ∃ f', f = f' + 1 := ⟨f - 1, by simp at hf; omega⟩
      refine mapLoop_step hk.lt (anyKeyDecode_str hb hk ht) hv.lt (IH hdd (by omega) hd hn hv (by omega)) (.iface .str) hp' ?_ fun hes => ?_
      · rintro rfl; cases hrest; rfl
      · exact ih hrest hes hp' (by omega) (by omega) (by simp at hf; omega)

theorem decFields_complete {W : World} {b : Bytes} (hb : b.length < 2 ^ 63) {N : Nat} (IH : CompleteAt W b N)
    {id n : Nat} {es : List (Doc × Doc)} {sl vs : List Val} (h : DecFields W id n es sl vs) (hne : es ≠ [])
    {F f c depth c' : Nat}
    (hd : depth ≤ maxDepth) (hn : n = maxDepth - depth) (hp : PairsAt b c es c') (hN : (pairsText es).length ≤ N) (hF : (pairsText es).length ≤ F + 1) (hf : es.length ≤ f) :
        structLoop (fieldSets W 0 (W.fields id)) (fun s c v => fieldDecode W (decodeF W b (F + 1)) b s c depth v)
          (fun c => skipValue b c depth) b f c sl = (.struct vs, .ok c') := by
    induction es generalizing sl f c with
    | nil => exact absurd rfl hne
    | cons p es ih =>
    cases h with
    | @skip _ _ kd s d _ _ _ hkd hnf hs hrest =>
      obtain ⟨c1, c2, hk, hv, hp'⟩ := hp.inv
      rw [pairs_cons_len] at hF hN
      obtain ⟨f', rfl⟩ : ∃ f', f = f' + 1 := ⟨f - 1, by simp at hf; omega⟩
      refine structLoop_skip hb hk hkd hnf hv.lt (skip_complete hb hd (hn ▸ hs) hv).1 hp' ?_ fun hes => ?_
      · rintro rfl; cases hrest; rfl
      · exact ih hrest hes hp' (by omega) (by omega) (by simp at hf; omega)
    | @plain _ _ kd s i fd d _ _ v0 v _ hkd hff hstr hv0 hdd hrest =>
      obtain ⟨c1, c2, hk, hv, hp'⟩ := hp.inv
      rw [pairs_cons_len] at hF hN
      obtain ⟨f', rfl⟩ : ∃ f', f = f' + 1 := ⟨f - 1, by simp at hf; omega⟩
      refine structLoop_store (v := v) hb hk hkd hff hv0 hv.lt ?_ hp' ?_ fun hes => ?_
      · rw [fieldDecode_plain hstr]; exact IH hdd (by omega) hd hn hv (by omega)
      · rintro rfl; cases hrest; rfl
      · exact ih hrest hes hp' (by omega) (by omega) (by simp at hf; omega)
    | @wrapped _ _ kd s i fd d _ _ v0 v _ hkd hff hstr hsc hv0 hw hrest =>
      obtain ⟨c1, c2, hk, hv, hp'⟩ := hp.inv
      rw [pairs_cons_len] at hF hN
      obtain ⟨f', rfl⟩ : ∃ f', f = f' + 1 := ⟨f - 1, by simp at hf; omega⟩
      refine structLoop_store (v := v) hb hk hkd hff hv0 hv.lt ?_ hp' ?_ fun hes => ?_
      · rw [fieldDecode_wrapped hstr hsc]; exact (wrappedDecode_iff hb (wrappable_iff.2 hsc)).2 ⟨d, hv, hw⟩
      · rintro rfl; cases hrest; rfl
      · exact ih hrest hes hp' (by omega) (by omega) (by simp at hf; omega)
    | @wrappedPtrNull _ _ kd s i fd e _ _ v0 _ hkd hff hstr hpl hsc hv0 hrest =>
      obtain ⟨c1, c2, hk, hv, hp'⟩ := hp.inv
      rw [pairs_cons_len] at hF hN
      obtain ⟨f', rfl⟩ : ∃ f', f = f' + 1 := ⟨f - 1, by simp at hf; omega⟩
      refine structLoop_store (v := .ptrNil) hb hk hkd hff hv0 hv.lt ?_ hp' ?_ fun hes => ?_
      · rw [fieldDecode_wrappedPtr hstr hpl hsc]; exact ptrDecode_null hv
      · rintro rfl; cases hrest; rfl
      · exact ih hrest hes hp' (by omega) (by omega) (by simp at hf; omega)
    | @wrappedPtr _ _ kd s i fd e d _ _ v0 b0 v _ hkd hff hstr hpl hsc hv0 hbase hnn hw hrest =>
      obtain ⟨c1, c2, hk, hv, hp'⟩ := hp.inv
      rw [pairs_cons_len] at hF hN
      obtain ⟨f', rfl⟩ : ∃ f', f = f' + 1 := ⟨f - 1, by simp at hf; omega⟩
      refine structLoop_store (v := .ptr v) hb hk hkd hff hv0 hv.lt ?_ hp' ?_ fun hes => ?_
      · rw [fieldDecode_wrappedPtr hstr hpl hsc]
        exact ptrDecode_some (inner := fun c _ v => wrappedDecode W e b c v) hv hnn hbase ((wrappedDecode_iff hb (wrappable_iff.2 hsc)).2 ⟨d, hv, hw⟩)
      · rintro rfl; cases hrest; rfl
      · exact ih hrest hes hp' (by omega) (by omega) (by simp at hf; omega)

set_option maxHeartbeats 1000000 in
theorem decDoc_step {W : World} {b : Bytes} (hb : b.length < 2 ^ 63) {N : Nat} (IH : CompleteAt W b N)
    
    {t : Ty} {n : Nat} {d : Doc} {rv v : Val} (h : DecDoc W t n d rv v) {F c depth c' : Nat} (hd : depth ≤ maxDepth)
    (hn : n = maxDepth - depth) (hat : At b c d c') (hf : d.text.length ≤ F + 1) (hN : d.text.length ≤ N + 1)
    (hptr : W.isPtr t = true → ∀ {e : Ty} {n : Nat} {d : Doc} {rv v : Val} {c c' depth : Nat}, DecDoc W e n d rv v → W.isPtr e = false →
      depth ≤ maxDepth → n = maxDepth - depth → At b c d c' → d.text.length ≤ F + 1 → d.text.length ≤ N + 1 →
      decodeF W b (F + 1) e c depth rv = (v, .ok c')) :
    decodeF W b (F + 1) t c depth rv = (v, .ok c') := by
    cases h with
    | @unmNull _ _ id _ hu =>
      rw [decodeF_succ (.inl (by simp [hu]))]
      simp only [decodeNonPtr, hu]
      exact unmarshalDecode_complete hb hd hat .null (.inl ⟨rfl, rfl⟩)
    | @unm _ _ id _ _ _ hu hnn hs hv =>
      rw [decodeF_succ (.inl (by simp [hu]))]
      simp only [decodeNonPtr, hu]
      exact unmarshalDecode_complete hb hd hat (hn ▸ hs) (.inr ⟨hnn, hv⟩)
    | ptrNull hp hnp =>
      unfold decodeF
      simp only [hp.1, hp.2, hnp]
      rw [if_neg (by simp)]
      exact ptrDecode_null hat
    | @ptrNew _ _ e _ _ hp hnp hnn h =>
      unfold decodeF
      simp only [hp.1, hp.2, hnp]
      rw [if_neg (by simp)]
      refine ptrDecode_some hat hnn (.inl ⟨rfl, rfl⟩) ?_
      rw [← decodeF_succ (.inr hnp)]
      exact hptr (by simp [World.isPtr, hp.2]) h hnp hd hn hat hf hN
    | @ptrOld _ _ e _ _ _ hp hnp hnn h =>
      unfold decodeF
      simp only [hp.1, hp.2, hnp]
      rw [if_neg (by simp)]
      refine ptrDecode_some hat hnn (.inr rfl) ?_
      rw [← decodeF_succ (.inr hnp)]
      exact hptr (by simp [World.isPtr, hp.2]) h hnp hd hn hat hf hN
    | boolNull hp =>
      refine decodeF_nonptr hp (by simp) fun hr hu => ?_
      simp only [decodeNonPtr, hu, hr]; exact boolDecode_iff.2 (.inl ⟨rfl, hat⟩)
    | bool hp =>
      refine decodeF_nonptr hp (by simp) fun hr hu => ?_
      simp only [decodeNonPtr, hu, hr]; exact boolDecode_iff.2 (.inr ⟨_, hat, rfl⟩)
    | intNull hp =>
      refine decodeF_nonptr hp (by simp) fun hr hu => ?_
      simp only [decodeNonPtr, hu, hr]; exact intDecode_iff.2 (.inl ⟨rfl, hat⟩)
    | int hp h1 h2 =>
      refine decodeF_nonptr hp (by simp) fun hr hu => ?_
      simp only [decodeNonPtr, hu, hr]; exact intDecode_iff.2 (.inr ⟨_, _, hat, h1, h2, rfl⟩)
    | uintNull hp =>
      refine decodeF_nonptr hp (by simp) fun hr hu => ?_
      simp only [decodeNonPtr, hu, hr]; exact uintDecode_iff.2 (.inl ⟨rfl, hat⟩)
    | uint hp h1 h2 =>
      refine decodeF_nonptr hp (by simp) fun hr hu => ?_
      simp only [decodeNonPtr, hu, hr]; exact uintDecode_iff.2 (.inr ⟨_, hat, h1, h2, rfl⟩)
    | f32Null hp =>
      refine decodeF_nonptr hp (by simp) fun hr hu => ?_
      simp only [decodeNonPtr, hu, hr]; exact floatDecode32_iff.2 (.inl ⟨rfl, hat⟩)
    | f32 hp h1 h2 h3 h4 =>
      refine decodeF_nonptr hp (by simp) fun hr hu => ?_
      simp only [decodeNonPtr, hu, hr]; exact floatDecode32_iff.2 (.inr ⟨_, _, hat, h1, h2, h3, h4, rfl⟩)
    | f64Null hp =>
      refine decodeF_nonptr hp (by simp) fun hr hu => ?_
      simp only [decodeNonPtr, hu, hr]; exact floatDecode64_iff.2 (.inl ⟨rfl, hat⟩)
    | f64 hp h1 h2 h3 =>
      refine decodeF_nonptr hp (by simp) fun hr hu => ?_
      simp only [decodeNonPtr, hu, hr]; exact floatDecode64_iff.2 (.inr ⟨_, _, hat, h1, h2, h3, rfl⟩)
    | strNull hp =>
      refine decodeF_nonptr hp (by simp) fun hr hu => ?_
      simp only [decodeNonPtr, hu, hr]; exact (stringDecode_iff hb).2 (.inl ⟨rfl, hat⟩)
    | str hp h1 =>
      refine decodeF_nonptr hp (by simp) fun hr hu => ?_
      simp only [decodeNonPtr, hu, hr]; exact (stringDecode_iff hb).2 (.inr ⟨_, _, hat, h1, rfl⟩)
    | bytesNull hp hby =>
      refine decodeF_nonptr hp (by simp) fun hr hu => ?_
      have hs := (stringBytes_iff hb).2 (.inl ⟨rfl, hat⟩)
      simp only [decodeNonPtr, hu, hr, hby, bytesDecode, hat.idx, onOk_ok_eq, hs]
      simp (decide := true)
    | bytes hp hby h1 =>
      refine decodeF_nonptr hp (by simp) fun hr hu => ?_
      have hs := (stringBytes_iff hb).2 (.inr ⟨_, _, rfl, h1, hat⟩)
      simp only [decodeNonPtr, hu, hr, hby, bytesDecode, hat.idx, onOk_ok_eq, hs]
      simp (decide := true) [bytesVal]
    | sliceNull hp hby =>
      refine decodeF_nonptr hp (by simp) fun hr hu => ?_
      simp only [decodeNonPtr, hu, hr, hby]
      exact sliceDecode_null (by omega) hat
    | sliceEmpty hp =>
      refine decodeF_nonptr hp (by simp) fun hr hu => ?_
      simp only [decodeNonPtr, hu, hr]
      split
      · simp only [bytesDecode, hat.idx, onOk_ok_eq]
        rw [if_pos trivial]
        exact sliceDecode_empty (by omega) hat
      · exact sliceDecode_empty (by omega) hat
    | @slice _ n e cnt m es _ vs hp hm hz hms hne h =>
      refine decodeF_nonptr hp (by simp) fun hr hu => ?_
      have hlen := arr_text_len (cnt := cnt) (es := es)
      obtain ⟨F, rfl⟩ : ∃ F', F = F' + 1 := ⟨F - 1, by omega⟩
      have key : sliceDecode (decodeF W b (F + 1) e) (W.zero e) (esize W e) b c depth rv = (.slice vs, .ok c') :=
        sliceDecode_complete (by omega) hat hm hz hms fun c2 hp2 =>
          decElems_complete (F := F) hb IH h hne (depth := depth + 1) (by omega) (by omega) hp2 (by omega) (by omega) (es_len_le hp2)
      simp only [decodeNonPtr, hu, hr]
      split
      · rename_i hby
        simp only [bytesDecode, hat.idx, onOk_ok_eq]
        rw [esize_byte hby] at key
        rw [if_pos trivial]
        exact key
      · rename_i hby
        rw [esize_not_byte (by simpa using hby)] at key
        exact key
    | arrayNull hp =>
      refine decodeF_nonptr hp (by simp) fun hr hu => ?_
      simp only [decodeNonPtr, hu, hr]; exact arrayDecode_null (by omega) hat
    | arrayEmpty hp =>
      refine decodeF_nonptr hp (by simp) fun hr hu => ?_
      simp only [decodeNonPtr, hu, hr]; exact arrayDecode_empty (by omega) hat
    | @array _ n l e cnt m es _ vs hp hm hz hne h =>
      refine decodeF_nonptr hp (by simp) fun hr hu => ?_
      have hlen := arr_text_len (cnt := cnt) (es := es)
      obtain ⟨F, rfl⟩ : ∃ F', F = F' + 1 := ⟨F - 1, by omega⟩
      simp only [decodeNonPtr, hu, hr]
      exact arrayDecode_complete (by omega) hat hm hz fun c2 hp2 =>
          decArr_complete hb IH h hne (depth := depth + 1) (by omega) (by omega) hp2 (by omega) (by omega) (es_len_le hp2)
    | mapNull hp =>
      refine decodeF_nonptr hp (by simp) fun hr hu => ?_
      simp only [decodeNonPtr, hu, hr]; exact mapDecode_null (by omega) hat
    | @map _ n k vt _ cnt m es _ es0 es1 hp hc hm h0 h =>
      refine decodeF_nonptr hp (by simp) fun hr hu => ?_
      have hlen := container_text_len hc
      obtain ⟨F, rfl⟩ : ∃ F', F = F' + 1 := ⟨F - 1, by omega⟩
      simp only [decodeNonPtr, hu, hr]
      refine mapDecode_complete hb (by omega) hat hc hm h0 ?_ fun c2 hp2 hne =>
          decPairs_complete hb IH h hne (depth := depth + 1) (by omega) (by omega) hp2 (by omega) (by omega) (es_len_le hp2)
      rintro rfl; cases h; rfl
    | structNull hp =>
      refine decodeF_nonptr hp (by simp) fun hr hu => ?_
      simp only [decodeNonPtr, hu, hr]; exact structDecode_null (by omega) hat
    | structEmpty hp hc hm =>
      refine decodeF_nonptr hp (by simp) fun hr hu => ?_
      simp only [decodeNonPtr, hu, hr]
      exact structDecode_complete hb (by omega) hat hc hm (fun _ => rfl) (fun h => absurd rfl h)
    | @struct _ n id _ cnt es vs vs' hp hc hm hne h =>
      refine decodeF_nonptr hp (by simp) fun hr hu => ?_
      have hlen := container_text_len hc
      obtain ⟨F, rfl⟩ : ∃ F', F = F' + 1 := ⟨F - 1, by omega⟩
      simp only [decodeNonPtr, hu, hr]
      refine structDecode_complete hb (by omega) hat hc hm (fun h => absurd h hne) fun _ => ⟨vs, rfl, fun c2 hp2 => ?_⟩
      exact decFields_complete hb IH h hne (depth := depth + 1) (by omega) (by omega) hp2 (by omega) (by omega) (es_len_le hp2)
    | anyNull hp =>
      refine decodeF_nonptr hp (by simp) fun hr hu => ?_
      obtain ⟨rfl, hx, hv⟩ := null_end hat
      simp only [decodeNonPtr, hu, hr, anyDecode, hx, hv, onOk_ok_eq]
      simp (decide := true)
    | anyBool hp =>
      refine decodeF_nonptr hp (by simp) fun hr hu => ?_
      obtain ⟨h1, rfl⟩ := at_bool_iff.1 hat
      simp only [decodeNonPtr, hu, hr, anyDecode, hat.idx, readBool_iff.2 hat, onOk_ok_eq]
      simp (decide := true)
    | anyInt hp h1 h2 =>
      refine decodeF_nonptr hp (by simp) fun hr hu => ?_
      have := (intDecode_iff (rv := .int 0)).2 (.inr ⟨_, _, hat, h1, h2, rfl⟩)
      simp only [decodeNonPtr, hu, hr, anyDecode, hat.idx, onOk_ok_eq, this]
      simp (decide := true)
    | anyFloat hp h1 h2 h3 =>
      refine decodeF_nonptr hp (by simp) fun hr hu => ?_
      have := (floatDecode64_iff (rv := .f64 0)).2 (.inr ⟨_, _, hat, h1, h2, h3, rfl⟩)
      simp only [decodeNonPtr, hu, hr, anyDecode, hat.idx, onOk_ok_eq, this]
      simp (decide := true)
    | anyStr hp h1 =>
      refine decodeF_nonptr hp (by simp) fun hr hu => ?_
      have := (readString_iff hb hat.idx).2 ⟨_, h1, hat⟩
      simp only [decodeNonPtr, hu, hr, anyDecode, hat.idx, onOk_ok_eq, this]
      simp (decide := true)
    | @anyArr _ n cnt m es _ es1 hp hm h =>
      refine decodeF_nonptr hp (by simp) fun hr hu => ?_
      have hlen := arr_text_len (cnt := cnt) (es := es)
      obtain ⟨F, rfl⟩ : ∃ F', F = F' + 1 := ⟨F - 1, by omega⟩
      have : mapDecode (fun c _ => anyKeyDecode b c) (fun c d => decodeF W b (F + 1) .any c d .ifaceNil) b c depth .mapNil =
          (.map es1, .ok c') := by
        refine mapDecode_complete hb (by omega) hat .arr hm .nil ?_ fun c2 hp2 hne =>
          decPairs_complete (km := .anyKey) hb IH h hne (depth := depth + 1) (by omega) (by omega) hp2 (by omega) (by omega) (es_len_le hp2)
        rintro rfl; cases h; rfl
      simp only [decodeNonPtr, hu, hr, anyDecode, hat.idx, onOk_ok_eq, this]
      simp (decide := true)
    | @anyObj _ n clen cls cnt m es _ es1 hp hcl hm h =>
      refine decodeF_nonptr hp (by simp) fun hr hu => ?_
      have hlen := container_text_len (d := .obj clen cls cnt es) (.obj hcl)
      obtain ⟨F, rfl⟩ : ∃ F', F = F' + 1 := ⟨F - 1, by omega⟩
      have : mapDecode (fun c _ => stringDecode b c (.str [])) (fun c d => decodeF W b (F + 1) .any c d .ifaceNil) b c depth .mapNil =
          (.map es1, .ok c') := by
        refine mapDecode_complete hb (by omega) hat (.obj hcl) hm .nil ?_ fun c2 hp2 hne =>
          decPairs_complete (km := .ofType .str) hb IH h hne (depth := depth + 1) (by omega) (by omega) hp2 (by omega) (by omega) (es_len_le hp2)
        rintro rfl; cases h; rfl
      simp only [decodeNonPtr, hu, hr, anyDecode, hat.idx, onOk_ok_eq, this]
      simp (decide := true)
    | ifaceNull hp =>
      refine decodeF_nonptr hp (by simp) fun hr hu => ?_
      simp only [decodeNonPtr, hu, hr]; exact ifaceDecode_null hb hd hat
    | ifaceDyn hp hnn hs hdyn h =>
      refine decodeF_nonptr hp (by simp) fun hr hu => ?_
      simp only [decodeNonPtr, hu, hr]; exact ifaceDecode_dyn hb hd hat (hn ▸ hs) hnn hdyn h

theorem decDoc_complete {W : World} {b : Bytes} (hb : b.length < 2 ^ 63) (N : Nat) : CompleteAt W b N := by
  induction N with
  | zero =>
    intro t n d rv v h F c depth c' hN
    have := text_length_pos d
    omega
  | succ N IH =>
    intro t n d rv v h F c depth c' hN hd hn hat hf
    refine decDoc_step hb IH h hd hn hat hf hN ?_
    intro _ e n d rv v c c' depth h hnp hd hn hat hf hN
    refine decDoc_step hb IH h hd hn hat hf hN ?_
    exact fun h1 => absurd h1 (by simp [hnp])

/-- A decoder run with enough fuel succeeds exactly when the input at the cursor is the text of a document that the
specification allows to be stored, and then yields the specified value and the end of that text. -/
theorem decodeF_ok_iff {W : World} {b : Bytes} (hb : b.length < 2 ^ 63) {f : Nat} {t : Ty} {c c' depth : Nat} {rv v : Val}
    (hd : depth ≤ maxDepth) (hf : b.length ≤ c + f) :
    decodeF W b f t c depth rv = (v, .ok c') ↔ ∃ d, At b c d c' ∧ DecDoc W t (maxDepth - depth) d rv v := by
  constructor
  · exact decodeF_sound hb hd
  · rintro ⟨d, h1, h2⟩
    have := h1.le; have := h1.2; have := text_length_pos d
    obtain ⟨F, rfl⟩ : ∃ F, f = F + 1 := ⟨f - 1, by omega⟩
    exact decDoc_complete hb _ h2 (Nat.le_refl _) hd rfl h1 (by omega)

end Verif

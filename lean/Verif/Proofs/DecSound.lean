import Verif.Proofs.UnquoteUse
import Verif.Proofs.DecScalar
/-
Soundness of the decoders: whatever a decoder accepts is the text of a document that the specification allows to be
stored, with the specified result.
-/
set_option linter.unusedSimpArgs false

namespace Verif
open Spec

/-- Entries `es` start at `c`, are followed by a closing brace, and end before `c'`. -/
def PairsAt (b : Bytes) (c : Nat) (es : List (Doc × Doc)) (c' : Nat) : Prop :=
  b.drop c = pairsText es ++ 125 :: b.drop c' ∧ c' = c + (pairsText es).length + 1

theorem PairsAt.nil {b : Bytes} {c : Nat} (h : idx b c = .ok 125) : PairsAt b c [] (c + 1) :=
  ⟨by simpa [pairsText] using drop_of_idx h, by simp [pairsText]⟩

theorem PairsAt.cons {b : Bytes} {c c1 c2 c' : Nat} {k v : Doc} {es : List (Doc × Doc)} (hk : At b c k c1)
    (hv : At b c1 v c2) (h : PairsAt b c2 es c') : PairsAt b c ((k, v) :: es) c' := by
  refine ⟨?_, ?_⟩
  · simp [pairsText, hk.1, hv.1, h.1]
  · simp [pairsText]
    have := hk.2; have := hv.2; have := h.2
    omega

theorem arr_at {b : Bytes} {c c1 c' : Nat} {cnt : Bytes} {es : List (Doc × Doc)} (hx : idx b c = .ok 97)
    (h : b.drop (c + 1) = 58 :: (cnt ++ 58 :: 123 :: b.drop c1)) (hc : c1 = c + cnt.length + 4) (hp : PairsAt b c1 es c') :
    At b c (.arr cnt es) c' := by
  rw [at_arr_iff]
  refine ⟨?_, ?_⟩
  · rw [drop_of_idx hx, h, hp.1]
  · have := hp.2; omega

/-! ### Loops -/

theorem sliceLoop_sound {W : World} {e : Ty} {n : Nat} {b : Bytes} {dec : Nat → Val → DR}
    (hdec : ∀ c rv v c', dec c rv = (v, .ok c') → ∃ d, At b c d c' ∧ DecDoc W e n d rv v)
    {f c c' : Nat} {sl : List Val} {rv v : Val}
    (h : sliceLoop dec (W.zero e) (esize W e) b f c sl rv = (v, .ok c')) :
    ∃ es vs, es ≠ [] ∧ PairsAt b c es c' ∧ v = .slice vs ∧ DecElems W e n es sl vs := by
  induction f generalizing c sl rv with
  | zero => simp [sliceLoop] at h
  | succ f ih =>
    simp only [sliceLoop, iteErr_ok, itePanic_ok, onOk_ok] at h
    obtain ⟨_, ⟨i, c1⟩, hi, _, hm, h⟩ := h
    obtain ⟨t, ht, hi63, hd, hc1⟩ := readInt_sound hi
    have hk : At b c (.int t) c1 := at_int_iff.2 ⟨hd, hc1⟩
    have hpad : (if decide (i ≥ sl.length) = true then sl ++ List.replicate (i + 1 - sl.length) (W.zero e) else sl) =
        padTo (W.zero e) i sl := by
      unfold padTo
      split
      · rfl
      · rename_i hlt
        simp only [ge_iff_le, decide_eq_true_eq, Nat.not_le] at hlt
        rw [show i + 1 - sl.length = 0 by omega]; simp
    have hgrow : sl.length ≤ i → i + 1 < 2 ^ 63 ∧ esize W e * (i + 1) ≤ 2 ^ 48 := by
      intro hle
      simp only [ge_iff_le, hle, decide_true, Bool.true_and, Bool.not_eq_true', Bool.not_eq_false] at hm
      by_cases hlt : i + 1 < 2 ^ 63
      · rw [wrap64_of_range (by omega) (by omega)] at hm
        unfold makeSliceOk at hm
        rw [decide_eq_true_iff] at hm
        refine ⟨hlt, ?_⟩
        have := hm.2
        rwa [show ((i : Int) + 1).toNat = i + 1 by omega] at this
      · have := @wrap64_over ((i : Int) + 1) (by omega) (by omega)
        revert hm this
        generalize wrap64 ((i : Int) + 1) = w
        intro hm this
        unfold makeSliceOk at hm
        rw [decide_eq_true_iff] at hm
        omega
    clear hm
    rw [hpad] at h
    split at h
    · simp at h
    · rename_i v0 hv0
      rcases hdc : dec c1 v0 with ⟨x, r⟩
      rw [hdc] at h
      simp only [onOk_ok] at h
      obtain ⟨c2, rfl, h⟩ := h
      obtain ⟨d, hd1, hd2⟩ := hdec _ _ _ _ hdc
      simp only [iteErr_ok, onOk_ok] at h
      obtain ⟨_, y, hy, h⟩ := h
      split at h
      · rename_i hyb; subst hyb
        simp only [Prod.mk.injEq, Res.ok.injEq] at h
        obtain ⟨rfl, rfl⟩ := h
        exact ⟨[(.int t, d)], _, by simp, .cons hk hd1 (.nil hy), rfl, .cons ht hi63 hgrow hv0 hd2 .nil⟩
      · obtain ⟨es, vs, _, he2, rfl, he4⟩ := ih h
        exact ⟨_, vs, by simp, .cons hk hd1 he2, rfl, .cons ht hi63 hgrow hv0 hd2 he4⟩

theorem arrayLoop_sound {W : World} {e : Ty} {n : Nat} {b : Bytes} {dec : Nat → Val → DR} {skip : Nat → Res Nat}
    (hdec : ∀ c rv v c', dec c rv = (v, .ok c') → ∃ d, At b c d c' ∧ DecDoc W e n d rv v)
    (hskip : ∀ c c', skip c = .ok c' → ∃ d, At b c d c' ∧ Strict n d)
    {f c c' : Nat} {vs : List Val} {v : Val} (h : arrayLoop dec skip b f c vs = (v, .ok c')) :
    ∃ es vs', es ≠ [] ∧ PairsAt b c es c' ∧ v = .arr vs' ∧ DecArr W e n es vs vs' := by
  induction f generalizing c vs with
  | zero => simp [arrayLoop] at h
  | succ f ih =>
    simp only [arrayLoop, iteErr_ok, onOk_ok] at h
    obtain ⟨_, ⟨i, c1⟩, hi, _, h⟩ := h
    obtain ⟨t, ht, hi63, hd, hc1⟩ := readInt_sound hi
    have hk : At b c (.int t) c1 := at_int_iff.2 ⟨hd, hc1⟩
    have key : ∃ vs1 c2 d, At b c1 d c2 ∧
        (∀ es vs', DecArr W e n es vs1 vs' → DecArr W e n ((.int t, d) :: es) vs vs') ∧
        (match b[c2]? with
          | some y => if y = cRBrace then (.arr vs1, .ok (c2 + 1)) = (v, Res.ok c') else arrayLoop dec skip b f c2 vs1 = (v, .ok c')
          | none => False) := by
      rcases hv0 : vs[i]? with _ | v0
      · rw [hv0] at h
        simp only [onOk_ok, iteErr_ok] at h
        obtain ⟨c2, hs, _, y, hy, h⟩ := h
        obtain ⟨d, hd1, hd2⟩ := hskip _ _ hs
        refine ⟨vs, c2, d, hd1, fun es vs' hh => .skip ht hi63 (by simpa using hv0) hd2 hh, ?_⟩
        rw [idx_ok_iff.1 hy]
        split at h <;> simp_all
      · rw [hv0] at h
        dsimp only at h
        rcases hdc : dec c1 v0 with ⟨x, r⟩
        rw [hdc] at h
        simp only [onOk_ok, iteErr_ok] at h
        obtain ⟨c2, rfl, _, y, hy, h⟩ := h
        obtain ⟨d, hd1, hd2⟩ := hdec _ _ _ _ hdc
        refine ⟨vs.set i x, c2, d, hd1, fun es vs' hh => .store ht hi63 hv0 hd2 hh, ?_⟩
        rw [idx_ok_iff.1 hy]
        split at h <;> simp_all
    obtain ⟨vs1, c2, d, hd1, hcons, h⟩ := key
    split at h
    · rename_i y hy
      split at h
      · rename_i hyb; subst hyb
        simp only [Prod.mk.injEq, Res.ok.injEq] at h
        obtain ⟨rfl, rfl⟩ := h
        exact ⟨_, _, by simp, .cons hk hd1 (.nil (idx_ok_iff.2 hy)), rfl, hcons _ _ .nil⟩
      · obtain ⟨es, vs', _, he2, rfl, he4⟩ := ih h
        exact ⟨_, vs', by simp, .cons hk hd1 he2, rfl, hcons _ _ he4⟩
    · exact h.elim

theorem mapLoop_sound {W : World} {km : KeyMode} {vt : Ty} {n : Nat} {b : Bytes} {keyDec valDec : Nat → DR}
    {KR : Doc → Val → Prop} (hkey : ∀ c v c', keyDec c = (v, .ok c') → ∃ d, At b c d c' ∧ KR d v)
    (hval : ∀ c v c', valDec c = (v, .ok c') → ∃ d, At b c d c' ∧ DecDoc W vt n d (W.zero vt) v)
    (hcons : ∀ kd d es k x m m', KR kd k → DecDoc W vt n d (W.zero vt) x → Hashable k →
      DecPairs W km vt n es (mapInsert k x m) m' → DecPairs W km vt n ((kd, d) :: es) m m')
    {f c c' : Nat} {m : List (Val × Val)} {v : Val} (h : mapLoop keyDec valDec b f c m = (v, .ok c')) :
    ∃ es m', es ≠ [] ∧ PairsAt b c es c' ∧ v = .map m' ∧ DecPairs W km vt n es m m' := by
  induction f generalizing c m with
  | zero => simp [mapLoop] at h
  | succ f ih =>
    simp only [mapLoop, iteErr_ok] at h
    obtain ⟨_, h⟩ := h
    rcases hkc : keyDec c with ⟨k, rk⟩
    rw [hkc] at h
    simp only [onOk_ok, iteErr_ok] at h
    obtain ⟨c1, rfl, _, h⟩ := h
    obtain ⟨kd, hk1, hk2⟩ := hkey _ _ _ hkc
    rcases hvc : valDec c1 with ⟨x, r⟩
    rw [hvc] at h
    simp only [onOk_ok, iteErr_ok, itePanic_ok] at h
    obtain ⟨c2, rfl, hh, _, y, hy, h⟩ := h
    obtain ⟨d, hd1, hd2⟩ := hval _ _ _ hvc
    simp only [Bool.not_eq_true', Bool.not_eq_false] at hh
    split at h
    · rename_i hyb; subst hyb
      simp only [Prod.mk.injEq, Res.ok.injEq] at h
      obtain ⟨rfl, rfl⟩ := h
      exact ⟨_, _, by simp, .cons hk1 hd1 (.nil hy), rfl, hcons _ _ _ _ _ _ _ hk2 hd2 (hashable_to hh) .nil⟩
    · obtain ⟨es, vs', _, he2, rfl, he4⟩ := ih h
      exact ⟨_, vs', by simp, .cons hk1 hd1 he2, rfl, hcons _ _ _ _ _ _ _ hk2 hd2 (hashable_to hh) he4⟩

/-- Start of a container: the class name (or nothing) has been read and the cursor is at the colon before the count. -/
theorem header_sound {b : Bytes} {c c1 : Nat} {x : Byte} {e : Err} (hb : b.length < 2 ^ 63) (hx : idx b c = .ok x)
    (h : (if x = cO then skipClassName b c >>= fun e => .ok (e + 1) else if x = ca then .ok (c + 1) else .err e) = .ok c1) :
    ∃ mk : Bytes → List (Doc × Doc) → Doc, (∀ cnt es, Container (mk cnt es) cnt es) ∧
      ∀ cnt es c2 c', b.drop c1 = 58 :: (cnt ++ 58 :: 123 :: b.drop c2) → c2 = c1 + cnt.length + 3 → PairsAt b c2 es c' →
        At b c (mk cnt es) c' := by
  split at h
  · simp only [Res.bind_eq_ok, Res.ok.injEq] at h
    obtain ⟨e', he, rfl⟩ := h
    obtain ⟨ds, cls, hl, hdrop, _, hee⟩ := skipClassName_sound hb he
    refine ⟨.obj ds cls, fun cnt es => .obj hl, ?_⟩
    intro cnt es c2 c' h1 h2 h3
    rw [at_obj_iff]
    refine ⟨?_, ?_⟩
    · rw [hdrop, h1, h3.1]
    · have := h3.2; omega
  split at h
  · rename_i hxa; subst hxa
    simp only [Res.ok.injEq] at h; subst h
    refine ⟨.arr, fun cnt es => .arr, ?_⟩
    intro cnt es c2 c' h1 h2 h3
    exact arr_at hx h1 (by omega) h3
  · simp at h

theorem mapEntries_iff {rv : Val} {es : List (Val × Val)} : mapEntries rv = some es ↔ MapBase rv es := by
  constructor
  · intro h
    unfold mapEntries at h
    split at h <;> cases h
    · exact .nil
    · exact .map
  · rintro (_ | _) <;> rfl

theorem mapDecode_sound {W : World} {km : KeyMode} {vt : Ty} {b : Bytes} {keyDec valDec : Nat → Nat → DR} {c c' depth : Nat}
    {KR : Doc → Val → Prop} {rv v : Val} (hb : b.length < 2 ^ 63)
    (hkey : depth + 1 ≤ maxDepth → ∀ c v c', keyDec c (depth + 1) = (v, .ok c') → ∃ d, At b c d c' ∧ KR d v)
    (hval : depth + 1 ≤ maxDepth → ∀ c v c', valDec c (depth + 1) = (v, .ok c') → ∃ d, At b c d c' ∧ DecDoc W vt (maxDepth - (depth + 1)) d (W.zero vt) v)
    (hcons : ∀ kd d es k x m m', KR kd k → DecDoc W vt (maxDepth - (depth + 1)) d (W.zero vt) x → Hashable k →
      DecPairs W km vt (maxDepth - (depth + 1)) es (mapInsert k x m) m' →
      DecPairs W km vt (maxDepth - (depth + 1)) ((kd, d) :: es) m m')
    (h : mapDecode keyDec valDec b c depth rv = (v, .ok c')) :
    depth + 1 ≤ maxDepth ∧ ((At b c .null c' ∧ v = .mapNil) ∨
      ∃ d cnt m es es0 es1, At b c d c' ∧ Container d cnt es ∧ LenText cnt m ∧ MapBase rv es0 ∧
        DecPairs W km vt (maxDepth - (depth + 1)) es es0 es1 ∧ v = .map es1) := by
  simp only [mapDecode, iteErr_ok, onOk_ok] at h
  obtain ⟨_, hdep, x, hx, h⟩ := h
  refine ⟨by omega, ?_⟩
  split at h
  · rename_i hxn; subst hxn
    simp only [onOk_ok, Prod.mk.injEq, Res.ok.injEq] at h
    obtain ⟨_, hn, rfl, rfl⟩ := h
    exact .inl ⟨(validateNull_iff hx).1 hn, rfl⟩
  · right
    simp only [onOk_ok, iteErr_ok] at h
    obtain ⟨c1, hhd, ⟨l, c2⟩, hl, _, y, hy, hyb, h⟩ := h
    obtain ⟨mk, hmk, hat⟩ := header_sound hb hx hhd
    obtain ⟨cnt, m, hm, rfl, hdr, hc2⟩ := readLength_sound hl
    simp only [ne_eq, Classical.not_not] at hyb
    subst hyb
    have hdr' : b.drop c1 = 58 :: (cnt ++ 58 :: 123 :: b.drop (c2 + 1)) := by rw [hdr, drop_of_idx hy]
    rcases he0 : mapEntries rv with _ | es0
    · rw [he0] at h; simp at h
    rw [he0] at h
    have hb0 := mapEntries_iff.1 he0
    simp only [onOk_ok, iteErr_ok] at h
    obtain ⟨_, z, hz, h⟩ := h
    split at h
    · rename_i hzb; subst hzb
      simp only [Prod.mk.injEq, Res.ok.injEq] at h
      obtain ⟨rfl, rfl⟩ := h
      exact ⟨_, cnt, m, [], es0, es0, hat _ _ _ _ hdr' (by omega) (.nil hz), hmk _ _, hm, hb0, .nil, rfl⟩
    · obtain ⟨es, m', hne, hp, rfl, hd⟩ := mapLoop_sound (hkey (by omega)) (hval (by omega)) hcons h
      exact ⟨_, cnt, m, es, es0, m', hat _ _ _ _ hdr' (by omega) hp, hmk _ _, hm, hb0, hd, rfl⟩

theorem structLoop_sound {W : World} {id n : Nat} {b : Bytes} (hb : b.length < 2 ^ 63)
    {dec : FieldSet → Nat → Val → DR} {skip : Nat → Res Nat}
    (hdec : ∀ key i f, FieldFor W id key i f → ∀ c rv v c', dec (mkSet W i f) c rv = (v, .ok c') →
      ∃ d, At b c d c' ∧ ∀ kd es vs vs', FieldKey kd key → vs[i]? = some rv →
        DecFields W id n es (vs.set i v) vs' → DecFields W id n ((kd, d) :: es) vs vs')
    (hskip : ∀ c c', skip c = .ok c' → ∃ d, At b c d c' ∧ Strict n d)
    {f c c' : Nat} {vs : List Val} {v : Val}
    (h : structLoop (fieldSets W 0 (W.fields id)) dec skip b f c vs = (v, .ok c')) :
    ∃ es vs', es ≠ [] ∧ PairsAt b c es c' ∧ v = .struct vs' ∧ DecFields W id n es vs vs' := by
  induction f generalizing c vs with
  | zero => simp [structLoop] at h
  | succ f ih =>
    simp only [structLoop, iteErr_ok, onOk_ok] at h
    obtain ⟨_, ⟨fld, c1⟩, hkc, _, h⟩ := h
    simp only [decodeKey, Res.bind_eq_ok, Res.ok.injEq, Prod.mk.injEq] at hkc
    obtain ⟨⟨ob, c1'⟩, hsb, hfind, rfl⟩ := hkc
    have hkd : ∃ kd, At b c kd c1' ∧ FieldKey kd (ob.getD []) := by
      rcases (stringBytes_iff hb).1 hsb with ⟨rfl, hh⟩ | ⟨l, s, rfl, ha, hh⟩
      · exact ⟨_, hh, .null⟩
      · exact ⟨_, hh, .str ha⟩
    obtain ⟨kd, hk1, hk2⟩ := hkd
    have key : ∃ vs1 c2 d, At b c1' d c2 ∧
        (∀ es vs', DecFields W id n es vs1 vs' → DecFields W id n ((kd, d) :: es) vs vs') ∧
        (match b[c2]? with
          | some y => if y = cRBrace then (.struct vs1, .ok (c2 + 1)) = (v, Res.ok c')
              else structLoop (fieldSets W 0 (W.fields id)) dec skip b f c2 vs1 = (v, .ok c')
          | none => False) := by
      rcases fld with _ | s
      · simp only [onOk_ok, iteErr_ok] at h
        obtain ⟨c2, hs, _, y, hy, h⟩ := h
        obtain ⟨d, hd1, hd2⟩ := hskip _ _ hs
        refine ⟨vs, c2, d, hd1, fun es vs' hh => .skip hk2 (find_none.1 hfind) hd2 hh, ?_⟩
        rw [idx_ok_iff.1 hy]
        split at h <;> simp_all
      · obtain ⟨i, fd, hff, rfl⟩ := find_some hfind
        dsimp only at h
        rcases hv0 : vs[(mkSet W i fd).idx]? with _ | v0
        · rw [hv0] at h; simp at h
        · rw [hv0] at h
          dsimp only at h
          rcases hdc : dec (mkSet W i fd) c1' v0 with ⟨x, r⟩
          rw [hdc] at h
          simp only [onOk_ok, iteErr_ok] at h
          obtain ⟨c2, rfl, _, y, hy, h⟩ := h
          obtain ⟨d, hd1, hd2⟩ := hdec _ _ _ hff _ _ _ _ hdc
          refine ⟨vs.set i x, c2, d, hd1, fun es vs' hh => hd2 _ _ _ _ hk2 hv0 hh, ?_⟩
          rw [idx_ok_iff.1 hy]
          have hidx : (mkSet W i fd).idx = i := rfl
          rw [hidx] at h
          split at h <;> simp_all
    obtain ⟨vs1, c2, d, hd1, hcons, h⟩ := key
    split at h
    · rename_i y hy
      split at h
      · rename_i hyb; subst hyb
        simp only [Prod.mk.injEq, Res.ok.injEq] at h
        obtain ⟨rfl, rfl⟩ := h
        exact ⟨_, _, by simp, .cons hk1 hd1 (.nil (idx_ok_iff.2 hy)), rfl, hcons _ _ .nil⟩
      · obtain ⟨es, vs', _, he2, rfl, he4⟩ := ih h
        exact ⟨_, vs', by simp, .cons hk1 hd1 he2, rfl, hcons _ _ he4⟩
    · exact h.elim

/-! ### Containers -/

theorem emptyArr_at {b : Bytes} {c : Nat} (hx : idx b c = .ok 97) (hy : idx b (c + 1) = .ok 58) (hz : idx b (c + 1 + 1) = .ok 48)
    (h : validateEmptyArray b (c + 1 + 1) = .ok ()) : At b c (.arr [48] []) (c + 1 + 1 + 4) := by
  have := validateEmptyArray_sound (drop_of_idx hz) h
  rw [at_arr_iff]
  refine ⟨?_, by simp [pairsText]⟩
  rw [drop_of_idx hx, drop_of_idx hy, this]; rfl

theorem len_head {b : Bytes} {c : Nat} {cnt r : Bytes} {z : Byte} (hd : IsDigits cnt) (h : b.drop c = 58 :: (cnt ++ r))
    (hz : idx b (c + 1) = .ok z) : cnt.head? = some z := by
  have := drop_tail h
  rw [drop_of_idx hz] at this
  cases cnt with
  | nil => exact absurd rfl hd.1
  | cons x xs => simp at this; simp [this.1]

theorem sliceDecode_sound {W : World} {t e : Ty} {b : Bytes} {dec : Nat → Nat → Val → DR} {c c' depth : Nat} {rv v : Val}
    (hp : Plain W t (.slice e)) (hnb : idx b c = .ok cN → W.isByte e = false)
    (hdec : ∀ c rv v c', depth + 1 ≤ maxDepth → dec c (depth + 1) rv = (v, .ok c') →
      ∃ d, At b c d c' ∧ DecDoc W e (maxDepth - (depth + 1)) d rv v)
    (h : sliceDecode dec (W.zero e) (esize W e) b c depth rv = (v, .ok c')) :
    ∃ d, At b c d c' ∧ DecDoc W t (maxDepth - depth) d rv v := by
  simp only [sliceDecode, iteErr_ok, onOk_ok] at h
  obtain ⟨_, hdep, x, hx, h⟩ := h
  have hn : maxDepth - depth = (maxDepth - (depth + 1)) + 1 := by omega
  rw [hn]
  split at h
  · rename_i hxn; subst hxn
    simp only [onOk_ok, Prod.mk.injEq, Res.ok.injEq] at h
    obtain ⟨_, hv, rfl, rfl⟩ := h
    exact ⟨_, (validateNull_iff hx).1 hv, .sliceNull hp (hnb hx)⟩
  split at h
  · rename_i hxa; subst hxa
    simp only [iteErr_ok, onOk_ok] at h
    obtain ⟨_, y, hy, hyc, _, z, hz, h⟩ := h
    simp only [ne_eq, Classical.not_not] at hyc
    subst hyc
    split at h
    · rename_i hz0; subst hz0
      simp only [onOk_ok, Prod.mk.injEq, Res.ok.injEq] at h
      obtain ⟨_, hv, rfl, rfl⟩ := h
      exact ⟨_, emptyArr_at hx hy hz hv, .sliceEmpty hp⟩
    · rename_i hz0
      simp only [iteErr_ok, itePanic_ok, onOk_ok] at h
      obtain ⟨⟨l, c2⟩, hl, _, y, hy', hyb, hms, h⟩ := h
      obtain ⟨cnt, m, hm, rfl, hdr, hc2⟩ := readLength_sound hl
      rw [show c + 1 + 1 - 1 = c + 1 by omega] at hdr hc2
      simp only [ne_eq, Classical.not_not] at hyb
      subst hyb
      obtain ⟨es, vs, hne, hp', rfl, hd⟩ := sliceLoop_sound (fun c rv v c' => hdec c rv v c' (by omega)) h
      refine ⟨.arr cnt es, ?_, .slice hp hm ?_ ?_ hne hd⟩
      · refine arr_at hx (c1 := c2 + 1) ?_ (by omega) hp'
        rw [hdr, drop_of_idx hy']
      · rw [len_head hm.1 hdr hz]; simpa using hz0
      · simp only [makeSliceOk, Bool.not_eq_true', decide_eq_false_iff_not, Classical.not_not] at hms
        simpa using hms.2
  split at h <;> simp at h

theorem arrayDecode_sound {W : World} {t e : Ty} {l : Nat} {b : Bytes} {dec : Nat → Nat → Val → DR} {c c' depth : Nat} {rv v : Val}
    (hb : b.length < 2 ^ 63) (hp : Plain W t (.array l e))
    (hdec : ∀ c rv v c', depth + 1 ≤ maxDepth → dec c (depth + 1) rv = (v, .ok c') →
      ∃ d, At b c d c' ∧ DecDoc W e (maxDepth - (depth + 1)) d rv v)
    (h : arrayDecode dec (W.zero e) l b c depth rv = (v, .ok c')) :
    ∃ d, At b c d c' ∧ DecDoc W t (maxDepth - depth) d rv v := by
  simp only [arrayDecode, iteErr_ok, onOk_ok] at h
  obtain ⟨_, hdep, x, hx, h⟩ := h
  have hn : maxDepth - depth = (maxDepth - (depth + 1)) + 1 := by omega
  rw [hn]
  split at h
  · rename_i hxn; subst hxn
    simp only [onOk_ok, Prod.mk.injEq, Res.ok.injEq] at h
    obtain ⟨_, hv, rfl, rfl⟩ := h
    exact ⟨_, (validateNull_iff hx).1 hv, .arrayNull hp⟩
  split at h
  · rename_i hxa; subst hxa
    simp only [iteErr_ok, onOk_ok] at h
    obtain ⟨_, y, hy, hyc, _, z, hz, h⟩ := h
    simp only [ne_eq, Classical.not_not] at hyc
    subst hyc
    split at h
    · rename_i hz0; subst hz0
      simp only [onOk_ok, Prod.mk.injEq, Res.ok.injEq] at h
      obtain ⟨_, hv, rfl, rfl⟩ := h
      exact ⟨_, emptyArr_at hx hy hz hv, .arrayEmpty hp⟩
    · rename_i hz0
      simp only [iteErr_ok, onOk_ok] at h
      obtain ⟨⟨l, c2⟩, hl, _, y, hy', hyb, h⟩ := h
      obtain ⟨cnt, m, hm, rfl, hdr, hc2⟩ := readLength_sound hl
      rw [show c + 1 + 1 - 1 = c + 1 by omega] at hdr hc2
      simp only [ne_eq, Classical.not_not] at hyb
      subst hyb
      obtain ⟨es, vs, hne, hp', rfl, hd⟩ := arrayLoop_sound (fun c rv v c' => hdec c rv v c' (by omega))
        (fun c c' hs => by
          obtain ⟨d, h1, h2⟩ := (skipValue_ok_iff hb (by omega)).1 hs
          exact ⟨d, h2, h1⟩) h
      refine ⟨.arr cnt es, ?_, .array hp hm ?_ hne hd⟩
      · refine arr_at hx (c1 := c2 + 1) ?_ (by omega) hp'
        rw [hdr, drop_of_idx hy']
      · rw [len_head hm.1 hdr hz]; simpa using hz0
  · simp at h

theorem structDecode_sound {W : World} {t : Ty} {id : Nat} {b : Bytes} {dec : FieldSet → Nat → Nat → Val → DR}
    {c c' depth : Nat} {rv v : Val} (hb : b.length < 2 ^ 63) (hp : Plain W t (.struct id))
    (hdec : depth + 1 ≤ maxDepth → ∀ key i f, FieldFor W id key i f → ∀ c rv v c', dec (mkSet W i f) c (depth + 1) rv = (v, .ok c') →
      ∃ d, At b c d c' ∧ ∀ kd es vs vs', FieldKey kd key → vs[i]? = some rv →
        DecFields W id (maxDepth - (depth + 1)) es (vs.set i v) vs' → DecFields W id (maxDepth - (depth + 1)) ((kd, d) :: es) vs vs')
    (h : structDecode (fieldSets W 0 (W.fields id)) dec b c depth rv = (v, .ok c')) :
    ∃ d, At b c d c' ∧ DecDoc W t (maxDepth - depth) d rv v := by
  simp only [structDecode, iteErr_ok, onOk_ok] at h
  obtain ⟨_, hdep, x, hx, h⟩ := h
  have hn : maxDepth - depth = (maxDepth - (depth + 1)) + 1 := by omega
  rw [hn]
  split at h
  · rename_i hxn; subst hxn
    simp only [onOk_ok, Prod.mk.injEq, Res.ok.injEq] at h
    obtain ⟨_, hv, rfl, rfl⟩ := h
    exact ⟨_, (validateNull_iff hx).1 hv, .structNull hp⟩
  · simp only [onOk_ok, iteErr_ok] at h
    obtain ⟨c1, hhd, _, y0, hy0, _, c2, hl, _, y, hy, hyb, _, z, hz, h⟩ := h
    obtain ⟨mk, hmk, hat⟩ := header_sound hb hx hhd
    obtain ⟨cnt, hm, hdr, hc2⟩ := skipLen_sound hl
    simp only [ne_eq, Classical.not_not] at hyb
    subst hyb
    have hdr' : b.drop c1 = 58 :: (cnt ++ 58 :: 123 :: b.drop (c2 + 1)) := by rw [hdr, drop_of_idx hy]
    split at h
    · rename_i hzb; subst hzb
      simp only [Prod.mk.injEq, Res.ok.injEq] at h
      obtain ⟨rfl, rfl⟩ := h
      exact ⟨_, hat _ _ _ _ hdr' (by omega) (.nil hz), .structEmpty hp (hmk _ _) hm⟩
    · split at h
      · rename_i vs
        obtain ⟨es, vs', hne, hp', rfl, hd⟩ := structLoop_sound hb (hdec (by omega))
          (fun c c' hs => by
            obtain ⟨d, h1, h2⟩ := (skipValue_ok_iff hb (by omega)).1 hs
            exact ⟨d, h2, h1⟩) h
        exact ⟨_, hat _ _ _ _ hdr' (by omega) hp', .struct hp (hmk _ _) hm hne hd⟩
      · simp at h

/-! ### Interfaces, Unmarshaler types, fields, keys -/

theorem text_head {d : Doc} : ∃ x xs, d.text = x :: xs ∧ x ∈ ([78, 98, 105, 100, 115, 97, 79] : Bytes) := by
  cases d <;> simp [Doc.text]

theorem skip_sub {b : Bytes} {c e depth : Nat} {src : Bytes} (hb : b.length < 2 ^ 63) (hd : depth ≤ maxDepth)
    (h1 : skipValue b c depth = .ok e) (h2 : sub b c e = .ok src) :
    ∃ d, At b c d e ∧ Strict (maxDepth - depth) d ∧ src = d.text := by
  obtain ⟨d, h3, h4⟩ := (skipValue_ok_iff hb hd).1 h1
  have hat : At b c d e := h4
  refine ⟨d, hat, h3, ?_⟩
  have := sub_of_drop h4.1 (Nat.le_of_lt hat.lt)
  rw [← h4.2, h2] at this
  cases this; rfl

theorem unquote_text {d : Doc} : unquoted d.text = d.text := by
  obtain ⟨x, xs, h, hx⟩ := @text_head d
  refine unquoted_of_head ?_
  rw [h]
  intro hh
  simp only [List.head?_cons, Option.some.injEq] at hh
  subst hh
  simp (decide := true) at hx

theorem text_null_iff {d : Doc} {n : Nat} (hs : Strict n d) : d.text = [cN, cSemi] ↔ d = .null := by
  constructor
  · intro h
    cases d <;> simp (decide := true) [Doc.text] at h ⊢
  · rintro rfl; rfl

theorem unmarshalDecode_sound {W : World} {t : Ty} {id : Nat} {b : Bytes} {c c' depth : Nat} {rv v : Val}
    (hb : b.length < 2 ^ 63) (hd : depth ≤ maxDepth) (hu : W.unmOf t = some id)
    (h : unmarshalDecode W id b c depth rv = (v, .ok c')) :
    ∃ d, At b c d c' ∧ DecDoc W t (maxDepth - depth) d rv v := by
  simp only [unmarshalDecode_eq, iteErr_ok, onOk_ok] at h
  obtain ⟨e, he, src, hsrc, _, _, _, h⟩ := h
  obtain ⟨d, hat, hs, rfl⟩ := skip_sub hb hd he hsrc
  split at h
  · rename_i hn
    simp only [Prod.mk.injEq, Res.ok.injEq] at h
    obtain ⟨rfl, rfl⟩ := h
    obtain rfl := (text_null_iff hs).1 hn
    exact ⟨_, hat, .unmNull hu⟩
  · rename_i hn
    simp only [unquote_text, onOk_ok, Res.mapErr_eq_ok, Prod.mk.injEq, Res.ok.injEq] at h
    obtain ⟨x, hx, rfl, rfl⟩ := h
    exact ⟨d, hat, .unm hu (fun h => hn ((text_null_iff hs).2 h)) hs hx⟩

theorem ifaceDecode_sound {W : World} {t : Ty} {id : Nat} {b : Bytes} {c c' depth : Nat} {rv v : Val}
    (hb : b.length < 2 ^ 63) (hd : depth ≤ maxDepth) (hp : Plain W t (.iface id))
    (h : ifaceDecode W b c depth rv = (v, .ok c')) :
    ∃ d, At b c d c' ∧ DecDoc W t (maxDepth - depth) d rv v := by
  unfold ifaceDecode at h
  split at h
  · rename_i dt dv hm
    have : rv = .iface dt dv ∧ W.dynUnm dt = true := by
      split at hm
      · split at hm
        · cases hm; exact ⟨rfl, ‹_›⟩
        · simp at hm
      · simp at hm
    obtain ⟨rfl, hdyn⟩ := this
    clear hm
    simp only [dynDecode_eq, onOk_ok] at h
    obtain ⟨e, he, src, hsrc, h⟩ := h
    obtain ⟨d, hat, hs, rfl⟩ := skip_sub hb hd he hsrc
    split at h
    · rename_i hn
      simp only [Prod.mk.injEq, Res.ok.injEq] at h
      obtain ⟨rfl, rfl⟩ := h
      obtain rfl := (text_null_iff hs).1 hn
      exact ⟨_, hat, .ifaceNull hp⟩
    · rename_i hn
      rcases hu : W.unmarshalDyn dt dv d.text with ⟨dv', r⟩
      simp only [unquote_text, hu, onOk_ok, Prod.mk.injEq, Res.ok.injEq] at h
      obtain ⟨x, rfl, rfl, rfl⟩ := h
      exact ⟨d, hat, .ifaceDyn hp (fun h => hn ((text_null_iff hs).2 h)) hs hdyn hu⟩
  · simp only [onOk_ok] at h
    obtain ⟨x, hx, h⟩ := h
    split at h
    · rename_i hxn; subst hxn
      simp only [onOk_ok, Prod.mk.injEq, Res.ok.injEq] at h
      obtain ⟨_, hv, rfl, rfl⟩ := h
      exact ⟨_, (validateNull_iff hx).1 hv, .ifaceNull hp⟩
    · simp at h

theorem anyKeyDecode_sound {b : Bytes} {c c' : Nat} {v : Val} (hb : b.length < 2 ^ 63)
    (h : anyKeyDecode b c = (v, .ok c')) :
    ∃ d, At b c d c' ∧ ((∃ txt i, d = .int txt ∧ IntText txt i ∧ InRange .i64 i ∧ v = .iface (.int .i64) (.int i)) ∨
      ∃ l s, d = .str l s ∧ LenText l s.length ∧ v = .iface .str (.str s)) := by
  simp only [anyKeyDecode, onOk_ok] at h
  obtain ⟨x, hx, h⟩ := h
  split at h
  · rename_i hxs; subst hxs
    rcases hd : stringDecode b c (.str []) with ⟨w, r⟩
    rw [hd] at h
    simp only [onOk_ok, Prod.mk.injEq, Res.ok.injEq] at h
    obtain ⟨x, rfl, rfl, rfl⟩ := h
    rcases (stringDecode_iff hb).1 hd with ⟨_, h⟩ | ⟨l, s, h1, h2, rfl⟩
    · rw [h.idx] at hx; simp (decide := true) at hx
    · exact ⟨_, h1, .inr ⟨l, s, rfl, h2, rfl⟩⟩
  split at h
  · rename_i hxs; subst hxs
    rcases hd : intDecode .i64 b c (.int 0) with ⟨w, r⟩
    rw [hd] at h
    simp only [onOk_ok, Prod.mk.injEq, Res.ok.injEq] at h
    obtain ⟨x, rfl, rfl, rfl⟩ := h
    rcases intDecode_iff.1 hd with ⟨_, h⟩ | ⟨t, i, h1, h2, h3, rfl⟩
    · rw [h.idx] at hx; simp (decide := true) at hx
    · exact ⟨_, h1, .inl ⟨t, i, rfl, h2, h3, rfl⟩⟩
  · simp at h

theorem anyDecode_sound {W : World} {t : Ty} {b : Bytes} {anyDec : Nat → Nat → DR} {c c' depth : Nat} {rv v : Val}
    (hb : b.length < 2 ^ 63) (hp : Plain W t .any)
    (hany : depth + 1 ≤ maxDepth → ∀ c v c', anyDec c (depth + 1) = (v, .ok c') →
      ∃ d, At b c d c' ∧ DecDoc W .any (maxDepth - (depth + 1)) d .ifaceNil v)
    (h : anyDecode W anyDec b c depth rv = (v, .ok c')) :
    ∃ d, At b c d c' ∧ DecDoc W t (maxDepth - depth) d rv v := by
  simp only [anyDecode, onOk_ok] at h
  obtain ⟨x, hx, h⟩ := h
  split at h
  · rename_i hxs; subst hxs
    rcases hm : mapDecode (fun c _ => stringDecode b c (.str [])) anyDec b c depth .mapNil with ⟨w, r⟩
    rw [hm] at h
    simp only [onOk_ok, Prod.mk.injEq, Res.ok.injEq] at h
    obtain ⟨x, rfl, rfl, rfl⟩ := h
    obtain ⟨hdep, h⟩ := mapDecode_sound (W := W) (km := .ofType .str) (vt := .any)
      (KR := fun d v => DecDoc W .str (maxDepth - (depth + 1)) d (.str []) v) hb
      (fun _ c v c' hh => by
        rcases (stringDecode_iff hb).1 hh with ⟨rfl, h⟩ | ⟨l, s, h1, h2, rfl⟩
        · exact ⟨_, h, .strNull ⟨rfl, rfl⟩⟩
        · exact ⟨_, h1, .str ⟨rfl, rfl⟩ h2⟩)
      hany (fun kd d es k x m m' h1 h2 h3 h4 => .key (.inr (.inl rfl)) h1 h2 h3 h4) hm
    have hn : maxDepth - depth = (maxDepth - (depth + 1)) + 1 := by omega
    rw [hn]
    rcases h with ⟨hat, rfl⟩ | ⟨d, cnt, m, es, es0, es1, hat, hc, hlt, hbase, hd, rfl⟩
    · rw [hat.idx] at hx; simp (decide := true) at hx
    · cases hc with
      | arr => rw [hat.idx] at hx; simp (decide := true) at hx
      | obj hcl => cases hbase; exact ⟨_, hat, .anyObj hp hcl hlt hd⟩
  split at h
  · rename_i hxs; subst hxs
    rcases hm : mapDecode (fun c _ => anyKeyDecode b c) anyDec b c depth .mapNil with ⟨w, r⟩
    rw [hm] at h
    simp only [onOk_ok, Prod.mk.injEq, Res.ok.injEq] at h
    obtain ⟨x, rfl, rfl, rfl⟩ := h
    obtain ⟨hdep, h⟩ := mapDecode_sound (W := W) (km := .anyKey) (vt := .any) hb
      (fun _ c v c' hh => anyKeyDecode_sound hb hh)
      hany (fun kd d es k x m m' h1 h2 h3 h4 => by
        rcases h1 with ⟨txt, i, rfl, a1, a2, rfl⟩ | ⟨l, s, rfl, a1, rfl⟩
        · exact .anyInt a1 a2 h2 h4
        · exact .anyStr a1 h2 h4) hm
    have hn : maxDepth - depth = (maxDepth - (depth + 1)) + 1 := by omega
    rw [hn]
    rcases h with ⟨hat, rfl⟩ | ⟨d, cnt, m, es, es0, es1, hat, hc, hlt, hbase, hd, rfl⟩
    · rw [hat.idx] at hx; simp (decide := true) at hx
    · cases hc with
      | arr => cases hbase; exact ⟨_, hat, .anyArr hp hlt hd⟩
      | obj hcl => rw [hat.idx] at hx; simp (decide := true) at hx
  split at h
  · rename_i hxs; subst hxs
    rcases hd : floatDecode W false b c (.f64 0) with ⟨w, r⟩
    rw [hd] at h
    simp only [onOk_ok, Prod.mk.injEq, Res.ok.injEq] at h
    obtain ⟨x, rfl, rfl, rfl⟩ := h
    rcases floatDecode64_iff.1 hd with ⟨_, hat⟩ | ⟨t, y, hat, h1, h2, h3, rfl⟩
    · rw [hat.idx] at hx; simp (decide := true) at hx
    · exact ⟨_, hat, .anyFloat hp h1 h2 h3⟩
  split at h
  · rename_i hxs; subst hxs
    simp only [onOk_ok, Prod.mk.injEq, Res.ok.injEq] at h
    obtain ⟨⟨s, e⟩, hr, rfl, rfl⟩ := h
    obtain ⟨l, h1, hat⟩ := (readString_iff hb hx).1 hr
    exact ⟨_, hat, .anyStr hp h1⟩
  split at h
  · rename_i hxs; subst hxs
    rcases hd : intDecode .i64 b c (.int 0) with ⟨w, r⟩
    rw [hd] at h
    simp only [onOk_ok, Prod.mk.injEq, Res.ok.injEq] at h
    obtain ⟨x, rfl, rfl, rfl⟩ := h
    rcases intDecode_iff.1 hd with ⟨_, hat⟩ | ⟨t, i, hat, h1, h2, rfl⟩
    · rw [hat.idx] at hx; simp (decide := true) at hx
    · exact ⟨_, hat, .anyInt hp h1 h2⟩
  split at h
  · simp only [onOk_ok, Prod.mk.injEq, Res.ok.injEq] at h
    obtain ⟨y, hr, rfl, rfl⟩ := h
    exact ⟨_, readBool_iff.1 hr, .anyBool hp⟩
  split at h
  · rename_i hxs; subst hxs
    simp only [onOk_ok, Prod.mk.injEq, Res.ok.injEq] at h
    obtain ⟨_, hr, rfl, rfl⟩ := h
    exact ⟨_, (validateNull_iff hx).1 hr, .anyNull hp⟩
  · simp at h

theorem ptrKeyDecode_sound {b : Bytes} {scratch : DR} {c c' : Nat} {v : Val} (h : ptrKeyDecode scratch b c = (v, .ok c')) :
    At b c .null c' ∧ v = .ptrNil := by
  simp only [ptrKeyDecode, onOk_ok] at h
  obtain ⟨x, hx, h⟩ := h
  split at h
  · rename_i hxs; subst hxs
    simp only [onOk_ok, Prod.mk.injEq, Res.ok.injEq] at h
    obtain ⟨_, hr, rfl, rfl⟩ := h
    exact ⟨(validateNull_iff hx).1 hr, rfl⟩
  · simp [onOk_ok] at h

/-- What a key decoder may have accepted. -/
def KeyRel (W : World) (k : Ty) (n : Nat) (d : Doc) (v : Val) : Prop :=
  (KeyType W k ∧ DecDoc W k n d (W.zero k) v) ∨
  (∃ p, Plain W k (.ptr p) ∧ W.unmOf p = none ∧ KeyType W p ∧ d = .null ∧ v = .ptrNil)

theorem keyDecode_sound {W : World} {k : Ty} {b : Bytes} {anyDec : Nat → Nat → DR} {c c' depth : Nat} {v : Val}
    (hb : b.length < 2 ^ 63) (hd : depth ≤ maxDepth)
    (hany : depth + 1 ≤ maxDepth → ∀ c v c', anyDec c (depth + 1) = (v, .ok c') →
      ∃ d, At b c d c' ∧ DecDoc W .any (maxDepth - (depth + 1)) d .ifaceNil v)
    (h : keyDecode W anyDec b k c depth = (v, .ok c')) :
    ∃ d, At b c d c' ∧ KeyRel W k (maxDepth - depth) d v := by
  unfold keyDecode at h
  cases hu : W.unmOf k with
  | some id =>
    simp only [hu] at h
    obtain ⟨d, h1, h2⟩ := unmarshalDecode_sound hb hd hu h
    exact ⟨d, h1, .inl ⟨.inl (by simp [hu]), h2⟩⟩
  | none =>
    simp only [hu] at h
    cases hr : W.resolve k <;> simp only [hr] at h
    case str =>
      rcases (stringDecode_iff hb).1 h with ⟨rfl, hat⟩ | ⟨l, s, hat, h2, rfl⟩
      · exact ⟨_, hat, .inl ⟨by simp [KeyType, hr], .strNull ⟨hu, hr⟩⟩⟩
      · exact ⟨_, hat, .inl ⟨by simp [KeyType, hr], .str ⟨hu, hr⟩ h2⟩⟩
    case bool =>
      rcases boolDecode_iff.1 h with ⟨rfl, hat⟩ | ⟨x, hat, rfl⟩
      · exact ⟨_, hat, .inl ⟨by simp [KeyType, hr], .boolNull ⟨hu, hr⟩⟩⟩
      · exact ⟨_, hat, .inl ⟨by simp [KeyType, hr], .bool ⟨hu, hr⟩⟩⟩
    case int kd =>
      rcases intDecode_iff.1 h with ⟨rfl, hat⟩ | ⟨t, i, hat, h1, h2, rfl⟩
      · exact ⟨_, hat, .inl ⟨by simp [KeyType, hr], .intNull ⟨hu, hr⟩⟩⟩
      · exact ⟨_, hat, .inl ⟨by simp [KeyType, hr], .int ⟨hu, hr⟩ h1 h2⟩⟩
    case uint kd =>
      rcases uintDecode_iff.1 h with ⟨rfl, hat⟩ | ⟨t, hat, h1, h2, rfl⟩
      · exact ⟨_, hat, .inl ⟨by simp [KeyType, hr], .uintNull ⟨hu, hr⟩⟩⟩
      · exact ⟨_, hat, .inl ⟨by simp [KeyType, hr], .uint ⟨hu, hr⟩ h1 h2⟩⟩
    case any =>
      obtain ⟨d, h1, h2⟩ := anyDecode_sound hb ⟨hu, hr⟩ hany h
      exact ⟨d, h1, .inl ⟨by simp [KeyType, hr], h2⟩⟩
    case iface i =>
      obtain ⟨d, h1, h2⟩ := ifaceDecode_sound hb hd ⟨hu, hr⟩ h
      exact ⟨d, h1, .inl ⟨by simp [KeyType, hr], h2⟩⟩
    case ptr e =>
      cases hue : W.unmOf e with
      | some id => simp [hue, invalidDecode] at h
      | none =>
        simp only [hue] at h
        cases hre : W.resolve e <;> simp only [hre] at h
        case str | bool | int | uint | any | iface =>
          obtain ⟨h1, rfl⟩ := ptrKeyDecode_sound h
          exact ⟨_, h1, .inr ⟨e, ⟨hu, hr⟩, hue, by simp [KeyType, hre], rfl, rfl⟩⟩
        all_goals simp [invalidDecode] at h
    all_goals simp [invalidDecode] at h

theorem ptrDecode_cases {b : Bytes} {inner : Nat → Nat → Val → DR} {z : Val} {c c' depth : Nat} {rv v : Val}
    (h : ptrDecode inner z b c depth rv = (v, .ok c')) :
    (At b c .null c' ∧ v = .ptrNil) ∨
    (∃ x, idx b c = .ok x ∧ x ≠ cN) ∧ ∃ v0 w, inner c depth v0 = (w, .ok c') ∧ v = .ptr w ∧ ((rv = .ptrNil ∧ v0 = z) ∨ rv = .ptr v0) := by
  simp only [ptrDecode, onOk_ok] at h
  obtain ⟨x, hx, h⟩ := h
  split at h
  · rename_i hxs; subst hxs
    simp only [onOk_ok, Prod.mk.injEq, Res.ok.injEq] at h
    obtain ⟨_, hr, rfl, rfl⟩ := h
    exact .inl ⟨(validateNull_iff hx).1 hr, rfl⟩
  · rename_i hxn
    right
    refine ⟨⟨x, hx, hxn⟩, ?_⟩
    split at h
    · simp only [Prod.mk.injEq] at h
      exact ⟨z, _, Prod.ext rfl h.2, h.1.symm, .inl ⟨rfl, rfl⟩⟩
    · rename_i v0
      simp only [Prod.mk.injEq] at h
      exact ⟨v0, _, Prod.ext rfl h.2, h.1.symm, .inr rfl⟩
    · simp at h

theorem At.ne_null {b : Bytes} {c c' : Nat} {d : Doc} (h : At b c d c') (hx : ∃ x, Verif.idx b c = .ok x ∧ x ≠ cN) : d ≠ .null := by
  rintro rfl
  obtain ⟨x, hx, hn⟩ := hx
  rw [h.idx] at hx
  cases hx
  exact hn rfl

theorem fieldDecode_sound {W : World} {rec : Ty → Nat → Nat → Val → DR} {id : Nat} {b : Bytes} {depth : Nat}
    (hb : b.length < 2 ^ 63)
    (hrec : ∀ t c rv v c', rec t c depth rv = (v, .ok c') → ∃ d, At b c d c' ∧ DecDoc W t (maxDepth - depth) d rv v)
    {key : Bytes} {i : Nat} {f : Field} (hf : FieldFor W id key i f) {c c' : Nat} {rv v : Val}
    (h : fieldDecode W rec b (mkSet W i f) c depth rv = (v, .ok c')) :
    ∃ d, At b c d c' ∧ ∀ kd es vs vs', FieldKey kd key → vs[i]? = some rv →
      DecFields W id (maxDepth - depth) es (vs.set i v) vs' → DecFields W id (maxDepth - depth) ((kd, d) :: es) vs vs' := by
  unfold fieldDecode at h
  split at h
  · rename_i hs
    simp only [mkSet, Bool.and_eq_true] at hs
    have hstr := hasString_iff.2 hs.1
    have hun : W.unmOf f.ty = none := by
      have := hs.2
      unfold stringTagOk at this
      split at this
      · simp at this
      · assumption
    split at h
    · rename_i e he
      change W.resolve f.ty = .ptr e at he
      split at h
      · rename_i hw
        rcases ptrDecode_cases h with ⟨hat, rfl⟩ | ⟨hx, v0, w, hi, rfl, hrv⟩
        · exact ⟨_, hat, fun kd es vs vs' hk hv hd => .wrappedPtrNull hk hf hstr ⟨hun, he⟩ (wrappable_iff.1 hw) hv hd⟩
        · obtain ⟨d, hat, hwd⟩ := (wrappedDecode_iff hb hw).1 hi
          exact ⟨_, hat, fun kd es vs vs' hk hv hd =>
            .wrappedPtr hk hf hstr ⟨hun, he⟩ (wrappable_iff.1 hw) hv hrv (hat.ne_null hx) hwd hd⟩
      · simp at h
    · split at h
      · rename_i hw
        change wrappable W f.ty = true at hw
        obtain ⟨d, hat, hwd⟩ := (wrappedDecode_iff hb hw).1 h
        exact ⟨_, hat, fun kd es vs vs' hk hv hd => .wrapped hk hf hstr (wrappable_iff.1 hw) hv hwd hd⟩
      · simp at h
  · rename_i hs
    obtain ⟨d, hat, hd⟩ := hrec _ _ _ _ _ h
    refine ⟨d, hat, fun kd es vs vs' hk hv hd' => .plain hk hf ?_ hv hd hd'⟩
    simp only [mkSet, Bool.and_eq_true, not_and, Bool.not_eq_true] at hs
    by_cases hstr : HasString W f
    · right; exact stringTagOk_iff.1 (hs (hasString_iff.1 hstr))
    · left; exact hstr

/-! ### The whole decoder -/

theorem esize_byte {W : World} {e : Ty} (h : W.isByte e = true) : esize W e = 1 := by simp [esize, h]
theorem esize_not_byte {W : World} {e : Ty} (h : W.isByte e = false) : esize W e = W.elemSize e := by simp [esize, h]

theorem decodeNonPtr_sound {W : World} {rec : Ty → Nat → Nat → Val → DR} {b : Bytes} (hb : b.length < 2 ^ 63)
    (hrec : ∀ t c depth rv v c', depth ≤ maxDepth → rec t c depth rv = (v, .ok c') →
      ∃ d, At b c d c' ∧ DecDoc W t (maxDepth - depth) d rv v)
    {t : Ty} {c c' depth : Nat} {rv v : Val} (hd : depth ≤ maxDepth)
    (h : decodeNonPtr W rec b t c depth rv = (v, .ok c')) :
    ∃ d, At b c d c' ∧ DecDoc W t (maxDepth - depth) d rv v := by
  unfold decodeNonPtr at h
  cases hu : W.unmOf t with
  | some id =>
    simp only [hu] at h
    exact unmarshalDecode_sound hb hd hu h
  | none =>
    simp only [hu] at h
    cases hr : W.resolve t <;> simp only [hr] at h
    case bool =>
      rcases boolDecode_iff.1 h with ⟨rfl, hat⟩ | ⟨x, hat, rfl⟩
      · exact ⟨_, hat, .boolNull ⟨hu, hr⟩⟩
      · exact ⟨_, hat, .bool ⟨hu, hr⟩⟩
    case int kd =>
      rcases intDecode_iff.1 h with ⟨rfl, hat⟩ | ⟨t, i, hat, h1, h2, rfl⟩
      · exact ⟨_, hat, .intNull ⟨hu, hr⟩⟩
      · exact ⟨_, hat, .int ⟨hu, hr⟩ h1 h2⟩
    case uint kd =>
      rcases uintDecode_iff.1 h with ⟨rfl, hat⟩ | ⟨t, hat, h1, h2, rfl⟩
      · exact ⟨_, hat, .uintNull ⟨hu, hr⟩⟩
      · exact ⟨_, hat, .uint ⟨hu, hr⟩ h1 h2⟩
    case f32 =>
      rcases floatDecode32_iff.1 h with ⟨rfl, hat⟩ | ⟨t, x, hat, h1, h2, h3, h4, rfl⟩
      · exact ⟨_, hat, .f32Null ⟨hu, hr⟩⟩
      · exact ⟨_, hat, .f32 ⟨hu, hr⟩ h1 h2 h3 h4⟩
    case f64 =>
      rcases floatDecode64_iff.1 h with ⟨rfl, hat⟩ | ⟨t, x, hat, h1, h2, h3, rfl⟩
      · exact ⟨_, hat, .f64Null ⟨hu, hr⟩⟩
      · exact ⟨_, hat, .f64 ⟨hu, hr⟩ h1 h2 h3⟩
    case str =>
      rcases (stringDecode_iff hb).1 h with ⟨rfl, hat⟩ | ⟨l, s, hat, h2, rfl⟩
      · exact ⟨_, hat, .strNull ⟨hu, hr⟩⟩
      · exact ⟨_, hat, .str ⟨hu, hr⟩ h2⟩
    case slice e =>
      split at h
      · rename_i hbyte
        simp only [bytesDecode, onOk_ok] at h
        obtain ⟨x, hx, h⟩ := h
        split at h
        · rename_i hxa; subst hxa
          refine sliceDecode_sound (e := e) (dec := rec e) ⟨hu, hr⟩ ?_ (fun c rv v c' hd h => hrec _ _ _ _ _ _ hd h) ?_
          · intro hn; rw [hx] at hn; simp (decide := true) at hn
          · rw [esize_byte hbyte]; exact h
        · simp only [onOk_ok] at h
          obtain ⟨⟨ob, e'⟩, hs, h⟩ := h
          rcases (stringBytes_iff hb).1 hs with ⟨rfl, hat⟩ | ⟨l, s, rfl, ha, hat⟩
          · simp only [Prod.mk.injEq, Res.ok.injEq] at h
            obtain ⟨rfl, rfl⟩ := h
            exact ⟨_, hat, .bytesNull ⟨hu, hr⟩ hbyte⟩
          · simp only [Prod.mk.injEq, Res.ok.injEq] at h
            obtain ⟨rfl, rfl⟩ := h
            exact ⟨_, hat, .bytes ⟨hu, hr⟩ hbyte ha⟩
      · rename_i hbyte
        simp only [Bool.not_eq_true] at hbyte
        refine sliceDecode_sound (e := e) (dec := rec e) ⟨hu, hr⟩ (fun _ => hbyte) (fun c rv v c' hd h => hrec _ _ _ _ _ _ hd h) ?_
        rw [esize_not_byte hbyte]; exact h
    case array n e =>
      exact arrayDecode_sound hb ⟨hu, hr⟩ (fun c rv v c' hd h => hrec _ _ _ _ _ _ hd h) h
    case map k vt =>
      obtain ⟨hdep, h⟩ := mapDecode_sound (W := W) (km := .ofType k) (vt := vt)
        (KR := KeyRel W k (maxDepth - (depth + 1))) hb
        (fun hd c v c' hh => keyDecode_sound hb hd (fun hd' c v c' h => hrec _ _ _ _ _ _ hd' h) hh)
        (fun hd c v c' hh => hrec _ _ _ _ _ _ hd hh)
        (fun kd d es k' x m m' h1 h2 h3 h4 => by
          rcases h1 with ⟨h5, h6⟩ | ⟨p, h5, h6, h7, rfl, rfl⟩
          · exact .key h5 h6 h2 h3 h4
          · exact .ptrKey h5 h6 h7 h2 h4) h
      have hn : maxDepth - depth = (maxDepth - (depth + 1)) + 1 := by omega
      rw [hn]
      rcases h with ⟨hat, rfl⟩ | ⟨d, cnt, m, es, es0, es1, hat, hc, hm, hbase, hd, rfl⟩
      · exact ⟨_, hat, .mapNull ⟨hu, hr⟩⟩
      · exact ⟨_, hat, .map ⟨hu, hr⟩ hc hm hbase hd⟩
    case struct id =>
      exact structDecode_sound hb ⟨hu, hr⟩
        (fun hd key i f hf c rv v c' hh => fieldDecode_sound hb (fun t c rv v c' h => hrec _ _ _ _ _ _ hd h) hf hh) h
    case any =>
      exact anyDecode_sound hb ⟨hu, hr⟩ (fun hd c v c' h => hrec _ _ _ _ _ _ hd h) h
    case iface i =>
      exact ifaceDecode_sound hb hd ⟨hu, hr⟩ h
    all_goals simp [invalidDecode] at h

theorem decodeF_sound {W : World} {b : Bytes} (hb : b.length < 2 ^ 63) {f : Nat} {t : Ty} {c c' depth : Nat} {rv v : Val}
    (hd : depth ≤ maxDepth) (h : decodeF W b f t c depth rv = (v, .ok c')) :
    ∃ d, At b c d c' ∧ DecDoc W t (maxDepth - depth) d rv v := by
  induction f generalizing t c c' depth rv v with
  | zero => simp [decodeF] at h
  | succ f ih =>
    have hrec : ∀ t c depth rv v c', depth ≤ maxDepth → decodeF W b f t c depth rv = (v, .ok c') →
      ∃ d, At b c d c' ∧ DecDoc W t (maxDepth - depth) d rv v := fun t c depth rv v c' hd h => ih hd h
    unfold decodeF at h
    split at h
    · rename_i e hu hr
      rw [iteErr_ok] at h
      obtain ⟨hnp, h⟩ := h
      simp only [Bool.not_eq_true] at hnp
      rcases ptrDecode_cases h with ⟨hat, rfl⟩ | ⟨hx, v0, w, hi, rfl, hrv⟩
      · exact ⟨_, hat, .ptrNull ⟨hu, hr⟩ hnp⟩
      · obtain ⟨d, hat, hdd⟩ := decodeNonPtr_sound hb hrec hd hi
        rcases hrv with ⟨rfl, rfl⟩ | rfl
        · exact ⟨d, hat, .ptrNew ⟨hu, hr⟩ hnp (hat.ne_null hx) hdd⟩
        · exact ⟨d, hat, .ptrOld ⟨hu, hr⟩ hnp (hat.ne_null hx) hdd⟩
    · exact decodeNonPtr_sound hb hrec hd h

end Verif

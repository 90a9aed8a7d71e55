import Verif.Spec.Order
import Verif.Proofs.Containers
import Verif.Proofs.Php
/-
Values decoded from texts with different orders of map entries.
-/
namespace Verif
open Spec

theorem sameF64_both {x y z : UInt64} (h1 : SameF64 x y) (h2 : SameF64 x z) : SameF64 y z := by
  rcases h1 with rfl | h1
  · exact h2
  · rcases h2 with rfl | h2
    · exact .inr ⟨h1.2, h1.1⟩
    · exact .inr ⟨h1.2, h2.2⟩

theorem sameF32_both {x y z : UInt32} (h1 : SameF32 x y) (h2 : SameF32 x z) : SameF32 y z := by
  rcases h1 with rfl | h1
  · exact h2
  · rcases h2 with rfl | h2
    · exact .inr ⟨h1.2, h1.1⟩
    · exact .inr ⟨h1.2, h2.2⟩

/-- Pointwise related lists: reordering one side reorders the other. -/
theorem perm_related {α β : Type} {R : α → β → Prop} {xs xs' : List α} (hp : xs.Perm xs') {es : List β} (hl : es.length = xs.length)
    (hr : ∀ (i : Nat) (x : α) (y : β), xs[i]? = some x → es[i]? = some y → R x y) :
    ∃ es', es.Perm es' ∧ es'.length = xs'.length ∧ ∀ (i : Nat) (x : α) (y : β), xs'[i]? = some x → es'[i]? = some y → R x y := by
  induction hp generalizing es with
  | nil => exact ⟨es, .refl _, hl, hr⟩
  | @cons x xs xs' _ ih =>
    cases es with
    | nil => simp at hl
    | cons e es =>
      obtain ⟨es', h1, h2, h3⟩ := ih (es := es) (by simpa using hl) fun i a b ha hb => hr (i + 1) a b (by simpa using ha) (by simpa using hb)
      refine ⟨e :: es', .cons _ h1, by simp [h2], fun i a b ha hb => ?_⟩
      cases i with
      | zero => exact hr 0 a b (by simpa using ha) (by simpa using hb)
      | succ i => exact h3 i a b (by simpa using ha) (by simpa using hb)
  | swap x y xs =>
    match es, hl, hr with
    | [], hl, _ => simp at hl
    | [_], hl, _ => simp at hl
    | e :: e' :: es, hl, hr =>
      refine ⟨e' :: e :: es, .swap _ _ _, by simpa using hl, fun i a b ha hb => ?_⟩
      rcases i with _ | _ | i
      · exact hr 1 a b (by simpa using ha) (by simpa using hb)
      · exact hr 0 a b (by simpa using ha) (by simpa using hb)
      · exact hr (i + 2) a b (by simpa using ha) (by simpa using hb)
  | trans _ _ ih1 ih2 =>
    obtain ⟨es1, h1, h2, h3⟩ := ih1 hl hr
    obtain ⟨es2, h4, h5, h6⟩ := ih2 h2 h3
    exact ⟨es2, h1.trans h4, h5, h6⟩

/-- Reorderings of a memory give the same values. -/
theorem alike_of_same {W : World} {h h' : Heap} (ho : Reordered h h') {t : Ty} {v : GV} {v1 v2 : Val} (h1 : SameVal W h t v v1)
    (h2 : SameVal W h' t v v2) : Alike v1 v2 := by
  have get : ∀ {α : Type} {xs : List α} {n i : Nat} {y : α}, xs[i]? = some y → xs.length = n → i < n := fun hy hl => hl ▸ (List.getElem?_eq_some_iff.1 hy).1
  induction h1 generalizing v2 with
  | bool => cases h2 with | bool => exact .bool | own _ h => exact h.elim
  | int => cases h2 with | int => exact .int | own _ h => exact h.elim
  | uint => cases h2 with | uint => exact .uint | own _ h => exact h.elim
  | f32 _ hx => cases h2 with | f32 _ hy => exact .f32 (sameF32_both hx hy) | own _ h => exact h.elim
  | f64 _ hx => cases h2 with | f64 _ hy => exact .f64 (sameF64_both hx hy) | own _ h => exact h.elim
  | str => cases h2 with | str => exact .str | own _ h => exact h.elim
  | bytesNil =>
    cases h2 with
    | own _ h => exact h.elim
    | bytesNil => exact .refl
    | sliceNil _ hn => exact absurd rfl hn
  | sliceNil _ hn =>
    cases h2 with
    | own _ h => exact h.elim
    | bytesNil => exact absurd rfl hn
    | sliceNil => exact .sliceNil
  | @sliceEmpty t e a n hr hn he =>
    cases h2 with
    | own _ h => exact h.elim
    | sliceEmpty => exact .sliceNil
    | slice hr' hv hl _ =>
      cases hr.symm.trans hr'
      rw [ho.elems, he] at hl
      exact absurd (hv (by simpa using hl)) hn
  | @slice t e a n vs hr hv hl _ ih =>
    cases h2 with
    | own _ h => exact h.elim
    | sliceEmpty hr' hn' he =>
      cases hr.symm.trans hr'
      rw [ho.elems] at he
      rw [he] at hl
      exact absurd (hv (by simpa using hl)) hn'
    | slice hr' _ hl' hs =>
      cases hr.symm.trans hr'
      rw [ho.elems] at hl' hs
      refine .slice (by omega) fun i x y hx hy => ?_
      obtain ⟨z, hz⟩ : ∃ z, (h.elems e a n)[i]? = some z := ⟨_, List.getElem?_eq_getElem (get hx hl)⟩
      exact ih i z x hz hx (hs i z y hz hy)
  | @arr t n e xs vs hr hl _ ih =>
    cases h2 with
    | own _ h => exact h.elim
    | arr hr' hl' hs =>
      cases hr.symm.trans hr'
      refine .arr (by omega) fun i x y hx hy => ?_
      obtain ⟨z, hz⟩ : ∃ z, xs[i]? = some z := ⟨_, List.getElem?_eq_getElem (get hx hl)⟩
      exact ih i z x hz hx (hs i z y hz hy)
  | mapNil => cases h2 with | mapNil => exact .mapNil | own _ h => exact h.elim
  | @map t k e a p es hr hl _ _ ih1 ih2 =>
    cases h2 with
    | own _ h => exact h.elim
    | @map _ _ _ _ p' es2 hr' hl' hk' hs' =>
      cases hr.symm.trans hr'
      obtain ⟨es', e1, e2, e3⟩ := perm_related (R := fun (x : GV × GV) (y : Val × Val) =>
          (∀ v2, SameVal W h' k x.1 v2 → Alike y.1 v2) ∧ (∀ v2, SameVal W h' e x.2 v2 → Alike y.2 v2)) (ho.iter k e p p' a) hl
        fun i x y hx hy => ⟨fun v2 h => ih1 i x y hx hy h, fun v2 h => ih2 i x y hx hy h⟩
      refine .map e1 (by omega) (fun i x y hx hy => ?_) (fun i x y hx hy => ?_)
      · obtain ⟨z, hz⟩ : ∃ z, (h'.iter k e p' a)[i]? = some z := ⟨_, List.getElem?_eq_getElem (get hx e2)⟩
        exact (e3 i z x hz hx).1 _ (hk' i z y hz hy)
      · obtain ⟨z, hz⟩ : ∃ z, (h'.iter k e p' a)[i]? = some z := ⟨_, List.getElem?_eq_getElem (get hx e2)⟩
        exact (e3 i z x hz hx).2 _ (hs' i z y hz hy)
  | ptrNil => cases h2 with | ptrNil => exact .ptrNil | own _ h => exact h.elim
  | ptr hr _ ih =>
    cases h2 with
    | own _ h => exact h.elim
    | ptr hr' h2 =>
      cases hr.symm.trans hr'
      rw [ho.deref] at h2
      exact .ptr (ih h2)
  | @struct t id xs vs hr hx0 hl _ hn ih =>
    cases h2 with
    | own _ h => exact h.elim
    | struct hr' _ hl' hs' hn' =>
      cases hr.symm.trans hr'
      refine .struct (by omega) fun i x y hx hy => ?_
      obtain ⟨f, hf⟩ : ∃ f, (W.fields id)[i]? = some f := ⟨_, List.getElem?_eq_getElem (get hx hl)⟩
      obtain ⟨z, hz⟩ : ∃ z, xs[i]? = some z := ⟨_, List.getElem?_eq_getElem (by rw [hx0]; exact get hx hl)⟩
      by_cases hsh : Shown W f z
      · exact ih i f z x hf hz hx hsh (hs' i f z y hf hz hy hsh)
      · rw [hn i f z x hf hz hx hsh, hn' i f z y hf hz hy hsh]
        exact .refl
  | own _ h => exact h.elim

theorem within_reordered {W : World} {h h' : Heap} (ho : Reordered h h') {t t' : Ty} {v v' : GV} (hw : Within W h' t v t' v') : Within W h t v t' v' := by
  induction hw with
  | refl => exact .refl
  | step hp _ ih =>
    refine .step ?_ ih
    cases hp with
    | ptr hr => rw [ho.deref]; exact .ptr hr
    | slice hr hm => rw [ho.elems] at hm; exact .slice hr hm
    | array hr hm => exact .array hr hm
    | @map k e p a x _ hr hm => exact .map (p := p) hr ((ho.iter _ _ p p _).mem_iff.2 hm)
    | field a b c d e => exact .field a b c d e
    | iface hr => exact .iface hr

theorem fit_reordered {W : World} {h h' : Heap} (ho : Reordered h h') {t : Ty} {v : GV} (hf : Fit W h t v) : Fit W h' t v := by
  cases v with
  | slice a n => intro e he; rw [ho.elems]; exact hf e he
  | map a =>
    intro k e p hr
    obtain ⟨h1, h2⟩ := hf k e p hr
    exact ⟨((ho.iter k e p p a).pairwise_iff fun h => Ne.symm h).1 h1, fun x hx => h2 x ((ho.iter k e p p a).mem_iff.2 hx)⟩
  | ptr a => intro e he; rw [ho.deref]; exact hf e he
  | _ => exact hf

theorem lax_perm {n : Nat} {cnt : Bytes} {es es' : List (Doc × Doc)} (hp : es.Perm es') (hl : Lax n (.arr cnt es)) : Lax n (.arr cnt es') := by
  cases hl with
  | arr h1 h2 h3 => exact .arr h1 (fun k v hm => h2 k v (hp.mem_iff.2 hm)) fun k v hm => h3 k v (hp.mem_iff.2 hm)

theorem text_perm_length {cnt : Bytes} {es es' : List (Doc × Doc)} (hp : es.Perm es') : (Doc.arr cnt es).text.length = (Doc.arr cnt es').text.length := by
  have : (pairsText es).length = (pairsText es').length := by
    induction hp with
    | nil => rfl
    | cons x _ ih => obtain ⟨k, v⟩ := x; simp [pairsText, ih]
    | swap x y es => obtain ⟨k, v⟩ := x; obtain ⟨k', v'⟩ := y; simp [pairsText]; omega
    | trans _ _ ih1 ih2 => exact ih1.trans ih2
  simp [Doc.text, this]

theorem decoded_perm {W : World} {k e : Ty} {n : Nat} {es es' : List (Doc × Doc)} {kvs : List (Val × Val)} (hp : es.Perm es') (h : Decoded W k e n es kvs) :
    ∃ kvs', Decoded W k e n es' kvs' ∧ kvs.Perm kvs' := by
  obtain ⟨kvs', h1, h2, h3⟩ := perm_related (R := fun x y => DecDoc W k n x.1 (W.zero k) y.1 ∧ DecDoc W e n x.2 (W.zero e) y.2 ∧ Hashable y.1)
    hp h.1 (fun i x y hx hy => h.2 (x, y) (List.mem_iff_getElem?.2 ⟨i, by simp [List.getElem?_zip_eq_some, hx, hy]⟩))
  refine ⟨kvs', ⟨h2, fun p hm => ?_⟩, h1⟩
  obtain ⟨i, hi⟩ := List.mem_iff_getElem?.1 hm
  obtain ⟨hi1, hi2⟩ := List.getElem?_zip_eq_some.1 hi
  exact h3 i _ _ hi1 hi2

theorem mapInsert_grows {k v : Val} {m : List (Val × Val)} : (mapInsert k v m).length = m.length ∨ mapInsert k v m = m ++ [(k, v)] := by
  induction m with
  | nil => exact .inr rfl
  | cons p m ih =>
    obtain ⟨k', v'⟩ := p
    unfold mapInsert
    split
    · exact .inl rfl
    · rcases ih with ih | ih
      · exact .inl (by simp [ih])
      · exact .inr (by simp [ih])

theorem insertAll_le (m kvs : List (Val × Val)) : (insertAll m kvs).length ≤ m.length + kvs.length := by
  induction kvs generalizing m with
  | nil => simp [insertAll]
  | cons p kvs ih =>
    have := ih (mapInsert p.1 p.2 m)
    have h2 : (mapInsert p.1 p.2 m).length ≤ m.length + 1 := by
      rcases mapInsert_grows (k := p.1) (v := p.2) (m := m) with h | h <;> simp [h]
    show (insertAll (mapInsert p.1 p.2 m) kvs).length ≤ _
    simp only [List.length_cons]
    omega

/-- If no insertion replaced an entry then all were appended. -/
theorem insertAll_full {m kvs : List (Val × Val)} (h : (insertAll m kvs).length = m.length + kvs.length) : insertAll m kvs = m ++ kvs := by
  induction kvs generalizing m with
  | nil => simp [insertAll]
  | cons p kvs ih =>
    have h : (insertAll (mapInsert p.1 p.2 m) kvs).length = m.length + (kvs.length + 1) := h
    have := insertAll_le (mapInsert p.1 p.2 m) kvs
    show insertAll (mapInsert p.1 p.2 m) kvs = _
    rcases mapInsert_grows (k := p.1) (v := p.2) (m := m) with h2 | h2
    · omega
    · rw [h2] at h ⊢
      rw [ih (by simp at h ⊢; omega)]
      simp

end Verif

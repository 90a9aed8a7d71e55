import Verif.Proofs.Position
/-
A value has at most one text (the memory fixes the order of map iteration).
-/
namespace Verif
open Spec

variable {W : World} {h : Heap}

theorem scalarDoc_det {t : Ty} {v : GV} {d d' : Doc} (h1 : ScalarDoc W t v d) (h2 : ScalarDoc W t v d') : d.text = d'.text := by
  have a := encodeScalar_complete (b := []) h1
  rw [encodeScalar_complete (b := []) h2] at a
  simpa using a.symm

theorem keyDoc_det {t : Ty} {v : GV} {d d' : Doc} (h1 : KeyDoc W t v d) (h2 : KeyDoc W t v d') : d.text = d'.text := by
  have a := keyText_complete (b := []) h1
  rw [keyText_complete (b := []) h2] at a
  simpa using a.symm

theorem deref_det {t : Ty} {v : GV} {o o' : Option (Ty × GV)} (h1 : Deref W h t v o) (h2 : Deref W h t v o') : o = o' := by
  obtain ⟨n, hn⟩ := derefAll_complete h1
  obtain ⟨m, hm⟩ := derefAll_complete h2
  have := (hn (max n m) (by omega)).symm.trans (hm (max n m) (by omega))
  simpa using this

theorem marshaled_det {t : Ty} {v : GV} {a b : Bytes} (h1 : Marshaled W h t v a) (h2 : Marshaled W h t v b) : a = b := by
  have x := callMarshaler_complete (b := []) h1
  rw [callMarshaler_complete (b := []) h2] at x
  simpa using x.symm

theorem strField_det {t : Ty} {v : GV} {d d' : Doc} (h1 : StrFieldDoc W h t v d) (h2 : StrFieldDoc W h t v d') : d.text = d'.text := by
  obtain ⟨n, hn⟩ := encodeAsString_complete h1
  obtain ⟨m, hm⟩ := encodeAsString_complete h2
  have := (hn (max n m) [] (by omega)).symm.trans (hm (max n m) [] (by omega))
  simpa using this

theorem written_det {i : Nat} {fs : List Field} {vs : List GV} {ws ws' : List WField} (h1 : Written W i fs vs ws) (h2 : Written W i fs vs ws') : ws = ws' := by
  induction h1 generalizing ws' with
  | nil => cases h2; rfl
  | hidden a _ ih =>
    cases h2 with
    | hidden _ b => exact ih b
    | omitted _ _ b => exact ih b
    | keep e t k _ _ =>
      rcases a with a | a
      · rw [e] at a; cases a
      · exact absurd (hasKey_unique ⟨_, _, t⟩ a) k
  | omitted a z _ ih =>
    cases h2 with
    | hidden _ b => exact ih b
    | omitted _ _ b => exact ih b
    | keep e t k n _ => exact absurd ⟨(tagMeaning_unique a t).2.1.1 trivial, z⟩ n
  | keep e t k n _ ih =>
    cases h2 with
    | hidden a _ =>
      rcases a with a | a
      · rw [e] at a; cases a
      · exact absurd (hasKey_unique ⟨_, _, t⟩ a) k
    | omitted a z _ => exact absurd ⟨(tagMeaning_unique a t).2.1.1 trivial, z⟩ n
    | keep e' t' k' n' b =>
      obtain ⟨h1, -, h3⟩ := tagMeaning_unique t t'
      rw [ih b, h1, Bool.eq_iff_iff.2 h3]

theorem arrText_congr {n : Nat} {kd kd' : Nat → Doc} {tx tx' : Nat → Bytes} (hk : ∀ i, i < n → (kd i).text = (kd' i).text) (ht : ∀ i, i < n → tx i = tx' i) :
    arrText n kd tx = arrText n kd' tx' := by
  have : ∀ m i, i + m ≤ n → bodyText kd tx i m = bodyText kd' tx' i m := by
    intro m
    induction m with
    | zero => intros; rfl
    | succ m ih => intro i hi; simp only [bodyText]; rw [hk i (by omega), ht i (by omega), ih (i + 1) (by omega)]
  rw [arrText, arrText, this n 0 (by omega)]

theorem get_of_lt {α : Type} {l : List α} {i : Nat} (h : i < l.length) : ∃ x, l[i]? = some x := ⟨_, List.getElem?_eq_getElem h⟩

theorem not_struct_of_direct {t : Ty} (hd : directKind W t = true) : W.isStruct t = false := by
  unfold directKind at hd; unfold World.isStruct; split at hd <;> simp_all

theorem not_iface_of_direct {t : Ty} (hd : directKind W t = true) : W.isIface t = false := by
  unfold directKind at hd; unfold World.isIface; split at hd <;> simp_all

theorem not_iface_of_struct {t : Ty} (hd : W.isStruct t = true) : W.isIface t = false := by
  unfold World.isStruct at hd; unfold World.isIface; split at hd <;> simp_all

local macro "kill" : tactic => `(tactic| (exfalso; first
  | (simp_all [not_struct_of_direct, not_iface_of_direct, not_iface_of_struct]; done)
  | (simp_all [World.isPtr, World.isIface, World.isStruct, directKind]; done)))

/-- A value has at most one text. -/
theorem encG_det {ok ok' : Ty → Prop} {G G' : Stack → Nat → Bool → Prop} {m : Mode} {st st' : Stack} {p : Path} {t : Ty} {v : GV} {tx tx' : Bytes}
    (he : EncG W h ok G m st p t v tx) (he' : EncG W h ok' G' m st' p t v tx') : tx = tx' := by
  induction he generalizing st' tx' with
  | marshaler a b =>
    cases he' with
    | marshaler _ c => exact marshaled_det b c
    | bytesNil => simp [World.marOf] at a
    | bytes => simp [World.marOf] at a
    | _ => kill
  | bytesNil =>
    cases he' with
    | marshaler a => simp [World.marOf] at a
    | bytesNil => rfl
    | plain _ a => exact absurd rfl a
    | ptrIface _ a => simp [World.resolve] at a
  | bytes a =>
    cases he' with
    | marshaler a => simp [World.marOf] at a
    | bytes b => rw [a] at b; cases b; rfl
    | plain _ a => exact absurd rfl a
    | ptrIface _ a => simp [World.resolve] at a
  | plain a b c _ ih =>
    cases he' with
    | plain _ _ _ x => exact ih x
    | bytesNil => exact absurd rfl b
    | bytes => exact absurd rfl b
    | _ => kill
  | ptrNil a b c d =>
    cases he' with
    | ptrNil => rfl
    | _ => kill
  | ptrStruct a b c _ _ ih =>
    cases he' with
    | ptrStruct _ b' _ _ x => rw [b] at b'; cases b'; exact ih x
    | _ => kill
  | ptrKind a b c _ ih =>
    cases he' with
    | ptrKind _ b' _ x => rw [b] at b'; cases b'; exact ih x
    | _ => kill
  | ptrTyped a b c d e f _ ih =>
    cases he' with
    | ptrTyped _ b' _ _ _ _ x => rw [b] at b'; cases b'; exact ih x
    | _ => kill
  | ptrIface a b c _ ih =>
    cases he' with
    | ptrIface _ b' _ x => exact ih x
    | bytesNil => simp [World.resolve] at b
    | bytes => simp [World.resolve] at b
    | _ => kill
  | scalar a =>
    cases he' with
    | scalar b => exact scalarDoc_det a b
    | iface b _ => cases a <;> kill
    | _ => cases a
  | struct a b _ ih =>
    cases he' with
    | scalar b => cases b
    | struct a' b' x =>
      rw [a] at a'; cases a'
      cases written_det b b'
      exact arrText_congr (fun _ _ => rfl) fun i hi => by
        obtain ⟨w, hw⟩ := get_of_lt hi
        exact ih i w hw (x i w hw)
    | iface b _ => kill
  | array a b _ ih =>
    cases he' with
    | scalar b => cases b
    | array a' _ x =>
      rw [a] at a'; cases a'
      exact arrText_congr (fun _ _ => rfl) fun i hi => by
        obtain ⟨w, hw⟩ := get_of_lt hi
        exact ih i w hw (x i w hw)
    | iface b _ => kill
  | sliceNil a =>
    cases he' with
    | scalar b => cases b
    | sliceNil => rfl
    | iface b _ => kill
  | slice a _ b _ ih =>
    subst b
    cases he' with
    | scalar b => cases b
    | slice a' _ b' x =>
      rw [a] at a'; cases a'; subst b'
      exact arrText_congr (fun _ _ => rfl) fun i hi => by
        obtain ⟨w, hw⟩ := get_of_lt hi
        exact ih i w hw (x i w hw)
    | iface b _ => kill
  | mapNil a =>
    cases he' with
    | scalar b => cases b
    | mapNil => rfl
    | iface b _ => kill
  | map a _ b c _ ih =>
    subst b
    cases he' with
    | scalar b => cases b
    | map a' _ b' c' x =>
      rw [a] at a'; cases a'; subst b'
      exact arrText_congr (fun i hi => by
        obtain ⟨w, hw⟩ := get_of_lt hi
        exact keyDoc_det (c i w.1 w.2 hw) (c' i w.1 w.2 hw)) fun i hi => by
        obtain ⟨w, hw⟩ := get_of_lt hi
        exact ih i w.1 w.2 hw (x i w.1 w.2 hw)
    | iface b _ => kill
  | iface a _ ih =>
    cases he' with
    | iface _ x => exact ih x
    | scalar b => cases b <;> kill
    | _ => kill
  | heldNil a =>
    cases he' with
    | heldNil => rfl
    | heldScalar b => cases deref_det a b
    | heldConcreteSlice b => cases deref_det a b
    | heldSliceNil b => cases deref_det a b
    | heldSlice b => cases deref_det a b
    | heldMapNil b => cases deref_det a b
    | heldMap b => cases deref_det a b
    | heldConcreteMap b => cases deref_det a b
    | heldStruct b => cases deref_det a b
  | heldScalar a s =>
    cases he' with
    | heldNil b => cases deref_det a b
    | heldScalar b s' => cases deref_det a b; exact scalarDoc_det s s'
    | heldConcreteSlice b => cases deref_det a b; cases s <;> kill
    | heldSliceNil b => cases deref_det a b; cases s
    | heldSlice b => cases deref_det a b; cases s
    | heldMapNil b => cases deref_det a b; cases s
    | heldMap b => cases deref_det a b; cases s
    | heldConcreteMap b => cases deref_det a b; cases s
    | heldStruct b => cases deref_det a b; cases s <;> kill
  | heldConcreteSlice a r i _ _ _ ih =>
    cases he' with
    | heldNil b => cases deref_det a b
    | heldScalar b s => cases deref_det a b; cases s <;> kill
    | heldConcreteSlice b _ _ _ _ x => cases deref_det a b; exact ih x
    | heldSliceNil b => cases deref_det a b; kill
    | heldSlice b => cases deref_det a b; kill
    | heldMapNil b => cases deref_det a b; kill
    | heldMap b => cases deref_det a b; kill
    | heldConcreteMap b => cases deref_det a b; kill
    | heldStruct b => cases deref_det a b; kill
  | heldSliceNil a r i =>
    cases he' with
    | heldNil b => cases deref_det a b
    | heldScalar b s => cases deref_det a b; cases s
    | heldConcreteSlice b => cases deref_det a b; kill
    | heldSliceNil b => rfl
    | heldSlice b => cases deref_det a b
    | heldMapNil b => cases deref_det a b
    | heldMap b => cases deref_det a b
    | heldConcreteMap b => cases deref_det a b
    | heldStruct b => cases deref_det a b; kill
  | heldSlice a r i _ c _ ih =>
    subst c
    cases he' with
    | heldNil b => cases deref_det a b
    | heldScalar b s => cases deref_det a b; cases s
    | heldConcreteSlice b => cases deref_det a b; kill
    | heldSliceNil b => cases deref_det a b
    | heldSlice b r' _ _ c' x =>
      cases deref_det a b
      rw [r] at r'; cases r'; subst c'
      exact arrText_congr (fun _ _ => rfl) fun i hi => by
        obtain ⟨w, hw⟩ := get_of_lt hi
        exact ih i w hw (x i w hw)
    | heldMapNil b => cases deref_det a b
    | heldMap b => cases deref_det a b
    | heldConcreteMap b => cases deref_det a b
    | heldStruct b => cases deref_det a b; kill
  | heldMapNil a r i =>
    cases he' with
    | heldNil b => cases deref_det a b
    | heldScalar b s => cases deref_det a b; cases s
    | heldConcreteSlice b => cases deref_det a b; kill
    | heldSliceNil b => cases deref_det a b
    | heldSlice b => cases deref_det a b
    | heldMapNil b => rfl
    | heldMap b => cases deref_det a b
    | heldConcreteMap b => cases deref_det a b
    | heldStruct b => cases deref_det a b; kill
  | heldMap a r k i _ b c _ ih =>
    subst b
    cases he' with
    | heldNil b => cases deref_det a b
    | heldScalar b s => cases deref_det a b; cases s
    | heldConcreteSlice b => cases deref_det a b; kill
    | heldSliceNil b => cases deref_det a b
    | heldSlice b => cases deref_det a b
    | heldMapNil b => cases deref_det a b
    | heldMap b r' _ _ _ b' c' x =>
      cases deref_det a b
      rw [r] at r'; cases r'; subst b'
      exact arrText_congr (fun i hi => by
        obtain ⟨w, hw⟩ := get_of_lt hi
        exact keyDoc_det (c i w.1 w.2 hw) (c' i w.1 w.2 hw)) fun i hi => by
        obtain ⟨w, hw⟩ := get_of_lt hi
        exact ih i w.1 w.2 hw (x i w.1 w.2 hw)
    | heldConcreteMap b => cases deref_det a b; kill
    | heldStruct b => cases deref_det a b; kill
  | heldConcreteMap a r k i _ b _ c _ ih =>
    subst b
    cases he' with
    | heldNil b => cases deref_det a b
    | heldScalar b s => cases deref_det a b; cases s
    | heldConcreteSlice b => cases deref_det a b; kill
    | heldSliceNil b => cases deref_det a b
    | heldSlice b => cases deref_det a b
    | heldMapNil b => cases deref_det a b
    | heldMap b => cases deref_det a b; kill
    | heldConcreteMap b r' _ _ _ b' _ c' x =>
      cases deref_det a b
      rw [r] at r'; cases r'; subst b'
      exact arrText_congr (fun i hi => by
        obtain ⟨w, hw⟩ := get_of_lt hi
        exact keyDoc_det (c i w.1 w.2 hw) (c' i w.1 w.2 hw)) fun i hi => by
        obtain ⟨w, hw⟩ := get_of_lt hi
        exact ih i w.1 w.2 hw (x i w.1 w.2 hw)
    | heldStruct b => cases deref_det a b; kill
  | heldStruct a s _ _ ih =>
    cases he' with
    | heldNil b => cases deref_det a b
    | heldScalar b s => cases deref_det a b; cases s <;> kill
    | heldConcreteSlice b => cases deref_det a b; kill
    | heldSliceNil b => cases deref_det a b; kill
    | heldSlice b => cases deref_det a b; kill
    | heldMapNil b => cases deref_det a b; kill
    | heldMap b => cases deref_det a b; kill
    | heldConcreteMap b => cases deref_det a b; kill
    | heldStruct b _ _ x => cases deref_det a b; exact ih x
  | fieldPlain a _ ih =>
    cases he' with
    | fieldPlain _ x => exact ih x
    | _ => kill
  | fieldPtrNil a =>
    cases he' with
    | fieldPtrNil => rfl
    | _ => kill
  | fieldPtrStruct a b _ _ ih =>
    cases he' with
    | fieldPtrStruct a' _ _ x => rw [a] at a'; cases a'; exact ih x
    | _ => kill
  | fieldPtr a b _ ih =>
    cases he' with
    | fieldPtr a' _ x => rw [a] at a'; cases a'; exact ih x
    | _ => kill
  | fieldStr a b =>
    cases he' with
    | fieldStr _ c => exact strField_det b c
    | _ => kill
  | fieldStrPtr a b =>
    cases he' with
    | fieldStrPtr a' c => rw [a] at a'; cases a'; exact strField_det b c
    | _ => kill

end Verif

import Verif.Proofs.Rewrite
import Verif.Proofs.RoundTree
/-
What was read is the same as what was written.
-/
namespace Verif
open Spec

variable {W : World} {h h' : Heap}

/-- A variable that holds the zero value of its type is zero. -/
theorem kept_zero (hz : ZeroOk W) {t : Ty} {v : GV} {x : Val} (hk : KeptAs W h t v x) (hx : x = W.zero t) : ZeroGV v := by
  induction hk with
  | bool r => rw [zero_resolve hz, r] at hx; cases hx; exact .bool
  | int r => rw [zero_resolve hz, r] at hx; cases hx; exact .int
  | uint r => rw [zero_resolve hz, r] at hx; cases hx; exact .uint
  | f32 r => rw [zero_resolve hz, r] at hx; cases hx; exact .f32 (by decide)
  | f64 r => rw [zero_resolve hz, r] at hx; cases hx; exact .f64 (by decide)
  | str r => rw [zero_resolve hz, r] at hx; cases hx; exact .str
  | sliceNil => exact .sliceNil
  | slice r => rw [zero_resolve hz, r] at hx; cases hx
  | @arr t n e vs xs r hl _ ih =>
    rw [zero_resolve hz, r] at hx
    simp only [World.zero, Val.arr.injEq] at hx
    refine .arr fun v hv => ?_
    obtain ⟨i, hi⟩ := List.getElem?_of_mem hv
    have hlt := (List.getElem?_eq_some_iff.1 hi).1
    obtain ⟨x, hxi⟩ := get_of_lt (hl ▸ hlt)
    refine ih i v x hi hxi ?_
    rw [hx] at hxi
    exact (List.eq_of_mem_replicate (List.mem_of_getElem? hxi))
  | mapNil => exact .mapNil
  | map ord r => rw [zero_resolve hz, r] at hx; cases hx
  | ptrNil => exact .ptrNil
  | ptr r => rw [zero_resolve hz, r] at hx; cases hx
  | @struct t id vs xs r hl hl' _ ih =>
    rw [zero_resolve hz, r] at hx
    simp only [World.zero, hz.struct, Val.struct.injEq] at hx
    refine .struct fun v hv => ?_
    obtain ⟨i, hi⟩ := List.getElem?_of_mem hv
    have hlt := (List.getElem?_eq_some_iff.1 hi).1
    obtain ⟨x, hxi⟩ := get_of_lt (hl ▸ hlt)
    obtain ⟨f, hf⟩ := get_of_lt (l := W.fields id) (i := i) (by omega)
    refine ih i f v x hf hi hxi ?_
    rw [hx, List.getElem?_map, hf] at hxi
    cases hxi; rfl

theorem zero_sameF64 {x y : UInt64} (hs : SameF64 x y) (hy : y &&& 0x7FFFFFFFFFFFFFFF = 0) : x &&& 0x7FFFFFFFFFFFFFFF = 0 := by
  rcases hs with rfl | ⟨-, n⟩
  · exact hy
  · unfold NaN64 at n; rw [hy] at n; exact absurd n (by decide)

theorem zero_sameF32 {x y : UInt32} (hs : SameF32 x y) (hy : y &&& 0x7FFFFFFF = 0) : x &&& 0x7FFFFFFF = 0 := by
  rcases hs with rfl | ⟨-, n⟩
  · exact hy
  · unfold NaN32 at n; rw [hy] at n; exact absurd n (by decide)

/-- What is seen not to be zero does not come back as zero. -/
theorem telling_back {t : Ty} {v v' : GV} {x : Val} (ht : Telling W t v) (hs : SameVal W h t v x) (hk : KeptAs W h' t v' x)
    (hr : ∀ t' v', Within W h t v t' v' → Robust W h t' v') : ¬ ZeroGV v' := by
  induction ht generalizing v' x with
  | @simple t v h1 h2 hn =>
    intro hz
    cases hs with
    | own _ m => exact m
    | f32 _ s => cases hk with | f32 => cases hz with | f32 z => exact hn (.f32 (zero_sameF32 s z))
    | f64 _ s => cases hk with | f64 => cases hz with | f64 z => exact hn (.f64 (zero_sameF64 s z))
    | bool => cases hk with | bool => exact hn hz
    | int => cases hk with | int => exact hn hz
    | uint => cases hk with | uint => exact hn hz
    | str => cases hk with | str => exact hn hz
    | bytesNil => exact hn .sliceNil
    | sliceNil => exact hn .sliceNil
    | sliceEmpty r nb e => exact hr _ _ .refl _ r nb e
    | slice => cases hk with | slice => cases hz
    | arr => exact h1 _ rfl
    | mapNil => exact hn .mapNil
    | map => cases hk with | map => cases hz
    | ptrNil => exact hn .ptrNil
    | ptr => cases hk with | ptr => cases hz
    | struct => exact h2 _ rfl
  | @arr t n e vs v i r hi _ ih =>
    intro hz
    cases hs with
    | own _ m => exact m
    | arr r1 hl hv =>
      cases r.symm.trans r1
      cases hk with
      | arr r2 hl' hv' =>
        cases r.symm.trans r2
        cases hz with
        | arr hz =>
          have hlt := (List.getElem?_eq_some_iff.1 hi).1
          obtain ⟨y, hy⟩ := get_of_lt (hl ▸ hlt)
          obtain ⟨w, hw⟩ := get_of_lt (hl'.symm ▸ hl ▸ hlt)
          exact ih (hv i _ _ hi hy) (hv' i _ _ hw hy) (fun t' u hu => hr t' u (.step (.array r (List.mem_of_getElem? hi)) hu)) (hz _ (List.mem_of_getElem? hw))
  | @struct t id vs f v i r hf hi hsh _ ih =>
    intro hz
    cases hs with
    | own _ m => exact m
    | struct r1 hl hl1 hv _ =>
      cases r.symm.trans r1
      cases hk with
      | struct r2 hl' hl2 hv' =>
        cases r.symm.trans r2
        cases hz with
        | struct hz =>
          have hlt := (List.getElem?_eq_some_iff.1 hf).1
          obtain ⟨y, hy⟩ := get_of_lt (hl1 ▸ hlt)
          obtain ⟨w, hw⟩ := get_of_lt (hl'.symm ▸ hl1 ▸ hlt)
          exact ih (hv i f _ _ hf hi hy hsh) (hv' i f _ _ hf hw hy) (fun t' u hu => hr t' u (.step (shown_part r hf hi hsh) hu)) (hz _ (List.mem_of_getElem? hw))

/-- Keys come back as they were. -/
theorem key_kept {k : Ty} {u w : GV} {y : Val} (kk : KeyKind W k) (hs : SameVal W h k u y) (hk : KeptAs W h' k w y) : u = w := by
  cases kk with
  | int _ r =>
    cases hs with
    | own _ m => exact m.elim
    | int => cases hk with | int => rfl
    | bytesNil => simp [World.resolve] at r
    | _ => exact absurd ((‹W.resolve k = _›).symm.trans r) (by simp)
  | uint _ r =>
    cases hs with
    | own _ m => exact m.elim
    | uint => cases hk with | uint => rfl
    | bytesNil => simp [World.resolve] at r
    | _ => exact absurd ((‹W.resolve k = _›).symm.trans r) (by simp)
  | str r =>
    cases hs with
    | own _ m => exact m.elim
    | str => cases hk with | str => rfl
    | bytesNil => simp [World.resolve] at r
    | _ => exact absurd ((‹W.resolve k = _›).symm.trans r) (by simp)

/-- What was read is the same as what was written. -/
theorem same_of_kept (hz : ZeroOk W) (ho : Reordered h h) {t : Ty} {v v' : GV} {x : Val} (hs : SameVal W h t v x) (hk : KeptAs W h' t v' x)
    (hr : ∀ t' v', Within W h t v t' v' → Robust W h t' v') :
    SameIn W h h' t v v' := by
  induction hs generalizing v' with
  | own _ m => exact m.elim
  | bool => cases hk with | bool => exact .bool
  | int => cases hk with | int => exact .int
  | uint => cases hk with | uint => exact .uint
  | f32 _ s => cases hk with | f32 => exact .f32 s
  | f64 _ s => cases hk with | f64 => exact .f64 s
  | str => cases hk with | str => exact .str
  | bytesNil =>
    cases hk with
    | slice r hl _ =>
      simp only [World.resolve, Ty.slice.injEq] at r
      subst r
      exact .bytesNil (List.length_eq_zero_iff.1 (by simpa using hl))
  | sliceNil => cases hk with | sliceNil => exact .sliceNil
  | sliceEmpty r nb e => exact absurd e (hr _ _ .refl _ r nb)
  | @slice t e a n xs r _ hl _ ih =>
    cases hk with
    | slice r1 hl' hv =>
      cases r.symm.trans r1
      refine .slice r (by omega) fun i u w hu hw => ?_
      obtain ⟨y, hy⟩ := get_of_lt (hl'.symm ▸ (List.getElem?_eq_some_iff.1 hw).1)
      have hp : Part W h t (.slice a n) e u := .slice r (List.mem_of_getElem? hu)
      exact ih i u y hu hy (hv i w y hw hy) (fun t' u hu => hr t' u (.step hp hu))
  | @arr t n e us xs r hl _ ih =>
    cases hk with
    | arr r1 hl' hv =>
      cases r.symm.trans r1
      refine .arr r (by omega) fun i u w hu hw => ?_
      obtain ⟨y, hy⟩ := get_of_lt (hl' ▸ (List.getElem?_eq_some_iff.1 hw).1)
      have hp : Part W h t (.arr us) e u := .array r (List.mem_of_getElem? hu)
      exact ih i u y hu hy (hv i w y hw hy) (fun t' u hu => hr t' u (.step hp hu))
  | mapNil => cases hk with | mapNil => exact .mapNil
  | @map t k e a p0 es r hl hvk _ _ ih =>
    cases hk with
    | @map _ k' e' a' _ ord r1 hp hl' hk' hv' =>
      cases r.symm.trans r1
      have ex : ∀ p p', ∃ o, (h.iter k e p a).Perm o ∧ o.length = (h'.iter k e p' a').length ∧
          ∀ (i : Nat) (u w : GV × GV), o[i]? = some u → (h'.iter k e p' a')[i]? = some w → (KeyKind W k → u.1 = w.1) ∧ SameIn W h h' e u.2 w.2 := by
        intro p p'
        obtain ⟨o, o1, o2, o3⟩ := perm_related (R := fun (y : Val × Val) (u : GV × GV) =>
            SameVal W h k u.1 y.1 ∧ ∀ w, KeptAs W h' e w y.2 → SameIn W h h' e u.2 w) (hp p') (es := h.iter k e p0 a) hl.symm
          fun i y u hy hu => by
            have hpart : Part W h t (.map a) e u.2 := .map (x := u.1) r (List.mem_of_getElem? hu)
            exact ⟨hvk i u y hu hy, fun w hw => ih i u y hu hy hw fun t' u hu => hr t' u (.step hpart hu)⟩
        refine ⟨o, (ho.iter k e p p0 a).trans o1, by rw [o2, hl'], fun i u w hu hw => ?_⟩
        obtain ⟨y, hy⟩ := get_of_lt (hl' p' ▸ (List.getElem?_eq_some_iff.1 hw).1)
        obtain ⟨s1, s2⟩ := o3 i y u hy hu
        exact ⟨fun kk => key_kept kk s1 (hk' p' i w y hw hy), s2 _ (hv' p' i w y hw hy)⟩
      exact .map (fun p p' => Classical.choose (ex p p')) r (fun p p' => (Classical.choose_spec (ex p p')).1)
        (fun p p' => (Classical.choose_spec (ex p p')).2.1) (fun p p' i u w hu hw => ((Classical.choose_spec (ex p p')).2.2 i u w hu hw).1)
        fun p p' i u w hu hw => ((Classical.choose_spec (ex p p')).2.2 i u w hu hw).2
  | ptrNil => cases hk with | ptrNil => exact .ptrNil
  | ptr r _ ih =>
    cases hk with
    | ptr r1 hk =>
      cases r.symm.trans r1
      exact .ptr r (ih hk fun t' u hu => hr t' u (.step (.ptr r) hu))
  | @struct t id us xs r hl hl1 hsv hzv ih =>
    cases hk with
    | struct r1 hl' hl2 hv =>
      cases r.symm.trans r1
      have shown : ∀ (i : Nat) (f : Field) (u w : GV), (W.fields id)[i]? = some f → us[i]? = some u → _ → Shown W f u → SameIn W h h' f.ty u w :=
        fun i f u w hf hu hw hsh => by
          obtain ⟨y, hy⟩ := get_of_lt (hl' ▸ (List.getElem?_eq_some_iff.1 hw).1)
          have hp : Part W h t (.struct us) f.ty u := shown_part r hf hu hsh
          exact ih i f u y hf hu hy hsh (hv i f w y hf hw hy) (fun t' u hu => hr t' u (.step hp hu))
      refine .struct r (by omega) (fun i f u w hf hu hw => ⟨fun hsh => ?_, fun hsh => ?_⟩) shown
      · obtain ⟨y, hy⟩ := get_of_lt (hl' ▸ (List.getElem?_eq_some_iff.1 hw).1)
        have hp : Part W h t (.struct us) f.ty u := shown_part r hf hu hsh
        obtain ⟨e, key, om, str, tm, kn, hn⟩ := hsh
        refine ⟨e, key, om, str, tm, kn, fun ⟨hom, hzw⟩ => ?_⟩
        have hom' : HasOmitempty W f := ⟨key, str, by rwa [eq_true hom] at tm⟩
        exact telling_back (hr _ _ .refl id i f u r hf hu ⟨e, key, om, str, tm, kn, hn⟩ hom') (hsv i f u y hf hu hy ⟨e, key, om, str, tm, kn, hn⟩)
          (hv i f w y hf hw hy) (fun t' u hu => hr t' u (.step hp hu)) hzw
      · refine Classical.byContradiction fun hnot => ?_
        obtain ⟨y, hy⟩ := get_of_lt (hl' ▸ (List.getElem?_eq_some_iff.1 hw).1)
        have hzero := kept_zero hz (hv i f w y hf hw hy) (hzv i f u y hf hu hy hnot)
        obtain ⟨e, key, om, str, tm, kn, hn⟩ := hsh
        exact hnot ⟨e, key, om, str, tm, kn, fun ⟨hom, _⟩ => hn ⟨hom, hzero⟩⟩

end Verif

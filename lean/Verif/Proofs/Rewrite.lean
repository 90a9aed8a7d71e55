import Verif.Spec.Rewrite
import Verif.Proofs.EncDet
import Verif.Proofs.EncDocs
import Verif.Proofs.Order
import Verif.Proofs.EncRecursive
/-
The same value in two memories has the same text, up to the order of map entries.
-/
namespace Verif
open Spec

variable {W : World} {h h' : Heap} {Q : Prop}

theorem fmtText64_same (hn : NaNsAlike W) {x y : UInt64} (hs : SameF64 x y) {a b : Bytes} (ha : FmtText64 W x a) (hb : FmtText64 W y b) : a = b := by
  have key : ∀ {z : UInt64} {c : Bytes}, NaN64 z → FmtText64 W z c → c = W.fmtF64 false z := fun hz hc => by
    rcases hc with ⟨s, -⟩ | ⟨-, s⟩
    · exact absurd hz s.1
    · exact s
  rcases hs with rfl | ⟨h1, h2⟩
  · rcases ha with ⟨s, rfl⟩ | ⟨s, rfl⟩ <;> rcases hb with ⟨s', rfl⟩ | ⟨s', rfl⟩ <;> first | rfl | exact absurd s s' | exact absurd s' s
  · rw [key h1 ha, key h2 hb]; exact hn.f64 _ _ _ h1 h2

theorem fmtText32_same (hn : NaNsAlike W) {x y : UInt32} (hs : SameF32 x y) {a b : Bytes} (ha : FmtText32 W x a) (hb : FmtText32 W y b) : a = b := by
  have key : ∀ {z : UInt32} {c : Bytes}, NaN32 z → FmtText32 W z c → c = W.fmtF32 false z := fun hz hc => by
    rcases hc with ⟨s, -⟩ | ⟨-, s⟩
    · exact absurd hz s.1
    · exact s
  rcases hs with rfl | ⟨h1, h2⟩
  · rcases ha with ⟨s, rfl⟩ | ⟨s, rfl⟩ <;> rcases hb with ⟨s', rfl⟩ | ⟨s', rfl⟩ <;> first | rfl | exact absurd s s' | exact absurd s' s
  · rw [key h1 ha, key h2 hb]; exact hn.f32 _ _ _ h1 h2

theorem floatOut64_nan {x : UInt64} {a : Bytes} (hx : NaN64 x) (ha : FloatOut64 W x a) : a = [78, 65, 78] := by
  cases ha with
  | nan => rfl
  | inf => exact absurd hx (by unfold NaN64; decide)
  | negInf => exact absurd hx (by unfold NaN64; decide)
  | finite n => exact absurd hx n

theorem floatOut32_nan {x : UInt32} {a : Bytes} (hx : NaN32 x) (ha : FloatOut32 W x a) : a = [78, 65, 78] := by
  cases ha with
  | nan => rfl
  | inf => exact absurd hx (by unfold NaN32; decide)
  | negInf => exact absurd hx (by unfold NaN32; decide)
  | finite n => exact absurd hx n

theorem scalarDoc_same {t : Ty} {v v' : GV} {d d' : Doc} (hs : SameIn W h h' t v v') (h1 : ScalarDoc W t v d) (h2 : ScalarDoc W t v' d') : d.text = d'.text := by
  cases hs with
  | f64 hf =>
    rcases hf with rfl | ⟨n1, n2⟩
    · exact scalarDoc_det h1 h2
    · cases h1 with | f64 _ a => cases h2 with | f64 _ b => rw [floatOut64_nan n1 a, floatOut64_nan n2 b]
  | f32 hf =>
    rcases hf with rfl | ⟨n1, n2⟩
    · exact scalarDoc_det h1 h2
    · cases h1 with | f32 _ a => cases h2 with | f32 _ b => rw [floatOut32_nan n1 a, floatOut32_nan n2 b]
  | bool => exact scalarDoc_det h1 h2
  | int => exact scalarDoc_det h1 h2
  | uint => exact scalarDoc_det h1 h2
  | str => exact scalarDoc_det h1 h2
  | _ => cases h1

theorem keyDoc_same {t : Ty} {v v' : GV} {d d' : Doc} (hs : KeyKind W t → v = v') (h1 : KeyDoc W t v d) (h2 : KeyDoc W t v' d') : d = d' := by
  cases hs (keyDoc_kind h1)
  cases h1 <;> cases h2 <;> rfl

theorem basicText_same (hn : NaNsAlike W) {t t' : Ty} {v v' : GV} {a b : Bytes} (hs : SameIn W h h' t' v v') (h1 : BasicText W t v a) (h2 : BasicText W t v' b) :
    a = b := by
  cases h1 with
  | f64 x => cases hs with | f64 hf => cases h2 with | f64 y => exact fmtText64_same hn hf x y
  | f32 x => cases hs with | f32 hf => cases h2 with | f32 y => exact fmtText32_same hn hf x y
  | _ => cases hs <;> cases h2 <;> rfl

/-- What two dereferenced values have in common. -/
inductive OSame (W : World) (h h' : Heap) : Option (Ty × GV) → Option (Ty × GV) → Prop
  | none : OSame W h h' none none
  | some {t v v'} : SameIn W h h' t v v' → OSame W h h' (some (t, v)) (some (t, v'))

theorem deref_same {t : Ty} {v v' : GV} {o o' : Option (Ty × GV)} (hs : SameIn W h h' t v v') (h1 : Deref W h t v o) (h2 : Deref W h' t v' o') :
    OSame W h h' o o' := by
  induction h1 generalizing v' with
  | ptrNil a =>
    cases hs with
    | ptrNil =>
      cases h2 with
      | ptrNil => exact .none
      | done b => simp [World.isPtr, a] at b
  | @ptr t e x o a _ ih =>
    cases hs with
    | ptr a' hs =>
      rw [a] at a'; cases a'
      cases h2 with
      | ptr a'' d => rw [a] at a''; cases a''; exact ih hs d
      | done b => simp [World.isPtr, a] at b
  | ifaceNil a =>
    cases hs with
    | ifaceNil =>
      cases h2 with
      | ifaceNil => exact .none
      | done _ b => simp [a] at b
  | iface a _ ih =>
    cases hs with
    | iface hs =>
      cases h2 with
      | iface _ d => exact ih hs d
      | done _ b => simp [a] at b
  | done a b =>
    cases h2 with
    | ptrNil c => simp [World.isPtr, c] at a
    | ptr c => simp [World.isPtr, c] at a
    | ifaceNil c => simp [c] at b
    | iface c => simp [c] at b
    | done => exact .some hs

theorem strField_same (hn : NaNsAlike W) {t : Ty} {v v' : GV} {d d' : Doc} (hs : SameIn W h h' t v v') (h1 : StrFieldDoc W h t v d)
    (h2 : StrFieldDoc W h' t v' d') : d.text = d'.text := by
  cases h1 with
  | str a =>
    cases hs with
    | str =>
      cases h2 with
      | str => rfl
      | basic b => rw [a] at b; cases b
      | ifaceNil b => simp [World.isIface, a] at b
      | iface b => simp [World.isIface, a] at b
  | basic a =>
    cases h2 with
    | str b => rw [b] at a; cases a
    | basic b => rw [basicText_same hn hs a b]
    | ifaceNil b => cases hr : W.resolve t <;> simp [hr, World.isIface] at b <;> rw [hr] at a <;> cases a
    | iface b => cases hr : W.resolve t <;> simp [hr, World.isIface] at b <;> rw [hr] at a <;> cases a
  | ifaceNil a x =>
    cases h2 with
    | str b => simp [World.isIface, b] at a
    | basic b => cases hr : W.resolve t <;> simp [hr, World.isIface] at a <;> rw [hr] at b <;> cases b
    | ifaceNil => rfl
    | iface _ y => cases deref_same hs x y
  | iface a x k =>
    cases h2 with
    | str b => simp [World.isIface, b] at a
    | basic b => cases hr : W.resolve t <;> simp [hr, World.isIface] at a <;> rw [hr] at b <;> cases b
    | ifaceNil _ y => cases deref_same hs x y
    | iface _ y k' =>
      cases deref_same hs x y with
      | some hs => rw [basicText_same hn hs k k']

theorem bytesOf_same {xs ys : List GV} (hl : xs.length = ys.length)
    (hs : ∀ (i : Nat) (x y : GV), xs[i]? = some x → ys[i]? = some y → SameIn W h h' (.uint .u8) x y) {a b : Bytes} (ha : bytesOf xs = some a)
    (hb : bytesOf ys = some b) : a = b := by
  induction xs generalizing ys a b with
  | nil => cases ys with
    | nil => rw [ha] at hb; cases hb; rfl
    | cons => simp at hl
  | cons x xs ih => cases ys with
    | nil => simp at hl
    | cons y ys =>
      have h0 := hs 0 x y rfl rfl
      have ht := fun a b => ih (ys := ys) (a := a) (b := b) (by simpa using hl) fun i x y hx hy => hs (i + 1) x y (by simpa using hx) (by simpa using hy)
      cases h0 with
      | @uint _ n =>
        simp only [bytesOf] at ha hb
        split at ha
        · simp only [Option.map_eq_some_iff] at ha hb
          obtain ⟨a', ha', rfl⟩ := ha
          rw [if_pos (by assumption)] at hb
          simp only [Option.map_eq_some_iff] at hb
          obtain ⟨b', hb', rfl⟩ := hb
          rw [ht a' b' ha' hb']
        · cases ha
      | _ => simp [bytesOf] at ha

/-- The fields that are written of the same struct in two memories. -/
theorem written_same {i : Nat} {fs : List Field} {vs vs' : List GV} {ws ws' : List WField} (h1 : Written W i fs vs ws) (h2 : Written W i fs vs' ws')
    (hs : ∀ (j : Nat) (f : Field) (x y : GV), fs[j]? = some f → vs[j]? = some x → vs'[j]? = some y → (Shown W f x ↔ Shown W f y)) :
    ws.length = ws'.length ∧ ∀ (j : Nat) (w w' : WField), ws[j]? = some w → ws'[j]? = some w' →
      w.idx = w'.idx ∧ w.key = w'.key ∧ w.str = w'.str ∧ w.ty = w'.ty ∧
      ∃ (n : Nat) (f : Field), fs[n]? = some f ∧ vs[n]? = some w.val ∧ vs'[n]? = some w'.val ∧ f.ty = w.ty ∧ Shown W f w.val := by
  have lift : ∀ {f : Field} {fs : List Field} {x y : GV} {vs vs' : List GV} {w w' : WField},
      (w.idx = w'.idx ∧ w.key = w'.key ∧ w.str = w'.str ∧ w.ty = w'.ty ∧
        ∃ (n : Nat) (f : Field), fs[n]? = some f ∧ vs[n]? = some w.val ∧ vs'[n]? = some w'.val ∧ f.ty = w.ty ∧ Shown W f w.val) →
      w.idx = w'.idx ∧ w.key = w'.key ∧ w.str = w'.str ∧ w.ty = w'.ty ∧
        ∃ (n : Nat) (g : Field), (f :: fs)[n]? = some g ∧ (x :: vs)[n]? = some w.val ∧ (y :: vs')[n]? = some w'.val ∧ g.ty = w.ty ∧ Shown W g w.val :=
    fun ⟨a, b, c, d, n, f, e⟩ => ⟨a, b, c, d, n + 1, f, by simpa using e⟩
  have notShown : ∀ {f : Field} {x : GV}, f.exported = false ∨ HasKey W f [45] → ¬ Shown W f x := by
    rintro f x a ⟨e, k, om, str, t, kn, -⟩
    rcases a with a | a
    · rw [e] at a; cases a
    · exact kn (hasKey_unique ⟨_, _, t⟩ a)
  have notShown' : ∀ {f : Field} {x : GV} {key str}, TagMeaning W f key True str → ZeroGV x → ¬ Shown W f x := by
    rintro f x _ _ a z ⟨e, k, om, str, t, -, n⟩
    exact n ⟨(tagMeaning_unique a t).2.1.1 trivial, z⟩
  induction h1 generalizing vs' ws' with
  | nil => cases h2; simp
  | hidden a _ ih =>
    cases h2 with
    | hidden _ b => exact ⟨(ih b fun j f x y p q r => hs (j + 1) f x y p q r).1, fun j w w' p q => lift ((ih b fun j f x y p q r => hs (j + 1) f x y p q r).2 j w w' p q)⟩
    | omitted _ _ b => exact ⟨(ih b fun j f x y p q r => hs (j + 1) f x y p q r).1, fun j w w' p q => lift ((ih b fun j f x y p q r => hs (j + 1) f x y p q r).2 j w w' p q)⟩
    | keep e t k n _ => exact absurd ((hs 0 _ _ _ rfl rfl rfl).2 ⟨e, _, _, _, t, k, n⟩) (notShown a)
  | omitted a z _ ih =>
    cases h2 with
    | hidden _ b => exact ⟨(ih b fun j f x y p q r => hs (j + 1) f x y p q r).1, fun j w w' p q => lift ((ih b fun j f x y p q r => hs (j + 1) f x y p q r).2 j w w' p q)⟩
    | omitted _ _ b => exact ⟨(ih b fun j f x y p q r => hs (j + 1) f x y p q r).1, fun j w w' p q => lift ((ih b fun j f x y p q r => hs (j + 1) f x y p q r).2 j w w' p q)⟩
    | keep e t k n _ => exact absurd ((hs 0 _ _ _ rfl rfl rfl).2 ⟨e, _, _, _, t, k, n⟩) (notShown' a z)
  | keep e t k n _ ih =>
    cases h2 with
    | hidden a _ => exact absurd ((hs 0 _ _ _ rfl rfl rfl).1 ⟨e, _, _, _, t, k, n⟩) (notShown a)
    | omitted a z _ => exact absurd ((hs 0 _ _ _ rfl rfl rfl).1 ⟨e, _, _, _, t, k, n⟩) (notShown' a z)
    | keep e' t' k' n' b =>
      obtain ⟨h1, h2⟩ := ih b fun j f x y p q r => hs (j + 1) f x y p q r
      refine ⟨by simp [h1], fun j w w' p q => ?_⟩
      cases j with
      | zero =>
        simp only [List.getElem?_cons_zero, Option.some.injEq] at p q
        subst p q
        obtain ⟨g1, -, g3⟩ := tagMeaning_unique t t'
        exact ⟨rfl, g1, Bool.eq_iff_iff.2 g3, rfl, 0, _, rfl, rfl, rfl, rfl, e, _, _, _, t, k, n⟩
      | succ j => exact lift (h2 j w w' (by simpa using p) (by simpa using q))

/-- Two arrays with the same keys. -/
theorem shuffled_arr {n m : Nat} {kd kd' : Nat → Doc} {tx tx' : Nat → Bytes} (hl : n = m) (hk : ∀ i, i < n → kd i = kd' i)
    (ht : ∀ i, i < n → Shuffled Q (tx i) (tx' i)) : Shuffled Q (arrText n kd tx) (arrText m kd' tx') := by
  subst hl
  rw [arrText_list, arrText_list]
  have get : ∀ {kd : Nat → Doc} {tx : Nat → Bytes} {i : Nat} {x : Doc × Bytes}, (entries n kd tx)[i]? = some x → i < n ∧ x = (kd i, tx i) := by
    intro kd tx i x hx
    have hi : i < n := by have := (List.getElem?_eq_some_iff.1 hx).1; rwa [entries_length] at this
    rw [entries_get hi] at hx
    exact ⟨hi, by cases hx; rfl⟩
  refine .entries (by rw [entries_length, entries_length]) (fun i x y hx hy => ?_) fun i x y hx hy => ?_
  · obtain ⟨hi, rfl⟩ := get hx
    obtain ⟨-, rfl⟩ := get hy
    exact hk i hi
  · obtain ⟨hi, rfl⟩ := get hx
    obtain ⟨-, rfl⟩ := get hy
    exact ht i hi

/-- Two arrays with the entries of the same map. -/
theorem shuffled_map {k e : Ty} {es ord es' : List (GV × GV)} {kd kd' : Nat → Doc} {tx tx' : Nat → Bytes} (hq : Q) (hp : es.Perm ord)
    (hl : ord.length = es'.length)
    (hk : ∀ (i : Nat) (x y : GV × GV), ord[i]? = some x → es'[i]? = some y → KeyKind W k → x.1 = y.1)
    (hv : ∀ (i : Nat) (x y : GV × GV), ord[i]? = some x → es'[i]? = some y → SameIn W h h' e x.2 y.2)
    (hkd : ∀ (i : Nat) (x y : GV), es[i]? = some (x, y) → KeyDoc W k x (kd i))
    (hkd' : ∀ (i : Nat) (x y : GV), es'[i]? = some (x, y) → KeyDoc W k x (kd' i))
    (ht : ∀ (i j : Nat) (x y x' y' : GV), es[i]? = some (x, y) → es'[j]? = some (x', y') → SameIn W h h' e y y' → Shuffled Q (tx i) (tx' j)) :
    Shuffled Q (arrText es.length kd tx) (arrText es'.length kd' tx') := by
  rw [arrText_list, arrText_list]
  obtain ⟨E, h1, h2, h3⟩ := perm_related (R := fun (x : GV × GV) (d : Doc × Bytes) => ∃ i, es[i]? = some x ∧ d = (kd i, tx i)) hp
    (es := entries es.length kd tx) entries_length fun i x d hx hd => by
      have hi := (List.getElem?_eq_some_iff.1 hx).1
      rw [entries_get hi] at hd
      cases hd
      exact ⟨i, hx, rfl⟩
  have get : ∀ {j : Nat} {x d : Doc × Bytes}, E[j]? = some x → (entries es'.length kd' tx')[j]? = some d →
      ∃ i a b, es[i]? = some a ∧ es'[j]? = some b ∧ ord[j]? = some a ∧ x = (kd i, tx i) ∧ d = (kd' j, tx' j) := by
    intro j x d hx hd
    have hj : j < es'.length := by have := (List.getElem?_eq_some_iff.1 hd).1; rwa [entries_length] at this
    rw [entries_get hj] at hd
    obtain ⟨b, hb⟩ := get_of_lt hj
    obtain ⟨a, ha⟩ := get_of_lt (l := ord) (i := j) (by omega)
    obtain ⟨i, hi, rfl⟩ := h3 j a x ha hx
    exact ⟨i, a, b, hi, hb, ha, rfl, by cases hd; rfl⟩
  refine .perm hq h1 (.entries (by rw [h2, hl, entries_length]) (fun j x d hx hd => ?_) fun j x d hx hd => ?_)
  · obtain ⟨i, a, b, ha, hb, ho, rfl, rfl⟩ := get hx hd
    exact keyDoc_same (hk j a b ho hb) (hkd i a.1 a.2 ha) (hkd' j b.1 b.2 hb)
  · obtain ⟨i, a, b, ha, hb, ho, rfl, rfl⟩ := get hx hd
    exact ht i j a.1 a.2 b.1 b.2 ha hb (hv j a b ho hb)

set_option hygiene false in
local macro "kill" : tactic => `(tactic| (exfalso; clear hM hQ hq hn; (try clear ih); first
  | (simp_all [not_struct_of_direct, not_iface_of_direct, not_iface_of_struct]; done)
  | (simp_all [World.isPtr, World.isIface, World.isStruct, directKind]; done)))

theorem not_bytes {t e : Ty} (hr : W.resolve t = .slice e) (hi : W.isIface e = true) : t ≠ .slice (.uint .u8) := by
  rintro rfl
  simp only [World.resolve, Ty.slice.injEq] at hr
  subst hr
  simp [World.isIface, World.resolve] at hi

/-- The texts of the same value in two memories. -/
theorem encG_same (hn : NaNsAlike W) {P : Ty → GV → Prop} (hQ : ∀ t a, P t (.map a) → Q)
    (hM : ∀ t w w' raw, P t w → W.marOf t = true → SameIn W h h' t w w' → Marshaled W h t w raw → Marshaled W h' t w' raw)
    {ok ok' : Ty → Prop} {G G' : Stack → Nat → Bool → Prop}
    {m : Mode} {st st' : Stack} {p p' : Path} {t : Ty} {v v' : GV} {tx tx' : Bytes} (he : EncG W h ok G m st p t v tx) (he' : EncG W h' ok' G' m st' p' t v' tx')
    (hs : SameIn W h h' t v v') (hb : m = .kind → t ≠ .slice (.uint .u8)) (hq : ∀ t' u, Within W h t v t' u → P t' u) : Shuffled Q tx tx' := by
  induction he generalizing st' p' v' tx' with
  | marshaler a b =>
    cases he' with
    | marshaler _ c => rw [marshaled_det (hM _ _ _ _ (hq _ _ .refl) a hs b) c]; exact .refl
    | bytesNil => simp [World.marOf] at a
    | bytes => simp [World.marOf] at a
    | _ => kill
  | bytesNil =>
    cases he' with
    | marshaler a => simp [World.marOf] at a
    | bytesNil => exact .refl
    | bytes b =>
      cases hs with
      | bytesNil c => rw [c] at b; cases b; exact .refl
    | plain _ a => exact absurd rfl a
    | ptrIface _ a => simp [World.resolve] at a
    | _ => cases hs
  | bytes a =>
    cases he' with
    | marshaler a => simp [World.marOf] at a
    | bytes b =>
      cases hs with
      | slice c d e =>
        simp only [World.resolve, Ty.slice.injEq] at c
        subst c
        rw [bytesOf_same d e a b]; exact .refl
    | bytesNil =>
      cases hs with
      | bytesEmpty c => rw [c] at a; cases a; exact .refl
    | plain _ a => exact absurd rfl a
    | ptrIface _ a => simp [World.resolve] at a
    | _ => cases hs
  | plain a b c _ ih =>
    cases he' with
    | plain _ _ _ x => exact ih x hs (fun _ => b) hq
    | bytesNil => exact absurd rfl b
    | bytes => exact absurd rfl b
    | _ => kill
  | ptrNil a b c d =>
    cases hs with
    | ptrNil =>
      cases he' with
      | ptrNil => exact .refl
      | _ => kill
  | ptrStruct a b c _ _ ih =>
    cases hs with
    | ptr b1 hs =>
      cases b.symm.trans b1
      cases he' with
      | ptrStruct _ b' _ _ x =>
        rw [b] at b'; cases b'
        exact ih x hs (fun _ => by rintro rfl; simp [World.isStruct, World.resolve] at c) fun t' a' w => hq t' a' (.step (.ptr b) w)
      | _ => kill
  | ptrKind a b c _ ih =>
    cases hs with
    | ptr b1 hs =>
      cases b.symm.trans b1
      cases he' with
      | ptrKind _ b' _ x =>
        rw [b] at b'; cases b'
        exact ih x hs (fun _ => by rintro rfl; simp [directKind, World.resolve] at c) fun t' a' w => hq t' a' (.step (.ptr b) w)
      | _ => kill
  | ptrTyped a b c d e f _ ih =>
    cases hs with
    | ptr b1 hs =>
      cases b.symm.trans b1
      cases he' with
      | ptrTyped _ b' _ _ _ _ x =>
        rw [b] at b'; cases b'
        exact ih x hs (fun hh => by cases hh) fun t' a' w => hq t' a' (.step (.ptr b) w)
      | _ => kill
  | ptrIface a b c _ ih =>
    cases he' with
    | ptrIface _ b' _ x => exact ih x hs (fun hh => by cases hh) hq
    | bytesNil => simp [World.resolve] at b
    | bytes => simp [World.resolve] at b
    | _ => kill
  | scalar a =>
    cases he' with
    | scalar b => rw [scalarDoc_same hs a b]; exact .refl
    | iface b _ => cases a <;> kill
    | _ => cases a <;> cases hs
  | struct a b _ ih =>
    cases hs with
    | struct a1 hl hsh hv =>
      cases a.symm.trans a1
      cases he' with
      | scalar b => cases b
      | struct a' b' x =>
        rw [a] at a'; cases a'
        obtain ⟨g1, g2⟩ := written_same b b' hsh
        refine shuffled_arr g1 (fun i hi => ?_) fun i hi => ?_
        · obtain ⟨w, hw⟩ := get_of_lt hi
          obtain ⟨w', hw'⟩ := get_of_lt (g1 ▸ hi)
          simp only [hw, hw', Option.map_some, Option.getD_some, (g2 i w w' hw hw').2.1]
        · obtain ⟨w, hw⟩ := get_of_lt hi
          obtain ⟨w', hw'⟩ := get_of_lt (g1 ▸ hi)
          obtain ⟨e1, -, e3, e4, n, f, f1, f2, f3, f4, f5⟩ := g2 i w w' hw hw'
          have x' := x i w' hw'
          rw [← e3, ← e4] at x'
          exact ih i w hw x' (f4 ▸ hv n f _ _ f1 f2 f3 f5) (fun hh => by cases hh) fun t' a' ww => hq t' a' (.step (written_part a b hw) ww)
      | iface b _ => kill
  | array a b _ ih =>
    cases hs with
    | arr a1 hl hv =>
      cases a.symm.trans a1
      cases he' with
      | scalar b => cases b
      | array a' _ x =>
        rw [a] at a'; cases a'
        refine shuffled_arr hl (fun _ _ => rfl) fun i hi => ?_
        obtain ⟨w, hw⟩ := get_of_lt hi
        obtain ⟨w', hw'⟩ := get_of_lt (hl ▸ hi)
        exact ih i w hw (x i w' hw') (hv i w w' hw hw') (fun hh => by cases hh) fun t' a' ww => hq t' a' (.step (.array a (List.mem_of_getElem? hw)) ww)
      | iface b _ => kill
  | sliceNil a =>
    cases hs with
    | bytesNil => exact absurd rfl (hb rfl)
    | sliceNil =>
      cases he' with
      | scalar b => cases b
      | sliceNil => exact .refl
      | iface b _ => kill
  | slice a _ b _ ih =>
    subst b
    cases hs with
    | bytesEmpty => exact absurd rfl (hb rfl)
    | slice a1 hl hv =>
      cases a.symm.trans a1
      cases he' with
      | scalar b => cases b
      | slice a' _ b' x =>
        rw [a] at a'; cases a'; subst b'
        refine shuffled_arr hl (fun _ _ => rfl) fun i hi => ?_
        obtain ⟨w, hw⟩ := get_of_lt hi
        obtain ⟨w', hw'⟩ := get_of_lt (hl ▸ hi)
        exact ih i w hw (x i w' hw') (hv i w w' hw hw') (fun hh => by cases hh) fun t' a' ww => hq t' a' (.step (.slice a (List.mem_of_getElem? hw)) ww)
      | iface b _ => kill
  | mapNil a =>
    cases hs with
    | mapNil =>
      cases he' with
      | scalar b => cases b
      | mapNil => exact .refl
      | iface b _ => kill
  | map a _ b c _ ih =>
    subst b
    cases hs with
    | map ord a1 hp hl hk hv =>
      cases a.symm.trans a1
      cases he' with
      | scalar b => cases b
      | map a' _ b' c' x =>
        rw [a] at a'; cases a'; subst b'
        refine shuffled_map (hQ _ _ (hq _ _ .refl)) (hp _ _) (hl _ _) (hk _ _) (hv _ _) c c' fun i j u v u' v' hu hv' hs => ?_
        exact ih i u v hu (x j u' v' hv') hs (fun hh => by cases hh) fun t' a' ww => hq t' a' (.step (.map a (List.mem_of_getElem? hu)) ww)
      | iface b _ => kill
  | iface a _ ih =>
    cases he' with
    | iface _ x => exact ih x hs (fun hh => by cases hh) hq
    | scalar b => cases b <;> kill
    | _ => kill
  | heldNil a =>
    cases he' with
    | heldNil => exact .refl
    | heldScalar b => cases deref_same hs a b
    | heldConcreteSlice b => cases deref_same hs a b
    | heldSliceNil b => cases deref_same hs a b
    | heldSlice b => cases deref_same hs a b
    | heldMapNil b => cases deref_same hs a b
    | heldMap b => cases deref_same hs a b
    | heldConcreteMap b => cases deref_same hs a b
    | heldStruct b => cases deref_same hs a b
  | heldScalar a s =>
    cases he' with
    | heldNil b => cases deref_same hs a b
    | heldScalar b s' => cases deref_same hs a b with | some hs => rw [scalarDoc_same hs s s']; exact .refl
    | heldConcreteSlice b => cases deref_same hs a b with | some hs => cases s <;> first | kill | cases hs
    | heldSliceNil b => cases deref_same hs a b with | some hs => cases s <;> first | kill | cases hs
    | heldSlice b => cases deref_same hs a b with | some hs => cases s <;> first | kill | cases hs
    | heldMapNil b => cases deref_same hs a b with | some hs => cases s <;> first | kill | cases hs
    | heldMap b => cases deref_same hs a b with | some hs => cases s <;> first | kill | cases hs
    | heldConcreteMap b => cases deref_same hs a b with | some hs => cases s <;> first | kill | cases hs
    | heldStruct b => cases deref_same hs a b with | some hs => cases s <;> first | kill | cases hs
  | heldConcreteSlice a r i _ _ _ ih =>
    cases he' with
    | heldNil b => cases deref_same hs a b
    | heldScalar b s' => cases deref_same hs a b with | some hs => cases s' <;> first | kill | cases hs
    | heldConcreteSlice b _ _ _ _ x =>
      cases deref_same hs a b with
      | some hs => exact ih x hs (fun hh => by cases hh) fun t' a' w => hq t' a' (within_trans (deref_within a rfl) w)
    | heldSliceNil b r' => cases deref_same hs a b with | some hs => first | kill | cases hs | (cases hs; kill)
    | heldSlice b r' => cases deref_same hs a b with | some hs => first | kill | cases hs | (cases hs; kill)
    | heldMapNil b r' => cases deref_same hs a b with | some hs => first | kill | cases hs | (cases hs; kill)
    | heldMap b r' => cases deref_same hs a b with | some hs => first | kill | cases hs | (cases hs; kill)
    | heldConcreteMap b r' => cases deref_same hs a b with | some hs => first | kill | cases hs | (cases hs; kill)
    | heldStruct b r' => cases deref_same hs a b with | some hs => first | kill | cases hs | (cases hs; kill)
  | heldSliceNil a r i =>
    cases he' with
    | heldNil b => cases deref_same hs a b
    | heldScalar b s' => cases deref_same hs a b with | some hs => cases s' <;> first | kill | cases hs
    | heldConcreteSlice b r' => cases deref_same hs a b with | some hs => first | kill | cases hs | (cases hs; kill)
    | heldSliceNil b => exact .refl
    | heldSlice b r' => cases deref_same hs a b with | some hs => cases hs; exact absurd rfl (not_bytes r i)
    | heldMapNil b r' => cases deref_same hs a b with | some hs => first | kill | cases hs | (cases hs; kill)
    | heldMap b r' => cases deref_same hs a b with | some hs => first | kill | cases hs | (cases hs; kill)
    | heldConcreteMap b r' => cases deref_same hs a b with | some hs => first | kill | cases hs | (cases hs; kill)
    | heldStruct b r' => cases deref_same hs a b with | some hs => first | kill | cases hs | (cases hs; kill)
  | heldSlice a r i _ c _ ih =>
    subst c
    cases he' with
    | heldNil b => cases deref_same hs a b
    | heldScalar b s' => cases deref_same hs a b with | some hs => cases s' <;> first | kill | cases hs
    | heldConcreteSlice b r' => cases deref_same hs a b with | some hs => first | kill | cases hs | (cases hs; kill)
    | heldSliceNil b r' =>
      cases deref_same hs a b with
      | some hs => cases hs with | bytesEmpty => exact absurd rfl (not_bytes r' (by assumption))
    | heldSlice b r' _ _ c' x =>
      cases deref_same hs a b with
      | some hs =>
        cases hs with
        | slice a1 hl hv =>
          cases r.symm.trans a1
          rw [r] at r'; cases r'; subst c'
          refine shuffled_arr hl (fun _ _ => rfl) fun i hi => ?_
          obtain ⟨w, hw⟩ := get_of_lt hi
          obtain ⟨w', hw'⟩ := get_of_lt (hl ▸ hi)
          exact ih i w hw (x i w' hw') (hv i w w' hw hw') (fun hh => by cases hh) fun t' a' ww =>
            hq t' a' (within_trans (deref_within a rfl) (.step (.slice r (List.mem_of_getElem? hw)) ww))
    | heldMapNil b r' => cases deref_same hs a b with | some hs => first | kill | cases hs | (cases hs; kill)
    | heldMap b r' => cases deref_same hs a b with | some hs => first | kill | cases hs | (cases hs; kill)
    | heldConcreteMap b r' => cases deref_same hs a b with | some hs => first | kill | cases hs | (cases hs; kill)
    | heldStruct b r' => cases deref_same hs a b with | some hs => first | kill | cases hs | (cases hs; kill)
  | heldMapNil a r i =>
    cases he' with
    | heldNil b => cases deref_same hs a b
    | heldScalar b s' => cases deref_same hs a b with | some hs => cases s' <;> first | kill | cases hs
    | heldConcreteSlice b r' => cases deref_same hs a b with | some hs => first | kill | cases hs | (cases hs; kill)
    | heldSliceNil b r' => cases deref_same hs a b with | some hs => first | kill | cases hs | (cases hs; kill)
    | heldSlice b r' => cases deref_same hs a b with | some hs => first | kill | cases hs | (cases hs; kill)
    | heldMapNil b => exact .refl
    | heldMap b r' => cases deref_same hs a b with | some hs => first | kill | cases hs | (cases hs; kill)
    | heldConcreteMap b r' => cases deref_same hs a b with | some hs => first | kill | cases hs | (cases hs; kill)
    | heldStruct b r' => cases deref_same hs a b with | some hs => first | kill | cases hs | (cases hs; kill)
  | heldMap a r k i _ b c _ ih =>
    subst b
    cases he' with
    | heldNil b => cases deref_same hs a b
    | heldScalar b s' => cases deref_same hs a b with | some hs => cases s' <;> first | kill | cases hs
    | heldConcreteSlice b r' => cases deref_same hs a b with | some hs => first | kill | cases hs | (cases hs; kill)
    | heldSliceNil b r' => cases deref_same hs a b with | some hs => first | kill | cases hs | (cases hs; kill)
    | heldSlice b r' => cases deref_same hs a b with | some hs => first | kill | cases hs | (cases hs; kill)
    | heldMapNil b r' => cases deref_same hs a b with | some hs => first | kill | cases hs | (cases hs; kill)
    | heldMap b r' _ _ _ b' c' x =>
      cases deref_same hs a b with
      | some hs =>
        cases hs with
        | map ord a1 hp hl hk hv =>
          cases r.symm.trans a1
          rw [r] at r'; cases r'; subst b'
          refine shuffled_map (hQ _ _ (hq _ _ (deref_within a rfl))) (hp _ _) (hl _ _) (hk _ _) (hv _ _) c c' fun i j u v u' v' hu hv' hs => ?_
          exact ih i u v hu (x j u' v' hv') hs (fun hh => by cases hh) fun t' a' ww =>
            hq t' a' (within_trans (deref_within a rfl) (.step (.map r (List.mem_of_getElem? hu)) ww))
    | heldConcreteMap b r' => cases deref_same hs a b with | some hs => first | kill | cases hs | (cases hs; kill)
    | heldStruct b r' => cases deref_same hs a b with | some hs => first | kill | cases hs | (cases hs; kill)
  | heldConcreteMap a r k i _ b _ c _ ih =>
    subst b
    cases he' with
    | heldNil b => cases deref_same hs a b
    | heldScalar b s' => cases deref_same hs a b with | some hs => cases s' <;> first | kill | cases hs
    | heldConcreteSlice b r' => cases deref_same hs a b with | some hs => first | kill | cases hs | (cases hs; kill)
    | heldSliceNil b r' => cases deref_same hs a b with | some hs => first | kill | cases hs | (cases hs; kill)
    | heldSlice b r' => cases deref_same hs a b with | some hs => first | kill | cases hs | (cases hs; kill)
    | heldMapNil b r' => cases deref_same hs a b with | some hs => first | kill | cases hs | (cases hs; kill)
    | heldMap b r' => cases deref_same hs a b with | some hs => first | kill | cases hs | (cases hs; kill)
    | heldConcreteMap b r' _ _ _ b' _ c' x =>
      cases deref_same hs a b with
      | some hs =>
        cases hs with
        | map ord a1 hp hl hk hv =>
          cases r.symm.trans a1
          rw [r] at r'; cases r'; subst b'
          refine shuffled_map (hQ _ _ (hq _ _ (deref_within a rfl))) (hp _ _) (hl _ _) (hk _ _) (hv _ _) c c' fun i j u v u' v' hu hv' hs => ?_
          exact ih i u v hu (x j u' v' hv') hs (fun hh => by cases hh) fun t' a' ww =>
            hq t' a' (within_trans (deref_within a rfl) (.step (.map r (List.mem_of_getElem? hu)) ww))
    | heldStruct b r' => cases deref_same hs a b with | some hs => first | kill | cases hs | (cases hs; kill)
  | heldStruct a r _ _ ih =>
    cases he' with
    | heldNil b => cases deref_same hs a b
    | heldScalar b s' => cases deref_same hs a b with | some hs => cases s' <;> first | kill | cases hs
    | heldConcreteSlice b r' => cases deref_same hs a b with | some hs => first | kill | cases hs | (cases hs; kill)
    | heldSliceNil b r' => cases deref_same hs a b with | some hs => first | kill | cases hs | (cases hs; kill)
    | heldSlice b r' => cases deref_same hs a b with | some hs => first | kill | cases hs | (cases hs; kill)
    | heldMapNil b r' => cases deref_same hs a b with | some hs => first | kill | cases hs | (cases hs; kill)
    | heldMap b r' => cases deref_same hs a b with | some hs => first | kill | cases hs | (cases hs; kill)
    | heldConcreteMap b r' => cases deref_same hs a b with | some hs => first | kill | cases hs | (cases hs; kill)
    | heldStruct b _ _ x =>
      cases deref_same hs a b with
      | some hs => exact ih x hs (fun hh => by cases hh) fun t' a' w => hq t' a' (within_trans (deref_within a rfl) w)
  | fieldPlain a _ ih =>
    cases he' with
    | fieldPlain _ x => exact ih x hs (fun hh => by cases hh) hq
    | _ => kill
  | fieldPtrNil a =>
    cases hs with
    | ptrNil =>
      cases he' with
      | fieldPtrNil => exact .refl
      | _ => kill
  | fieldPtrStruct a b _ _ ih =>
    cases hs with
    | ptr b1 hs =>
      cases a.symm.trans b1
      cases he' with
      | fieldPtrStruct a' _ _ x => rw [a] at a'; cases a'; exact ih x hs (fun hh => by cases hh) fun t' a' w => hq t' a' (.step (.ptr a) w)
      | _ => kill
  | fieldPtr a b _ ih =>
    cases hs with
    | ptr b1 hs =>
      cases a.symm.trans b1
      cases he' with
      | fieldPtr a' _ x => rw [a] at a'; cases a'; exact ih x hs (fun hh => by cases hh) fun t' a' w => hq t' a' (.step (.ptr a) w)
      | _ => kill
  | fieldStr a b =>
    cases he' with
    | fieldStr _ c => rw [strField_same hn hs b c]; exact .refl
    | _ => kill
  | fieldStrPtr a b =>
    cases hs with
    | ptr b1 hs =>
      cases a.symm.trans b1
      cases he' with
      | fieldStrPtr a' c => rw [a] at a'; cases a'; rw [strField_same hn hs b c]; exact .refl
      | _ => kill

/-- Texts that may not be reordered are equal. -/
theorem shuffled_eq {s s' : Bytes} (hs : Shuffled Q s s') (hq : ¬ Q) : s = s' := by
  induction hs with
  | refl => rfl
  | perm q => exact absurd q hq
  | @entries es es' hl hk _ ih =>
    have : es = es' := by
      apply List.ext_getElem? fun i => ?_
      by_cases hi : i < es.length
      · obtain ⟨x, hx⟩ := get_of_lt hi
        obtain ⟨y, hy⟩ := get_of_lt (hl ▸ hi)
        rw [hx, hy, Prod.ext (hk i x y hx hy) (ih i x y hx hy)]
      · rw [List.getElem?_eq_none (by omega), List.getElem?_eq_none (by omega)]
    rw [this]

/-- Reordering does not change the length. -/
theorem shuffled_length {s s' : Bytes} (hs : Shuffled Q s s') : s.length = s'.length := by
  have body : ∀ {es es' : List (Doc × Bytes)}, es.length = es'.length →
      (es.flatMap fun e => e.1.text ++ e.2).length = (es'.flatMap fun e => e.1.text ++ e.2).length → (listText es).length = (listText es').length := by
    intro es es' h1 h2
    simp only [listText, List.length_append, h1, h2]
  induction hs with
  | refl => rfl
  | perm _ hp _ ih => rw [← ih]; exact body hp.length_eq (hp.flatMap_right _).length_eq
  | @entries es es' hl hk ht ih =>
    refine body hl ?_
    clear body ht
    induction es generalizing es' with
    | nil => cases es' with
      | nil => rfl
      | cons => simp at hl
    | cons e es ih' => cases es' with
      | nil => simp at hl
      | cons e' es' =>
        simp only [List.flatMap_cons, List.length_append]
        rw [hk 0 e e' rfl rfl, ih 0 e e' rfl rfl, ih' (by simpa using hl) (fun i x y hx hy => hk (i + 1) x y (by simpa using hx) (by simpa using hy))
          fun i x y hx hy => ih (i + 1) x y (by simpa using hx) (by simpa using hy)]

end Verif

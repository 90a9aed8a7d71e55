import Verif.Spec.MemTy
import Verif.Proofs.MemSim
import Verif.Proofs.DecSafe
/-
Decoding into a well-typed memory leaves a well-typed memory, whatever is shared.
-/
set_option linter.unusedSimpArgs false
namespace Verif
open Spec

section Typing
variable {W : World} {D : Ty → Prop} {S S' : List ObjTy}

theorem hvTy_resolve {t t' : Ty} {h : HV} (he : W.resolve t = W.resolve t') (ht : HvTy W D S t h) : HvTy W D S t' h := by
  cases ht with
  | bool h => exact .bool (he ▸ h)
  | int h h2 => exact .int (he ▸ h) h2
  | uint h h2 => exact .uint (he ▸ h) h2
  | f32 h => exact .f32 (he ▸ h)
  | f64 h => exact .f64 (he ▸ h)
  | str h => exact .str (he ▸ h)
  | sliceNil h => exact .sliceNil (he ▸ h)
  | slice h h2 => exact .slice (he ▸ h) h2
  | arr h h2 h3 => exact .arr (he ▸ h) h2 h3
  | mapNil h => exact .mapNil (he ▸ h)
  | map h h2 => exact .map (he ▸ h) h2
  | ptrNil h => exact .ptrNil (he ▸ h)
  | ptr h h2 => exact .ptr (he ▸ h) h2
  | struct h h2 h3 => exact .struct (he ▸ h) h2 h3
  | anyNil h => exact .anyNil (he ▸ h)
  | any h h2 h3 => exact .any (he ▸ h) h2 h3
  | ifaceNil h => exact .ifaceNil (he ▸ h)
  | iface h h2 => exact .iface (he ▸ h) h2
  | other h => exact .other (he ▸ h)

theorem prefix_get {α : Type} {l l' : List α} (h : l <+: l') {i : Nat} {a : α} (hi : l[i]? = some a) : l'[i]? = some a := by
  obtain ⟨r, rfl⟩ := h
  rw [List.getElem?_append_left (List.getElem?_eq_some_iff.1 hi).1]
  exact hi

theorem placeTy_mono (h : S <+: S') {l : Loc} {t : Ty} (hp : PlaceTy W S l t) : PlaceTy W S' l t := by
  obtain ⟨t0, h1, h2⟩ := hp
  exact ⟨t0, prefix_get h h1, h2⟩

theorem hvTy_mono (hs : S <+: S') {t : Ty} {h : HV} (ht : HvTy W D S t h) : HvTy W D S' t h := by
  induction ht with
  | bool h => exact .bool h
  | int h h2 => exact .int h h2
  | uint h h2 => exact .uint h h2
  | f32 h => exact .f32 h
  | f64 h => exact .f64 h
  | str h => exact .str h
  | sliceNil h => exact .sliceNil h
  | slice h h2 => exact .slice h fun i hi => placeTy_mono hs (h2 i hi)
  | arr h h2 _ ih => exact .arr h h2 ih
  | mapNil h => exact .mapNil h
  | map h h2 => exact .map h (prefix_get hs h2)
  | ptrNil h => exact .ptrNil h
  | ptr h h2 => exact .ptr h (placeTy_mono hs h2)
  | struct h h2 _ ih => exact .struct h h2 ih
  | anyNil h => exact .anyNil h
  | any h h2 _ ih => exact .any h h2 ih
  | ifaceNil h => exact .ifaceNil h
  | iface h _ ih => exact .iface h ih
  | other h => exact .other h

theorem cellTy_mono (hs : S <+: S') {o : ObjTy} {c : Cell} (h : CellTy W D S o c) : CellTy W D S' o c := by
  cases h with
  | var h => exact .var (hvTy_mono hs h)
  | map h => exact .map fun a b hab => ⟨hvTy_mono hs (h a b hab).1, hvTy_mono hs (h a b hab).2⟩

theorem flatList_map : ∀ {vs : List Val}, flatList vs = vs.map flat
  | [] => rfl
  | v :: vs => by rw [flatList, List.map_cons, flatList_map]

/-- Values without references, such as zero values and scalars, are valid in memory. -/
theorem hvTy_flat {t : Ty} {v : Val} (h : HasTy W D t v) : HvTy W D S t (flat v) := by
  induction h with
  | bool h => exact .bool h
  | int h h2 => exact .int h h2
  | uint h h2 => exact .uint h h2
  | f32 h => exact .f32 h
  | f64 h => exact .f64 h
  | str h => exact .str h
  | sliceNil h => exact .sliceNil h
  | slice h _ => exact .sliceNil h
  | arr h h2 _ ih =>
    refine .arr h (by rw [flatList_map, List.length_map]; exact h2) fun x hx => ?_
    rw [flatList_map] at hx
    obtain ⟨v, hv, rfl⟩ := List.mem_map.1 hx
    exact ih v hv
  | mapNil h => exact .mapNil h
  | map h _ _ => exact .mapNil h
  | ptrNil h => exact .ptrNil h
  | ptr h _ => exact .ptrNil h
  | struct h h2 _ ih =>
    refine .struct h (by rw [flatList_map, List.length_map]; exact h2) fun i f x hf hx => ?_
    rw [flatList_map, List.getElem?_map] at hx
    obtain ⟨v, hv, rfl⟩ := Option.map_eq_some_iff.1 hx
    exact ih i f v hf hv
  | anyNil h => exact .anyNil h
  | any h _ _ => exact .anyNil h
  | ifaceNil h => exact .ifaceNil h
  | iface h _ => exact .ifaceNil h
  | other h => exact .other h

theorem part_read {t0 t : Ty} {p : List Nat} (hp : PartTy W t0 p t) {x : HV} (hx : HvTy W D S t0 x) : ∃ h, x.at p = some h ∧ HvTy W D S t h := by
  induction hp generalizing x with
  | here h => exact ⟨x, HV.at_nil, hvTy_resolve h hx⟩
  | @elem t0 n e i p t h1 h2 _ ih =>
    cases hx with
    | arr h hl he =>
      rename_i es
      rw [h1] at h
      cases h
      have hi : es[i]? = some es[i] := List.getElem?_eq_getElem (by omega)
      obtain ⟨y, h3, h4⟩ := ih (he es[i] (List.getElem_mem _))
      exact ⟨y, by simp only [HV.at, hi, h3], h4⟩
    | _ => simp_all
  | @field t0 id f i p t h1 h2 _ ih =>
    cases hx with
    | struct h hl he =>
      rename_i es
      rw [h1] at h
      cases h
      have hlt : i < es.length := by have := (List.getElem?_eq_some_iff.1 h2).1; omega
      have hi : es[i]? = some es[i] := List.getElem?_eq_getElem hlt
      obtain ⟨y, h3, h4⟩ := ih (he i f _ h2 hi)
      exact ⟨y, by simp only [HV.at, hi, h3], h4⟩
    | _ => simp_all

theorem part_write {t0 t : Ty} {p : List Nat} (hp : PartTy W t0 p t) {x y : HV} (hx : HvTy W D S t0 x) (hy : HvTy W D S t y) :
    HvTy W D S t0 (x.put p y) := by
  induction hp generalizing x with
  | here h => rw [HV.put_nil]; exact hvTy_resolve h.symm hy
  | @elem t0 n e i p t h1 h2 _ ih =>
    cases hx with
    | arr h hl he =>
      rename_i es
      rw [h1] at h
      cases h
      have hi : es[i]? = some es[i] := List.getElem?_eq_getElem (by omega)
      simp only [HV.put, hi]
      refine .arr h1 (by rw [List.length_set]; exact hl) fun z hz => ?_
      rcases List.mem_or_eq_of_mem_set hz with hz | rfl
      · exact he z hz
      · exact ih (he _ (List.getElem_mem _)) hy
    | _ => simp_all
  | @field t0 id f i p t h1 h2 _ ih =>
    cases hx with
    | struct h hl he =>
      rename_i es
      rw [h1] at h
      cases h
      have hlt : i < es.length := by have := (List.getElem?_eq_some_iff.1 h2).1; omega
      have hi : es[i]? = some es[i] := List.getElem?_eq_getElem hlt
      simp only [HV.put, hi]
      refine .struct h1 (by rw [List.length_set]; exact hl) fun j g z hg hz => ?_
      by_cases hj : i = j
      · subst hj
        rw [List.getElem?_set_self hlt] at hz
        cases hz
        rw [h2] at hg
        cases hg
        exact ih (he i f _ h2 hi) hy
      · rw [List.getElem?_set_ne hj] at hz
        exact he j g z hg hz
    | _ => simp_all

theorem part_elem {t0 t e : Ty} {p : List Nat} {n i : Nat} (hp : PartTy W t0 p t) (ht : W.resolve t = .array n e) (hi : i < n) :
    PartTy W t0 (p ++ [i]) e := by
  induction hp with
  | here h => exact .elem (h.trans ht) hi (.here rfl)
  | elem h1 h2 _ ih => exact .elem h1 h2 (ih ht)
  | field h1 h2 _ ih => exact .field h1 h2 (ih ht)

theorem part_field {t0 t : Ty} {p : List Nat} {id i : Nat} {f : Field} (hp : PartTy W t0 p t) (ht : W.resolve t = .struct id)
    (hi : (W.fields id)[i]? = some f) : PartTy W t0 (p ++ [i]) f.ty := by
  induction hp with
  | here h => exact .field (h.trans ht) hi (.here rfl)
  | elem h1 h2 _ ih => exact .elem h1 h2 (ih ht)
  | field h1 h2 _ ih => exact .field h1 h2 (ih ht)

theorem part_congr {t0 t t' : Ty} {p : List Nat} (hp : PartTy W t0 p t) (he : W.resolve t = W.resolve t') : PartTy W t0 p t' := by
  induction hp with
  | here h => exact .here (h.trans he)
  | elem h1 h2 _ ih => exact .elem h1 h2 (ih he)
  | field h1 h2 _ ih => exact .field h1 h2 (ih he)

theorem place_elem {l : Loc} {t e : Ty} {n i : Nat} (hp : PlaceTy W S l t) (ht : W.resolve t = .array n e) (hi : i < n) : PlaceTy W S (l.sub i) e := by
  obtain ⟨t0, h1, h2⟩ := hp
  exact ⟨t0, h1, part_elem h2 ht hi⟩

theorem place_field {l : Loc} {t : Ty} {id i : Nat} {f : Field} (hp : PlaceTy W S l t) (ht : W.resolve t = .struct id)
    (hi : (W.fields id)[i]? = some f) : PlaceTy W S (l.sub i) f.ty := by
  obtain ⟨t0, h1, h2⟩ := hp
  exact ⟨t0, h1, part_field h2 ht hi⟩

theorem place_congr {l : Loc} {t t' : Ty} (hp : PlaceTy W S l t) (he : W.resolve t = W.resolve t') : PlaceTy W S l t' := by
  obtain ⟨t0, h1, h2⟩ := hp
  exact ⟨t0, h1, part_congr h2 he⟩

end Typing

/-! ### Well-typed memories -/

/-- A well-typed memory in which object `inp` is an array of `n` bytes. -/
structure TOk (W : World) (D : Ty → Prop) (inp n : Nat) (S : List ObjTy) (m : Mem) : Prop where
  mem : MemTy W D S m
  inp : S[inp]? = some (.var (.array n (.uint .u8)))

/-- Such a memory, with more objects than `S`. -/
def TExt (W : World) (D : Ty → Prop) (inp n : Nat) (S : List ObjTy) (m : Mem) : Prop := ∃ S', S <+: S' ∧ TOk W D inp n S' m

/-- A decoder for places of type `t` keeps memories well-typed. -/
def StaysTyped (W : World) (D : Ty → Prop) (inp n : Nat) (t : Ty) (d : Loc → Mem → DM) : Prop :=
  ∀ S l m, TOk W D inp n S m → PlaceTy W S l t → TExt W D inp n S (d l m).1

section Steps
variable {W : World} {D : Ty → Prop} {inp n : Nat} {S : List ObjTy} {m m1 m2 : Mem} {l : Loc} {t : Ty}

theorem TOk.ext (h : TOk W D inp n S m) : TExt W D inp n S m := ⟨S, List.prefix_refl _, h⟩

theorem TExt.trans (h1 : TExt W D inp n S m1) (h2 : ∀ S', S <+: S' → TOk W D inp n S' m1 → TExt W D inp n S' m2) : TExt W D inp n S m2 := by
  obtain ⟨S', hs, h⟩ := h1
  obtain ⟨S2, hs2, h'⟩ := h2 S' hs h
  exact ⟨S2, hs.trans hs2, h'⟩

theorem text_mono {S' : List ObjTy} (hs : S <+: S') (h : TExt W D inp n S' m) : TExt W D inp n S m := by
  obtain ⟨S2, hs2, h⟩ := h
  exact ⟨S2, hs.trans hs2, h⟩

theorem TOk.read (h : TOk W D inp n S m) (hp : PlaceTy W S l t) : ∃ x, m.read l = some x ∧ HvTy W D S t x := by
  obtain ⟨t0, h1, h2⟩ := hp
  have hl : l.obj < m.length := by rw [← h.mem.length]; exact (List.getElem?_eq_some_iff.1 h1).1
  have hc := h.mem.cells _ _ _ h1 (List.getElem?_eq_getElem hl)
  generalize hx : m[l.obj] = c at hc
  cases hc with
  | var hc =>
    obtain ⟨y, h3, h4⟩ := part_read h2 hc
    exact ⟨y, read_eq_some.2 ⟨_, by rw [List.getElem?_eq_getElem hl, hx], h3⟩, h4⟩

theorem TOk.write (h : TOk W D inp n S m) (hp : PlaceTy W S l t) {x : HV} (hx : HvTy W D S t x) : TOk W D inp n S (m.write l x) := by
  refine ⟨⟨by rw [write_length]; exact h.mem.length, ?_⟩, h.inp⟩
  intro a o c ho hc
  by_cases he : a = l.obj
  · subst he
    obtain ⟨t0, h1, h2⟩ := hp
    rw [h1] at ho
    cases ho
    have hl : l.obj < m.length := by rw [← h.mem.length]; exact (List.getElem?_eq_some_iff.1 h1).1
    have hc0 := h.mem.cells _ _ _ h1 (List.getElem?_eq_getElem hl)
    generalize hy : m[l.obj] = c0 at hc0
    cases hc0 with
    | var hc0 =>
      rw [write_at (by rw [List.getElem?_eq_getElem hl, hy])] at hc
      cases hc
      exact .var (part_write h2 hc0 hx)
  · rw [write_other he] at hc
    exact h.mem.cells a o c ho hc

theorem TOk.new (h : TOk W D inp n S m) {o : ObjTy} {c : Cell} (hc : CellTy W D (S ++ [o]) o c) : TOk W D inp n (S ++ [o]) (m.new c) := by
  have hpre : S <+: S ++ [o] := List.prefix_append _ _
  refine ⟨⟨by rw [new_length, List.length_append, h.mem.length]; rfl, ?_⟩, prefix_get hpre h.inp⟩
  intro a o' c' ho' hc'
  by_cases ha : a < m.length
  · rw [new_old ha] at hc'
    rw [List.getElem?_append_left (by rw [h.mem.length]; exact ha)] at ho'
    exact cellTy_mono hpre (h.mem.cells a o' c' ho' hc')
  · have h1 := cell_lt hc'
    rw [new_length] at h1
    have : a = m.length := by omega
    subst this
    rw [new_new] at hc'
    cases hc'
    rw [← h.mem.length, List.getElem?_append_right (Nat.le_refl _), Nat.sub_self] at ho'
    cases ho'
    exact hc

/-- A new variable. -/
theorem TOk.newVar (h : TOk W D inp n S m) {z : HV} (hz : HvTy W D S t z) :
    TOk W D inp n (S ++ [.var t]) (m.new (.var z)) ∧ PlaceTy W (S ++ [.var t]) ⟨m.length, []⟩ t ∧ S <+: S ++ [.var t] := by
  have hpre : S <+: S ++ [.var t] := List.prefix_append _ _
  refine ⟨h.new (.var (hvTy_mono hpre hz)), ⟨t, ?_, .here rfl⟩, hpre⟩
  show (S ++ [ObjTy.var t])[m.length]? = _
  rw [← h.mem.length, List.getElem?_append_right (Nat.le_refl _), Nat.sub_self]
  rfl

theorem TOk.setMap (h : TOk W D inp n S m) {o : Nat} {k v : Ty} (ho : S[o]? = some (.map k v)) {es : List (HV × HV)}
    (he : ∀ a b, (a, b) ∈ es → HvTy W D S k a ∧ HvTy W D S v b) : TOk W D inp n S (m.set o (.map es)) := by
  refine ⟨⟨by rw [List.length_set]; exact h.mem.length, ?_⟩, h.inp⟩
  intro a o' c hs hc
  by_cases ha : o = a
  · subst ha
    have := cell_lt hc
    rw [List.length_set] at this
    rw [List.getElem?_set_self this] at hc
    cases hc
    rw [ho] at hs
    cases hs
    exact .map he
  · rw [List.getElem?_set_ne ha] at hc
    exact h.mem.cells a o' c hs hc

theorem TOk.entries (h : TOk W D inp n S m) {o : Nat} {k v : Ty} (ho : S[o]? = some (.map k v)) :
    ∃ es, m[o]? = some (.map es) ∧ ∀ a b, (a, b) ∈ es → HvTy W D S k a ∧ HvTy W D S v b := by
  have hl : o < m.length := by rw [← h.mem.length]; exact (List.getElem?_eq_some_iff.1 ho).1
  have hc := h.mem.cells _ _ _ ho (List.getElem?_eq_getElem hl)
  generalize hx : m[o] = c at hc
  cases hc with
  | map hc => exact ⟨_, by rw [List.getElem?_eq_getElem hl, hx], hc⟩

theorem mem_hvInsert {k v a b : HV} : ∀ {es : List (HV × HV)}, (a, b) ∈ hvInsert k v es → (a, b) ∈ es ∨ (a = k ∧ b = v)
  | [], h => by
    simp only [hvInsert, List.mem_singleton, Prod.mk.injEq] at h
    exact .inr h
  | (k', v') :: es, h => by
    simp only [hvInsert] at h
    split at h
    · rcases List.mem_cons.1 h with h | h
      · simp only [Prod.mk.injEq] at h
        exact .inr h
      · exact .inl (List.mem_cons_of_mem _ h)
    · rcases List.mem_cons.1 h with h | h
      · exact .inl (h ▸ List.mem_cons_self)
      · rcases mem_hvInsert h with h | h
        · exact .inl (List.mem_cons_of_mem _ h)
        · exact .inr h

theorem text_onOk {α β : Type} {r : Res α} {k : α → Mem × Res β} (h1 : TExt W D inp n S m) (hk : ∀ a, r = .ok a → TExt W D inp n S (k a).1) :
    TExt W D inp n S (onOkM m r k).1 := by
  cases r with
  | ok a => exact hk a rfl
  | _ => exact h1

theorem text_ite {β : Type} {c : Prop} [Decidable c] {x y : Mem × Res β} (hx : c → TExt W D inp n S x.1) (hy : ¬ c → TExt W D inp n S y.1) :
    TExt W D inp n S (if c then x else y).1 := by
  split
  · exact hx ‹_›
  · exact hy ‹_›

/-- A decoder on a new variable. -/
theorem StaysTyped.fresh {d : Loc → Mem → DM} (hd : StaysTyped W D inp n t d) (h : TOk W D inp n S m) {z : HV} (hz : HvTy W D S t z) :
    ∃ S', S <+: S' ∧ TOk W D inp n S' (d ⟨m.length, []⟩ (m.new (.var z))).1 ∧ PlaceTy W S' ⟨m.length, []⟩ t := by
  obtain ⟨h1, h2, h3⟩ := h.newVar hz
  obtain ⟨S', h4, h5⟩ := hd _ _ _ h1 h2
  exact ⟨S', h3.trans h4, h5, placeTy_mono h4 h2⟩

end Steps

/-! ### Decoders -/

section Decoders
variable {W : World} {D : Ty → Prop} {inp n : Nat} {b : Bytes} {t e : Ty}

theorem scalarAt_keeps {dec : Val → DR} (hs : Scal dec) {rv : Val} (hg : HasTy W D t (dec rv).1) : StaysTyped W D inp n t (scalarAt dec) := by
  intro S l m h hp
  unfold scalarAt
  obtain ⟨r, hs | ⟨s, -, ho, hs⟩⟩ := hs
  · rw [hs .other]
    exact h.ext
  · rw [hs .other]
    rw [hs rv] at hg
    dsimp only at hg ⊢
    cases s <;> first | exact absurd rfl ho | exact (h.write hp (hvTy_flat hg)).ext

theorem ptrAt_keeps (ht : W.resolve t = .ptr e) {inner : Nat → Nat → Loc → Mem → DM} {c depth : Nat} (hi : StaysTyped W D inp n e (inner c depth)) {z : Val}
    (hz : HasTy W D e z) : StaysTyped W D inp n t (ptrAt inner (flat z) b c depth) := by
  intro S l m h hp
  unfold ptrAt
  refine text_onOk h.ext fun _ _ => text_ite (fun _ => text_onOk h.ext fun _ _ => (h.write hp (.ptrNil ht)).ext) fun _ => ?_
  obtain ⟨x, hx, hxt⟩ := h.read hp
  rw [hx]
  split
  · obtain ⟨h1, h2, h3⟩ := h.newVar (t := e) (hvTy_flat hz)
    have h4 := h1.write (placeTy_mono h3 hp) (x := .ptr m.length []) (.ptr ht h2)
    exact text_mono h3 (hi _ _ _ h4 h2)
  · rename_i o p heq
    cases heq
    cases hxt with
    | ptr h1 h2 =>
      rw [ht] at h1
      cases h1
      exact hi _ _ _ h h2
  · exact h.ext

theorem sliceLoopAt_keeps (ht : W.resolve t = .slice e) {dec : Nat → Loc → Mem → DM} (hd : ∀ c, StaysTyped W D inp n e (dec c)) {z : Val}
    (hz : HasTy W D e z) {es f c o k : Nat} {S : List ObjTy} {l : Loc} {m : Mem} (h : TOk W D inp n S m) (hp : PlaceTy W S l t)
    (ho : S[o]? = some (.var (.array k e))) : TExt W D inp n S (sliceLoopAt dec (flat z) es b f c o l m).1 := by
  induction f generalizing c o k m S with
  | zero => exact h.ext
  | succ f ih =>
    unfold sliceLoopAt
    refine text_ite (fun _ => h.ext) fun _ => text_onOk h.ext ?_
    rintro ⟨i, c1⟩ -
    refine text_ite (fun _ => h.ext) fun _ => ?_
    obtain ⟨x, hx, hxt⟩ := h.read (l := ⟨o, []⟩) (t := .array k e) ⟨_, ho, .here rfl⟩
    rw [hx]
    split
    · rename_i hs heq
      cases heq
      refine text_ite (fun _ => h.ext) fun _ => ?_
      dsimp only
      -- the rest, for any array of the right size
      have fin : ∀ (S1 : List ObjTy) (m1 : Mem) (o' k' : Nat), S <+: S1 → TOk W D inp n S1 m1 → S1[o']? = some (.var (.array k' e)) → i < k' →
          TExt W D inp n S (match dec c1 ⟨o', [i]⟩ m1 with
            | (m, r) => onOkM m r fun c =>
              if !hasByte b c then (m.write l (.slice o' 0 k'), .err (.unexpectedEnd "array" c)) else
              onOkM (m.write l (.slice o' 0 k')) (idx b c) fun b' =>
              if b' = cRBrace then (m.write l (.slice o' 0 k'), .ok (c + 1)) else
              sliceLoopAt dec (flat z) es b f c o' l (m.write l (.slice o' 0 k'))).1 := by
        intro S1 m1 o' k' hpre h1 ho' hik
        obtain ⟨S2, hs2, h2⟩ := hd c1 S1 ⟨o', [i]⟩ m1 h1 ⟨_, ho', .elem rfl hik (.here rfl)⟩
        revert h2
        generalize dec c1 ⟨o', [i]⟩ m1 = y
        obtain ⟨m2, r⟩ := y
        intro h2
        have hs := hpre.trans hs2
        refine text_mono hs ?_
        have h3 : TOk W D inp n S2 (m2.write l (.slice o' 0 k')) := by
          refine h2.write (placeTy_mono hs hp) (.slice ht fun j hj => ⟨_, prefix_get hs2 ho', .elem rfl (by omega) (.here rfl)⟩)
        refine text_onOk h2.ext fun c2 _ => text_ite (fun _ => h3.ext) fun _ => text_onOk h3.ext fun _ _ => text_ite (fun _ => h3.ext) fun _ => ?_
        exact ih h3 (placeTy_mono hs hp) (prefix_get hs2 ho')
      cases hxt with
      | arr h1 h2 h3 =>
        cases h1
        by_cases hg : i ≥ hs.length
        · simp only [hg, decide_true, if_true]
          have h4 : TOk W D inp n (S ++ [.var (.array (i + 1) e)]) (m.new (.var (.arr (hs ++ List.replicate (i + 1 - hs.length) (flat z))))) := by
            refine h.new (.var (.arr rfl (by rw [List.length_append, List.length_replicate]; omega) fun y hy => ?_))
            rcases List.mem_append.1 hy with hy | hy
            · exact hvTy_mono (List.prefix_append _ _) (h3 y hy)
            · rw [(List.mem_replicate.1 hy).2]
              exact hvTy_flat hz
          refine fin _ _ _ _ (List.prefix_append _ _) h4 ?_ (by omega)
          rw [← h.mem.length, List.getElem?_append_right (Nat.le_refl _), Nat.sub_self]
          rfl
        · simp only [hg, decide_false, Bool.false_eq_true, if_false]
          exact fin S m o hs.length (List.prefix_refl _) h (h2 ▸ ho) (by omega)
    · exact h.ext

theorem sliceAt_keeps (ht : W.resolve t = .slice e) {dec : Nat → Nat → Loc → Mem → DM} (hd : ∀ c d, StaysTyped W D inp n e (dec c d)) {z : Val}
    (hz : HasTy W D e z) {es c depth : Nat} : StaysTyped W D inp n t (sliceAt dec (flat z) es b c depth) := by
  intro S l m h hp
  unfold sliceAt
  have hnil : TExt W D inp n S (m.write l .sliceNil) := (h.write hp (.sliceNil ht)).ext
  refine text_ite (fun _ => h.ext) fun _ => text_ite (fun _ => h.ext) fun _ => text_onOk h.ext fun _ _ => ?_
  refine text_ite (fun _ => text_onOk h.ext fun _ _ => hnil) fun _ => text_ite (fun _ => ?_) fun _ => text_ite (fun _ => h.ext) fun _ => h.ext
  refine text_ite (fun _ => h.ext) fun _ => text_onOk h.ext fun _ _ => text_ite (fun _ => h.ext) fun _ => text_ite (fun _ => h.ext) fun _ => ?_
  refine text_onOk h.ext fun _ _ => text_ite (fun _ => text_onOk h.ext fun _ _ => hnil) fun _ => text_onOk h.ext ?_
  rintro ⟨k, c1⟩ -
  refine text_ite (fun _ => h.ext) fun _ => text_onOk h.ext fun _ _ => text_ite (fun _ => h.ext) fun _ => text_ite (fun _ => h.ext) fun _ => ?_
  obtain ⟨h1, h2, h3⟩ := h.newVar (t := .array 0 e) (z := .arr []) (.arr rfl rfl (by simp))
  refine text_mono h3 (sliceLoopAt_keeps ht (fun c => hd c _) hz h1 (placeTy_mono h3 hp) (k := 0) ?_)
  rw [← h.mem.length, List.getElem?_append_right (Nat.le_refl _), Nat.sub_self]
  rfl

theorem bytesAt_keeps (ht : W.resolve t = .slice e) (hb : W.resolve e = .uint .u8) {dec : Nat → Nat → Loc → Mem → DM}
    (hd : ∀ c d, StaysTyped W D inp b.length e (dec c d)) {z : Val} (hz : HasTy W D e z) {c depth : Nat} :
    StaysTyped W D inp b.length t (bytesAt inp dec (flat z) b c depth) := by
  intro S l m h hp
  unfold bytesAt
  refine text_onOk h.ext fun _ _ => text_ite (fun _ => sliceAt_keeps ht hd hz _ _ _ h hp) fun _ => text_onOk h.ext ?_
  rintro ⟨ob, c1⟩ hs
  cases ob with
  | none => exact h.ext
  | some s =>
    obtain ⟨h1, -⟩ := stringBytes_place hs
    refine (h.write hp (.slice ht fun i hi => ?_)).ext
    exact ⟨_, h.inp, .elem rfl (by omega) (.here hb.symm)⟩

theorem arrayLoopAt_keeps {k : Nat} (ht : W.resolve t = .array k e) {dec : Nat → Loc → Mem → DM} (hd : ∀ c, StaysTyped W D inp n e (dec c))
    {skip : Nat → Res Nat} {f c : Nat} : StaysTyped W D inp n t (arrayLoopAt dec skip k b f c) := by
  intro S l m h hp
  induction f generalizing c m S with
  | zero => exact h.ext
  | succ f ih =>
    unfold arrayLoopAt
    refine text_ite (fun _ => h.ext) fun _ => text_onOk h.ext ?_
    rintro ⟨i, c1⟩ -
    refine text_ite (fun _ => h.ext) fun _ => ?_
    have h1 : TExt W D inp n S (if i < k then dec c1 (l.sub i) m else (m, skip c1)).1 :=
      text_ite (fun hi => hd _ _ _ _ h (place_elem hp ht hi)) fun _ => h.ext
    revert h1
    generalize (if i < k then dec c1 (l.sub i) m else (m, skip c1)) = x
    obtain ⟨m1, r⟩ := x
    intro h1
    refine text_onOk h1 fun _ _ => text_ite (fun _ => h1) fun _ => text_onOk h1 fun _ _ => text_ite (fun _ => h1) fun _ => ?_
    exact h1.trans fun S' hs h2 => ih _ _ h2 (placeTy_mono hs hp)

theorem hvTy_zeros {S : List ObjTy} {k : Nat} (ht : W.resolve t = .array k e) {z : Val} (hz : HasTy W D e z) :
    HvTy W D S t (.arr (List.replicate k (flat z))) := by
  refine .arr ht (by simp) fun y hy => ?_
  rw [(List.mem_replicate.1 hy).2]
  exact hvTy_flat hz

theorem arrayAt_keeps {k : Nat} (ht : W.resolve t = .array k e) {dec : Nat → Nat → Loc → Mem → DM} (hd : ∀ c d, StaysTyped W D inp n e (dec c d)) {z : Val}
    (hz : HasTy W D e z) {c depth : Nat} : StaysTyped W D inp n t (arrayAt dec (flat z) k b c depth) := by
  intro S l m h hp
  unfold arrayAt
  refine text_ite (fun _ => h.ext) fun _ => text_ite (fun _ => h.ext) fun _ => text_onOk h.ext fun _ _ => ?_
  refine text_ite (fun _ => text_onOk h.ext fun _ _ => h.ext) fun _ => text_ite (fun _ => ?_) fun _ => h.ext
  refine text_ite (fun _ => h.ext) fun _ => text_onOk h.ext fun _ _ => text_ite (fun _ => h.ext) fun _ => ?_
  have h1 := h.write hp (hvTy_zeros ht hz)
  refine text_ite (fun _ => h1.ext) fun _ => ?_
  refine text_onOk h1.ext fun _ _ => text_ite (fun _ => text_onOk h1.ext fun _ _ => h1.ext) fun _ => text_onOk h1.ext ?_
  rintro ⟨_, c1⟩ -
  refine text_ite (fun _ => h1.ext) fun _ => text_onOk h1.ext fun _ _ => text_ite (fun _ => h1.ext) fun _ => ?_
  exact arrayLoopAt_keeps ht (fun c => hd c _) _ _ _ h1 hp

theorem hvTy_map {S : List ObjTy} {k v : Ty} (ht : W.resolve t = .map k v) {x : HV} (h : HvTy W D S t x) :
    x = .mapNil ∨ ∃ o, x = .map o ∧ S[o]? = some (.map k v) := by
  cases h with
  | mapNil => exact .inl rfl
  | map h h2 => rw [ht] at h; cases h; exact .inr ⟨_, rfl, h2⟩
  | _ => simp_all

theorem mapLoopAt_keeps {k v : Ty} (ht : W.resolve t = .map k v) {kd vd : Nat → Loc → Mem → DM} (hk : ∀ c, StaysTyped W D inp n k (kd c))
    (hv : ∀ c, StaysTyped W D inp n v (vd c)) {zk zv : Val} (hzk : HasTy W D k zk) (hzv : HasTy W D v zv) {f c : Nat} :
    StaysTyped W D inp n t (mapLoopAt kd vd (flat zk) (flat zv) b f c) := by
  intro S l m h hp
  induction f generalizing c m S with
  | zero => exact h.ext
  | succ f ih =>
    unfold mapLoopAt
    refine text_ite (fun _ => h.ext) fun _ => ?_
    obtain ⟨S1, hs1, h1, hp1⟩ := (hk c).fresh h (hvTy_flat hzk)
    dsimp only
    revert h1
    generalize kd c ⟨m.length, []⟩ (m.new (.var (flat zk))) = x
    obtain ⟨m1, r1⟩ := x
    intro h1
    dsimp only at h1
    refine text_onOk ⟨S1, hs1, h1⟩ fun c1 _ => text_ite (fun _ => ⟨S1, hs1, h1⟩) fun _ => ?_
    obtain ⟨S2, hs2, h2, hp2⟩ := (hv c1).fresh h1 (hvTy_flat hzv)
    revert h2
    generalize vd c1 ⟨m1.length, []⟩ (m1.new (.var (flat zv))) = x
    obtain ⟨m2, r2⟩ := x
    intro h2
    dsimp only at h2
    have hs := hs1.trans hs2
    refine text_mono hs (text_onOk h2.ext fun c2 _ => ?_)
    obtain ⟨kx, hkx, hkt⟩ := h2.read (placeTy_mono hs2 hp1)
    obtain ⟨vx, hvx, hvt⟩ := h2.read hp2
    obtain ⟨lx, hlx, hlt⟩ := h2.read (placeTy_mono hs hp)
    rw [hkx, hvx, hlx]
    split
    · rename_i k' v' o e1 e2 e3
      cases e1
      cases e2
      cases e3
      refine text_ite (fun _ => h2.ext) fun _ => ?_
      rcases hvTy_map ht hlt with e | ⟨o', e, ho⟩
      · cases e
      · cases e
        obtain ⟨es, he, het⟩ := h2.entries ho
        rw [he]
        dsimp only
        have h3 : TOk W D inp n S2 (m2.set o (.map (hvInsert kx vx es))) := by
          refine h2.setMap ho fun a a' ha => ?_
          rcases mem_hvInsert ha with ha | ⟨rfl, rfl⟩
          · exact het a a' ha
          · exact ⟨hkt, hvt⟩
        exact text_ite (fun _ => h3.ext) fun _ => text_onOk h3.ext fun _ _ => text_ite (fun _ => h3.ext) fun _ => ih _ _ h3 (placeTy_mono hs hp)
    · exact h2.ext

/-- The destination of a map decoder has a map. -/
theorem TOk.newMap {S : List ObjTy} {l : Loc} {m : Mem} (h : TOk W D inp n S m) {k v : Ty} (ht : W.resolve t = .map k v) (hp : PlaceTy W S l t) :
    TOk W D inp n (S ++ [.map k v]) ((m.new (.map [])).write l (.map m.length)) := by
  have h1 := h.new (o := .map k v) (c := .map []) (.map (by simp))
  refine h1.write (placeTy_mono (List.prefix_append _ _) hp) (.map ht ?_)
  rw [← h.mem.length, List.getElem?_append_right (Nat.le_refl _), Nat.sub_self]
  rfl

theorem mapAt_keeps {k v : Ty} (ht : W.resolve t = .map k v) {kd vd : Nat → Nat → Loc → Mem → DM} (hk : ∀ c d, StaysTyped W D inp n k (kd c d))
    (hv : ∀ c d, StaysTyped W D inp n v (vd c d)) {zk zv : Val} (hzk : HasTy W D k zk) (hzv : HasTy W D v zv) {c depth : Nat} :
    StaysTyped W D inp n t (mapAt kd vd (flat zk) (flat zv) b c depth) := by
  intro S l m h hp
  unfold mapAt
  refine text_ite (fun _ => h.ext) fun _ => text_ite (fun _ => h.ext) fun _ => text_onOk h.ext fun _ _ => ?_
  refine text_ite (fun _ => text_onOk h.ext fun _ _ => (h.write hp (.mapNil ht)).ext) fun _ => text_onOk h.ext fun _ _ => text_onOk h.ext ?_
  rintro ⟨_, c1⟩ -
  refine text_ite (fun _ => h.ext) fun _ => text_onOk h.ext fun _ _ => text_ite (fun _ => h.ext) fun _ => ?_
  split
  · exact h.ext
  · rename_i m1 hm
    have h1 : ∃ S1, S <+: S1 ∧ TOk W D inp n S1 m1 := by
      split at hm
      · cases hm
        exact ⟨_, List.prefix_append _ _, h.newMap ht hp⟩
      · cases hm
        exact h.ext
      · cases hm
    obtain ⟨S1, hs, h1⟩ := h1
    refine text_mono hs (text_ite (fun _ => h1.ext) fun _ => text_onOk h1.ext fun _ _ => text_ite (fun _ => h1.ext) fun _ => ?_)
    exact mapLoopAt_keeps ht (fun c => hk c _) (fun c => hv c _) hzk hzv _ _ _ h1 (placeTy_mono hs hp)

theorem viaLocal_keeps (ht : W.resolve t = .any) {dt : Ty} (hdt : D dt) {d : Loc → Mem → DM} (hd : StaysTyped W D inp n dt d) {z : HV}
    (hz : ∀ S, HvTy W D S dt z) : StaysTyped W D inp n t (viaLocal dt z d) := by
  intro S l m h hp
  unfold viaLocal
  obtain ⟨S1, hs1, h1, hp1⟩ := hd.fresh h (hz S)
  dsimp only
  revert h1
  generalize d ⟨m.length, []⟩ (m.new (.var z)) = x
  obtain ⟨m1, r⟩ := x
  intro h1
  dsimp only at h1
  refine text_mono hs1 (text_onOk h1.ext fun c _ => ?_)
  obtain ⟨x, hx, hxt⟩ := h1.read hp1
  rw [hx]
  exact (h1.write (placeTy_mono hs1 hp) (.any ht hdt hxt)).ext

theorem int64At_keeps {c : Nat} : StaysTyped W D inp n (.int .i64) (scalarAt (intDecode .i64 b c)) :=
  scalarAt_keeps (intDecode_scal _) (rv := .int 0) (intDecode_good (P := fun _ => True) rfl (.int rfl (inRange_zero _))).1

theorem stringAt_keeps (ht : W.resolve t = .str) {c : Nat} : StaysTyped W D inp n t (scalarAt (stringDecode b c)) :=
  scalarAt_keeps stringDecode_scal (rv := .str []) (stringDecode_good (P := fun _ => True) ht (.str ht)).1

theorem boolAt_keeps (ht : W.resolve t = .bool) {c : Nat} : StaysTyped W D inp n t (scalarAt (boolDecode b c)) :=
  scalarAt_keeps boolDecode_scal (rv := .bool false) (boolDecode_good (P := fun _ => True) ht (.bool ht)).1

theorem intAt_keeps {k : IKind} (ht : W.resolve t = .int k) {c : Nat} : StaysTyped W D inp n t (scalarAt (intDecode k b c)) :=
  scalarAt_keeps (intDecode_scal _) (rv := .int 0) (intDecode_good (P := fun _ => True) ht (.int ht (inRange_zero _))).1

theorem uintAt_keeps {k : UKind} (ht : W.resolve t = .uint k) {c : Nat} : StaysTyped W D inp n t (scalarAt (uintDecode k b c)) :=
  scalarAt_keeps (uintDecode_scal _) (rv := .uint 0) (uintDecode_good (P := fun _ => True) ht (.uint ht (Nat.zero_le _))).1

theorem f32At_keeps (ht : W.resolve t = .f32) {c : Nat} : StaysTyped W D inp n t (scalarAt (floatDecode W true b c)) :=
  scalarAt_keeps (floatDecode_scal _) (rv := .f32 0) (floatDecode32_good (P := fun _ => True) ht (.f32 ht)).1

theorem f64At_keeps (ht : W.resolve t = .f64) {c : Nat} : StaysTyped W D inp n t (scalarAt (floatDecode W false b c)) :=
  scalarAt_keeps (floatDecode_scal _) (rv := .f64 0) (floatDecode64_good (P := fun _ => True) ht (.f64 ht)).1

theorem wrappedAt_keeps (hW : WorldOk W D) (hw : wrappable W t = true) {c : Nat} : StaysTyped W D inp n t (scalarAt (wrappedDecode W t b c)) :=
  scalarAt_keeps (wrappedDecode_scal _) (rv := W.zero t) (wrappedDecode_good (P := fun _ => True) hw (zero_hasTy hW t)).1

theorem anyKeyAt_keeps (hD : ∀ t, Documented t → D t) {c : Nat} : StaysTyped W D inp n .any (anyKeyAt b c) := by
  intro S l m h hp
  unfold anyKeyAt
  refine text_onOk h.ext fun _ _ => text_ite (fun _ => ?_) fun _ => text_ite (fun _ => ?_) fun _ => h.ext
  · exact viaLocal_keeps rfl (hD _ (by simp [Documented])) (stringAt_keeps rfl) (fun _ => .str rfl) _ _ _ h hp
  · exact viaLocal_keeps rfl (hD _ (by simp [Documented])) int64At_keeps (fun _ => .int rfl (inRange_zero _)) _ _ _ h hp

theorem anyAt_keeps (hD : ∀ t, Documented t → D t) (ht : W.resolve t = .any) {ad : Nat → Nat → Loc → Mem → DM}
    (ha : ∀ c d, StaysTyped W D inp n .any (ad c d)) {c depth : Nat} : StaysTyped W D inp n t (anyAt W ad b c depth) := by
  intro S l m h hp
  unfold anyAt
  refine text_onOk h.ext fun _ _ => ?_
  refine text_ite (fun _ => ?_) fun _ => text_ite (fun _ => ?_) fun _ => text_ite (fun _ => ?_) fun _ => text_ite (fun _ => ?_) fun _ =>
    text_ite (fun _ => ?_) fun _ => text_ite (fun _ => ?_) fun _ => text_ite (fun _ => ?_) fun _ => h.ext
  · exact viaLocal_keeps ht (hD _ (by simp [Documented])) (mapAt_keeps (k := .str) (v := .any) (zk := .str []) (zv := .ifaceNil) rfl
      (fun _ _ => stringAt_keeps rfl) ha (.str rfl) (.anyNil rfl)) (fun _ => .mapNil rfl) _ _ _ h hp
  · exact viaLocal_keeps ht (hD _ (by simp [Documented])) (mapAt_keeps (k := .any) (v := .any) (zk := .ifaceNil) (zv := .ifaceNil) rfl
      (fun _ _ => anyKeyAt_keeps hD) ha (.anyNil rfl) (.anyNil rfl)) (fun _ => .mapNil rfl) _ _ _ h hp
  · exact viaLocal_keeps ht (hD _ (by simp [Documented])) (f64At_keeps rfl) (fun _ => .f64 rfl) _ _ _ h hp
  · exact text_onOk h.ext fun _ _ => (h.write hp (.any ht (hD _ (by simp [Documented])) (.str rfl))).ext
  · exact viaLocal_keeps ht (hD _ (by simp [Documented])) int64At_keeps (fun _ => .int rfl (inRange_zero _)) _ _ _ h hp
  · exact text_onOk h.ext fun _ _ => (h.write hp (.any ht (hD _ (by simp [Documented])) (.bool rfl))).ext
  · exact text_onOk h.ext fun _ _ => (h.write hp (.anyNil ht)).ext

theorem ifaceAt_keeps {U : Methods} (hU : TypedMethods W D U) {i : Nat} (ht : W.resolve t = .iface i) {c depth : Nat} :
    StaysTyped W D inp n t (ifaceAt W U b c depth) := by
  intro S l m h hp
  unfold ifaceAt
  obtain ⟨x, hx, hxt⟩ := h.read hp
  rw [hx]
  split
  · rename_i dt v hm
    have hv : HvTy W D S dt v := by
      split at hm
      · rename_i heq
        cases heq
        split at hm
        · cases hm
          cases hxt with
          | any h => rw [ht] at h; cases h
          | iface _ h => exact h
        · cases hm
      · cases hm
    rw [dynAt_eq]
    refine text_onOk h.ext fun e _ => text_onOk h.ext fun src _ => text_ite (fun _ => (h.write hp (.ifaceNil ht)).ext) fun _ => ?_
    suffices hs : ∀ src, TExt W D inp n S (match U.held dt v src m with | (m, r) => onOkM m r fun _ => ((m, .ok e) : DM)).1 from hs _
    intro src
    obtain ⟨S', h1, h2⟩ := hU.held S m dt v src h.mem hv
    revert h2
    generalize U.held dt v src m = y
    obtain ⟨m1, r⟩ := y
    intro h2
    have h3 : TExt W D inp n S m1 := ⟨S', h1, h2, prefix_get h1 h.inp⟩
    exact text_onOk h3 fun _ _ => h3
  · exact text_onOk h.ext fun _ _ => text_ite (fun _ => text_onOk h.ext fun _ _ => (h.write hp (.ifaceNil ht)).ext) fun _ => h.ext

theorem unmarshalerAt_keeps (hW : WorldOk W D) {U : Methods} (hU : TypedMethods W D U) {id : Nat} (hu : W.unmOf t = some id) {c depth : Nat} :
    StaysTyped W D inp n t (unmarshalerAt W U id b c depth) := by
  intro S l m h hp
  have := unmOf_named hu
  subst this
  rw [unmarshalerAt_eq]
  refine text_onOk h.ext fun e _ => text_onOk h.ext fun src _ => text_ite (fun _ => h.ext) fun _ => text_ite (fun _ => h.ext) fun _ =>
    text_ite (fun _ => h.ext) fun _ => text_ite (fun _ => (h.write hp (hvTy_flat (hW.namedZero id))).ext) fun _ => ?_
  suffices hs : ∀ src, TExt W D inp n S (match U.fresh id src m with
      | (m, r) => onOkM m (r.mapErr (annotate c)) fun v => ((m.write l v, .ok e) : DM)).1 from hs _
  intro src
  obtain ⟨S', h1, h2, h3⟩ := hU.fresh S m id src h.mem
  revert h2 h3
  generalize U.fresh id src m = y
  obtain ⟨m1, r⟩ := y
  intro h2 h3
  have h4 : TOk W D inp n S' m1 := ⟨h2, prefix_get h1 h.inp⟩
  refine text_mono h1 (text_onOk h4.ext fun v hv => ?_)
  exact (h4.write (placeTy_mono h1 hp) (h3 v (Res.mapErr_eq_ok.1 hv))).ext

theorem structLoopAt_keeps {id : Nat} (ht : W.resolve t = .struct id) {dec : FieldSet → Nat → Loc → Mem → DM}
    (hd : ∀ key i f c, FieldFor W id key i f → StaysTyped W D inp n f.ty (dec (mkSet W i f) c)) {skip : Nat → Res Nat} {f c : Nat} :
    StaysTyped W D inp n t (structLoopAt (fieldSets W 0 (W.fields id)) dec skip b f c) := by
  intro S l m h hp
  induction f generalizing c m S with
  | zero => exact h.ext
  | succ f ih =>
    unfold structLoopAt
    refine text_ite (fun _ => h.ext) fun _ => text_onOk h.ext ?_
    rintro ⟨fld, c1⟩ hk
    simp only [decodeKey, Res.bind_eq_ok] at hk
    obtain ⟨⟨ob, cn'⟩, -, hk⟩ := hk
    cases hk
    refine text_ite (fun _ => h.ext) fun _ => ?_
    dsimp only
    have fin : ∀ {x : DM}, TExt W D inp n S x.1 → TExt W D inp n S (match x with
        | (m, r) => onOkM m r fun c =>
          if !hasByte b c then (m, .err (.unexpectedEnd "object" c)) else
          onOkM m (idx b c) fun b' => if b' = cRBrace then (m, .ok (c + 1)) else
            structLoopAt (fieldSets W 0 (W.fields id)) dec skip b f c l m).1 := by
      rintro ⟨m1, r⟩ h1
      refine text_onOk h1 fun _ _ => text_ite (fun _ => h1) fun _ => text_onOk h1 fun _ _ => text_ite (fun _ => h1) fun _ => ?_
      exact h1.trans fun S' hs h2 => ih _ _ h2 (placeTy_mono hs hp)
    refine fin ?_
    rcases hfind : (fieldSets W 0 (W.fields id)).find? (fun s => decide (s.key = ob.getD [])) with _ | fs
    · rw [hfind]; exact h.ext
    · obtain ⟨i, fd, hff, rfl⟩ := find_some hfind
      rw [hfind]
      dsimp only
      split
      · exact hd _ i fd _ hff _ _ _ h (place_field hp ht hff.1)
      · exact h.ext

theorem structAt_keeps {id : Nat} (ht : W.resolve t = .struct id) {dec : FieldSet → Nat → Nat → Loc → Mem → DM}
    (hd : ∀ key i f c d, FieldFor W id key i f → StaysTyped W D inp n f.ty (dec (mkSet W i f) c d)) {c depth : Nat} :
    StaysTyped W D inp n t (structAt (fieldSets W 0 (W.fields id)) dec b c depth) := by
  intro S l m h hp
  unfold structAt
  refine text_ite (fun _ => h.ext) fun _ => text_ite (fun _ => h.ext) fun _ => text_onOk h.ext fun _ _ => ?_
  refine text_ite (fun _ => text_onOk h.ext fun _ _ => h.ext) fun _ => text_onOk h.ext fun _ _ => ?_
  refine text_ite (fun _ => h.ext) fun _ => text_onOk h.ext fun _ _ => text_ite (fun _ => h.ext) fun _ => text_onOk h.ext fun _ _ => ?_
  refine text_ite (fun _ => h.ext) fun _ => text_onOk h.ext fun _ _ => text_ite (fun _ => h.ext) fun _ => ?_
  refine text_ite (fun _ => h.ext) fun _ => text_onOk h.ext fun _ _ => text_ite (fun _ => h.ext) fun _ => ?_
  split
  · exact structLoopAt_keeps ht (fun key i f c hf => hd key i f c _ hf) _ _ _ h hp
  · exact h.ext

theorem ptrKeyAt_keeps {S : List ObjTy} {m : Mem} (h : TOk W D inp n S m) {scratch : DM} (hs : TExt W D inp n S scratch.1) {c : Nat} :
    TExt W D inp n S (ptrKeyAt scratch b c m).1 := by
  unfold ptrKeyAt
  exact text_onOk h.ext fun _ _ => text_ite (fun _ => text_onOk h.ext fun _ _ => h.ext) fun _ => text_onOk hs fun _ _ => hs

theorem mapKeyAt_keeps (hW : WorldOk W D) (hD : ∀ t, Documented t → D t) {U : Methods} (hU : TypedMethods W D U) {ad : Nat → Nat → Loc → Mem → DM}
    (ha : ∀ c d, StaysTyped W D inp n .any (ad c d)) {k : Ty} {c depth : Nat} : StaysTyped W D inp n k (mapKeyAt W U ad b k c depth) := by
  intro S l m h hp
  unfold mapKeyAt
  cases hu : W.unmOf k with
  | some id => exact unmarshalerAt_keeps hW hU hu _ _ _ h hp
  | none =>
    cases hr : W.resolve k with
    | str => exact stringAt_keeps hr _ _ _ h hp
    | bool => exact boolAt_keeps hr _ _ _ h hp
    | int kd => exact intAt_keeps hr _ _ _ h hp
    | uint kd => exact uintAt_keeps hr _ _ _ h hp
    | any => exact anyAt_keeps hD hr ha _ _ _ h hp
    | iface i => exact ifaceAt_keeps hU hr _ _ _ h hp
    | ptr e =>
      have hs : TExt W D inp n S (anyAt W ad b c depth ⟨m.length, []⟩ (m.new (.var .ifaceNil))).1 := by
        obtain ⟨S', h1, h2, -⟩ := (anyAt_keeps (b := b) (c := c) (depth := depth) (t := .any) hD rfl ha).fresh h (z := .ifaceNil) (.anyNil rfl)
        exact ⟨S', h1, h2⟩
      dsimp only
      cases W.unmOf e with
      | some id => exact h.ext
      | none =>
        dsimp only
        cases W.resolve e with
        | str => exact ptrKeyAt_keeps h h.ext
        | bool => exact ptrKeyAt_keeps h h.ext
        | int _ => exact ptrKeyAt_keeps h h.ext
        | uint _ => exact ptrKeyAt_keeps h h.ext
        | any => exact ptrKeyAt_keeps h hs
        | iface _ => exact ptrKeyAt_keeps h hs
        | _ => exact h.ext
    | _ => exact h.ext

theorem fieldAt_keeps (hW : WorldOk W D) {rec : Ty → Nat → Nat → Loc → Mem → DM} {s : FieldSet} {c depth : Nat}
    (hrec : StaysTyped W D inp n s.ty (rec s.ty c depth)) : StaysTyped W D inp n s.ty (fieldAt W rec b s c depth) := by
  intro S l m h hp
  unfold fieldAt
  refine text_ite (fun _ => ?_) fun _ => hrec _ _ _ h hp
  cases hr : W.resolve s.ty with
  | ptr e => exact text_ite (fun hw => ptrAt_keeps hr (wrappedAt_keeps hW hw) (zero_hasTy hW e) _ _ _ h hp) fun _ => h.ext
  | _ => exact text_ite (fun hw => wrappedAt_keeps hW hw _ _ _ h hp) fun _ => h.ext

theorem nonPtrAt_keeps (hW : WorldOk W D) (hD : ∀ t, Documented t → D t) {U : Methods} (hU : TypedMethods W D U)
    {rec : Ty → Nat → Nat → Loc → Mem → DM} (hrec : ∀ t c d, StaysTyped W D inp b.length t (rec t c d)) {t : Ty} {c depth : Nat} :
    StaysTyped W D inp b.length t (nonPtrAt W U inp rec b t c depth) := by
  intro S l m h hp
  unfold nonPtrAt
  cases hu : W.unmOf t with
  | some id => exact unmarshalerAt_keeps hW hU hu _ _ _ h hp
  | none =>
    cases hr : W.resolve t with
    | bool => exact boolAt_keeps hr _ _ _ h hp
    | int k => exact intAt_keeps hr _ _ _ h hp
    | uint k => exact uintAt_keeps hr _ _ _ h hp
    | f32 => exact f32At_keeps hr _ _ _ h hp
    | f64 => exact f64At_keeps hr _ _ _ h hp
    | str => exact stringAt_keeps hr _ _ _ h hp
    | slice e =>
      refine text_ite (fun hb => ?_) fun _ => ?_
      · exact bytesAt_keeps hr (of_decide_eq_true hb) (hrec e) (zero_hasTy hW e) _ _ _ h hp
      · exact sliceAt_keeps hr (hrec e) (zero_hasTy hW e) _ _ _ h hp
    | array k e => exact arrayAt_keeps hr (hrec e) (zero_hasTy hW e) _ _ _ h hp
    | map k e => exact mapAt_keeps hr (fun c d => mapKeyAt_keeps hW hD hU (hrec .any)) (hrec e) (zero_hasTy hW k) (zero_hasTy hW e) _ _ _ h hp
    | struct id =>
      exact structAt_keeps hr (fun key i f c d _ => fieldAt_keeps (s := mkSet W i f) hW (hrec f.ty c d)) _ _ _ h hp
    | any => exact anyAt_keeps hD hr (hrec .any) _ _ _ h hp
    | iface i => exact ifaceAt_keeps hU hr _ _ _ h hp
    | other => exact h.ext
    | ptr e => exact h.ext
    | named i => exact h.ext

theorem decodeMem_keeps (hW : WorldOk W D) (hD : ∀ t, Documented t → D t) {U : Methods} (hU : TypedMethods W D U) {f : Nat} {t : Ty} {c depth : Nat} :
    StaysTyped W D inp b.length t (decodeMem W U inp b f t c depth) := by
  induction f generalizing t c depth with
  | zero => exact fun _ _ _ h _ => h.ext
  | succ f ih =>
    have hnp : ∀ {t c depth}, StaysTyped W D inp b.length t (nonPtrAt W U inp (decodeMem W U inp b f) b t c depth) := nonPtrAt_keeps hW hD hU fun t c d => ih
    intro S l m h hp
    unfold decodeMem
    cases W.unmOf t with
    | some id => exact hnp _ _ _ h hp
    | none =>
      cases hr : W.resolve t with
      | ptr e => exact text_ite (fun _ => h.ext) fun _ => ptrAt_keeps hr hnp (zero_hasTy hW e) _ _ _ h hp
      | _ => exact hnp _ _ _ h hp

end Decoders

end Verif

import Verif.Spec.Alias
import Verif.Proofs.DecSafe
import Verif.Proofs.DecSound
/-
Decoding with byte slices in memory: the same values as in Model/Decode.lean, in parts of the buffer that do not touch.
-/
namespace Verif
open Spec

/-! ### Values -/

section Basics
variable {m : Arrays}

mutual
theorem view_eq_self : ∀ {v : Val}, wins v = [] → view m v = v
  | .win _ _ _, h => by simp [wins] at h
  | .slice vs, h => by simp only [wins] at h; simp only [view, viewList_eq_self h]
  | .arr vs, h => by simp only [wins] at h; simp only [view, viewList_eq_self h]
  | .struct vs, h => by simp only [wins] at h; simp only [view, viewList_eq_self h]
  | .map es, h => by simp only [wins] at h; simp only [view, viewEntries_eq_self h]
  | .ptr v, h => by simp only [wins] at h; simp only [view, view_eq_self h]
  | .iface _ v, h => by simp only [wins] at h; simp only [view, view_eq_self h]
  | .bool _, _ => rfl
  | .int _, _ => rfl
  | .uint _, _ => rfl
  | .f32 _, _ => rfl
  | .f64 _, _ => rfl
  | .str _, _ => rfl
  | .sliceNil, _ => rfl
  | .mapNil, _ => rfl
  | .ptrNil, _ => rfl
  | .ifaceNil, _ => rfl
  | .other, _ => rfl
theorem viewList_eq_self : ∀ {vs : List Val}, winsList vs = [] → viewList m vs = vs
  | [], _ => rfl
  | v :: vs, h => by
    simp only [winsList, List.append_eq_nil_iff] at h
    simp only [viewList, view_eq_self h.1, viewList_eq_self h.2]
theorem viewEntries_eq_self : ∀ {es : List (Val × Val)}, winsEntries es = [] → viewEntries m es = es
  | [], _ => rfl
  | (k, v) :: es, h => by
    simp only [winsEntries, List.append_eq_nil_iff] at h
    simp only [viewEntries, view_eq_self h.1.1, view_eq_self h.1.2, viewEntries_eq_self h.2]
end

mutual
theorem goEq_view : ∀ (a b : Val), (view m a).goEq (view m b) = a.goEq b
  | .arr a, b => by cases b <;> simp [view, Val.goEq, bytesVal, goEqList_view]
  | .struct a, b => by cases b <;> simp [view, Val.goEq, bytesVal, goEqList_view]
  | .iface t v, b => by
    cases b with
    | iface t' v' => simp only [view, Val.goEq, goEq_view v v']
    | _ => simp [view, Val.goEq, bytesVal]
  | .win _ _ _, b => by cases b <;> simp [view, Val.goEq, bytesVal]
  | .slice _, b => by cases b <;> simp [view, Val.goEq, bytesVal]
  | .map _, b => by cases b <;> simp [view, Val.goEq, bytesVal]
  | .ptr _, b => by cases b <;> simp [view, Val.goEq, bytesVal]
  | .bool _, b => by cases b <;> simp [view, Val.goEq, bytesVal]
  | .int _, b => by cases b <;> simp [view, Val.goEq, bytesVal]
  | .uint _, b => by cases b <;> simp [view, Val.goEq, bytesVal]
  | .f32 _, b => by cases b <;> simp [view, Val.goEq, bytesVal]
  | .f64 _, b => by cases b <;> simp [view, Val.goEq, bytesVal]
  | .str _, b => by cases b <;> simp [view, Val.goEq, bytesVal]
  | .sliceNil, b => by cases b <;> simp [view, Val.goEq, bytesVal]
  | .mapNil, b => by cases b <;> simp [view, Val.goEq, bytesVal]
  | .ptrNil, b => by cases b <;> simp [view, Val.goEq, bytesVal]
  | .ifaceNil, b => by cases b <;> simp [view, Val.goEq, bytesVal]
  | .other, b => by cases b <;> simp [view, Val.goEq, bytesVal]
theorem goEqList_view : ∀ (a b : List Val), goEqList (viewList m a) (viewList m b) = goEqList a b
  | [], b => by cases b <;> simp [viewList, goEqList]
  | x :: xs, b => by cases b <;> simp [viewList, goEqList, goEq_view x, goEqList_view xs]
end

mutual
theorem hashable_view : ∀ (a : Val), (view m a).hashable = a.hashable
  | .arr a => by simp [view, Val.hashable, hashableList_view a]
  | .struct a => by simp [view, Val.hashable, hashableList_view a]
  | .iface t v => by simp [view, Val.hashable, hashable_view v]
  | .win _ _ _ => by simp [view, Val.hashable, bytesVal]
  | .slice _ => by simp [view, Val.hashable]
  | .map _ => by simp [view, Val.hashable]
  | .ptr _ => by simp [view, Val.hashable]
  | .bool _ => rfl
  | .int _ => rfl
  | .uint _ => rfl
  | .f32 _ => rfl
  | .f64 _ => rfl
  | .str _ => rfl
  | .sliceNil => rfl
  | .mapNil => rfl
  | .ptrNil => rfl
  | .ifaceNil => rfl
  | .other => rfl
theorem hashableList_view : ∀ (a : List Val), hashableList (viewList m a) = hashableList a
  | [] => rfl
  | x :: xs => by simp [viewList, hashableList, hashable_view x, hashableList_view xs]
end

theorem viewList_map (vs : List Val) : viewList m vs = vs.map (view m) := by
  induction vs with
  | nil => rfl
  | cons v vs ih => simp [viewList, ih]

theorem mapInsert_view (k v : Val) (es : List (Val × Val)) :
    viewEntries m (mapInsert k v es) = mapInsert (view m k) (view m v) (viewEntries m es) := by
  induction es with
  | nil => simp [mapInsert, viewEntries]
  | cons e es ih =>
    obtain ⟨k', v'⟩ := e
    simp only [mapInsert, viewEntries, goEq_view]
    split
    · simp [viewEntries]
    · simp [viewEntries, ih]

theorem heldFreeList_iff {vs : List Val} : HeldFreeList vs ↔ ∀ v ∈ vs, HeldFree v := by
  induction vs with
  | nil => simp [HeldFreeList]
  | cons v vs ih => simp [HeldFreeList, ih]

theorem heldFreeEntries_iff {es : List (Val × Val)} : HeldFreeEntries es ↔ ∀ k v, (k, v) ∈ es → HeldFree k ∧ HeldFree v := by
  induction es with
  | nil => simp [HeldFreeEntries]
  | cons e es ih =>
    obtain ⟨k, v⟩ := e
    simp only [HeldFreeEntries, ih, List.mem_cons, Prod.mk.injEq]
    constructor
    · rintro ⟨h1, h2, h3⟩ a b (⟨rfl, rfl⟩ | h)
      · exact ⟨h1, h2⟩
      · exact h3 a b h
    · intro h
      exact ⟨(h k v (.inl ⟨rfl, rfl⟩)).1, (h k v (.inl ⟨rfl, rfl⟩)).2, fun a b hm => h a b (.inr hm)⟩

theorem heldFree_set {vs : List Val} {i : Nat} {v : Val} (h : HeldFreeList vs) (hv : HeldFree v) : HeldFreeList (vs.set i v) := by
  rw [heldFreeList_iff] at h ⊢
  intro w hw
  rcases List.mem_or_eq_of_mem_set hw with hw | rfl
  · exact h _ hw
  · exact hv

theorem heldFree_insert {es : List (Val × Val)} {k v : Val} (h : HeldFreeEntries es) (hk : HeldFree k) (hv : HeldFree v) :
    HeldFreeEntries (mapInsert k v es) := by
  rw [heldFreeEntries_iff] at h ⊢
  intro a b hab
  obtain ⟨h1, h2⟩ := mapInsert_mem hab
  constructor
  · rcases h1 with rfl | ⟨b', h'⟩
    · exact hk
    · exact (h _ _ h').1
  · rcases h2 with rfl | ⟨b', h'⟩
    · exact hv
    · exact (h _ _ h').2

mutual
theorem heldFree_of_nil : ∀ {v : Val}, wins v = [] → HeldFree v
  | .win _ _ _, h => by simp [wins] at h
  | .slice vs, h => by simp only [wins] at h; simp only [HeldFree, heldFreeList_of_nil h]
  | .arr vs, h => by simp only [wins] at h; simp only [HeldFree, heldFreeList_of_nil h]
  | .struct vs, h => by simp only [wins] at h; simp only [HeldFree, heldFreeList_of_nil h]
  | .map es, h => by simp only [wins] at h; simp only [HeldFree, heldFreeEntries_of_nil h]
  | .ptr v, h => by simp only [wins] at h; simp only [HeldFree, heldFree_of_nil h]
  | .iface _ v, h => by simpa only [wins, HeldFree] using h
  | .bool _, _ => trivial
  | .int _, _ => trivial
  | .uint _, _ => trivial
  | .f32 _, _ => trivial
  | .f64 _, _ => trivial
  | .str _, _ => trivial
  | .sliceNil, _ => trivial
  | .mapNil, _ => trivial
  | .ptrNil, _ => trivial
  | .ifaceNil, _ => trivial
  | .other, _ => trivial
theorem heldFreeList_of_nil : ∀ {vs : List Val}, winsList vs = [] → HeldFreeList vs
  | [], _ => trivial
  | v :: vs, h => by
    simp only [winsList, List.append_eq_nil_iff] at h
    exact ⟨heldFree_of_nil h.1, heldFreeList_of_nil h.2⟩
theorem heldFreeEntries_of_nil : ∀ {es : List (Val × Val)}, winsEntries es = [] → HeldFreeEntries es
  | [], _ => trivial
  | (k, v) :: es, h => by
    simp only [winsEntries, List.append_eq_nil_iff] at h
    exact ⟨heldFree_of_nil h.1.1, heldFree_of_nil h.1.2, heldFreeEntries_of_nil h.2⟩
end

theorem count_set {vs : List Val} {i : Nat} {v v' : Val} (h : vs[i]? = some v) (w : Win) :
    (winsList (vs.set i v')).count w + (wins v).count w = (winsList vs).count w + (wins v').count w := by
  induction vs generalizing i with
  | nil => simp at h
  | cons x xs ih =>
    cases i with
    | zero => cases h; simp only [List.set_cons_zero, winsList, List.count_append]; omega
    | succ i =>
      simp only [List.set_cons_succ, winsList, List.count_append]
      have := ih (by simpa using h)
      omega

theorem count_insert (k v : Val) (es : List (Val × Val)) (w : Win) :
    (winsEntries (mapInsert k v es)).count w ≤ (winsEntries es).count w + ((wins k).count w + (wins v).count w) := by
  induction es with
  | nil => simp [mapInsert, winsEntries]
  | cons e es ih =>
    obtain ⟨k', v'⟩ := e
    simp only [mapInsert]
    split
    · simp only [winsEntries, List.count_append]; omega
    · simp only [winsEntries, List.count_append]; omega

theorem winsList_append (a b : List Val) : winsList (a ++ b) = winsList a ++ winsList b := by
  induction a with
  | nil => rfl
  | cons x xs ih => simp [winsList, ih]

theorem winsList_replicate {z : Val} (hz : wins z = []) (n : Nat) : winsList (List.replicate n z) = [] := by
  induction n with
  | zero => rfl
  | succ n ih => simp [List.replicate_succ, winsList, hz, ih]

theorem viewList_append (a b : List Val) : viewList m (a ++ b) = viewList m a ++ viewList m b := by
  simp [viewList_map]

theorem viewList_replicate {z : Val} (hz : wins z = []) (n : Nat) : viewList m (List.replicate n z) = List.replicate n z := by
  rw [viewList_eq_self (winsList_replicate hz n)]

end Basics

/-! ### Growth -/

/-- New windows: in array `o` (of `n` bytes), from position `c` up to `e`, not touching. -/
structure Fresh (o n c e : Nat) (new : List Win) : Prop where
  apart : new.Pairwise Win.Apart
  place : ∀ w ∈ new, w.obj = o ∧ c ≤ w.off ∧ w.off + w.len ≤ e ∧ w.off + w.len ≤ n

/-- `ws` are windows of `ws0` and new ones between `c` and `e`. -/
def Got (o n c e : Nat) (ws0 ws : List Win) : Prop := c ≤ e ∧ ∃ new, Fresh o n c e new ∧ ∀ w, ws.count w ≤ ws0.count w + new.count w

section Growth
variable {o n : Nat}

theorem Fresh.nil {c e : Nat} : Fresh o n c e [] := ⟨List.Pairwise.nil, by simp⟩

theorem Fresh.append {c e e1 e' : Nat} {a b : List Win} (ha : Fresh o n c e a) (hb : Fresh o n e1 e' b) (h1 : c ≤ e) (h2 : e < e1) (h3 : e1 ≤ e') : Fresh o n c e' (a ++ b) := by
  refine ⟨List.pairwise_append.2 ⟨ha.apart, hb.apart, ?_⟩, ?_⟩
  · intro x hx y hy
    have := ha.place x hx
    have := hb.place y hy
    exact .inr (.inl (by omega))
  · intro w hw
    rcases List.mem_append.1 hw with hw | hw
    · have := ha.place w hw; exact ⟨this.1, by omega, by omega, by omega⟩
    · have := hb.place w hw; exact ⟨this.1, by omega, by omega, by omega⟩

theorem Got.refl {c : Nat} {ws : List Win} : Got o n c c ws ws := ⟨Nat.le_refl _, [], .nil, by simp⟩

theorem Got.mono {c e e' : Nat} {ws0 ws : List Win} (h : Got o n c e ws0 ws) (he : e ≤ e') : Got o n c e' ws0 ws := by
  obtain ⟨h0, new, hf, hc⟩ := h
  exact ⟨by omega, new, ⟨hf.apart, fun w hw => by have := hf.place w hw; exact ⟨this.1, by omega, by omega, by omega⟩⟩, hc⟩

theorem Got.le {c e : Nat} {ws0 ws ws' : List Win} (h : Got o n c e ws0 ws) (hl : ∀ w, ws'.count w ≤ ws.count w) : Got o n c e ws0 ws' := by
  obtain ⟨h0, new, hf, hc⟩ := h
  exact ⟨h0, new, hf, fun w => by have := hc w; have := hl w; omega⟩

/-- A part `v` of the present value is decoded again, from a later position on, and becomes `x`. -/
theorem Got.part {c e e1 e' : Nat} {ws0 ws ws' v x : List Win} (h : Got o n c e ws0 ws) (he : e < e1) (hp : Got o n e1 e' v x)
    (hl : ∀ w, ws'.count w + v.count w ≤ ws.count w + x.count w) : Got o n c e' ws0 ws' := by
  obtain ⟨h0, new, hf, hc⟩ := h
  obtain ⟨h0', new', hf', hc'⟩ := hp
  refine ⟨by omega, new ++ new', hf.append hf' h0 he h0', fun w => ?_⟩
  rw [List.count_append]
  have := hc w
  have := hc' w
  have := hl w
  omega

end Growth

/-! ### Decoders that store no byte slices -/

/-- No memory is referred to, and the cursor does not go back. -/
def Dry (c : Nat) (x : DR) : Prop := wins x.1 = [] ∧ ∀ c', x.2 = .ok c' → c ≤ c'

theorem dry_ok {c c' : Nat} {v : Val} (hv : wins v = []) (h : c ≤ c') : Dry c (v, .ok c') := ⟨hv, by rintro _ ⟨⟩; exact h⟩
theorem dry_err {c : Nat} {v : Val} {e : Err} (hv : wins v = []) : Dry c (v, .err e) := ⟨hv, by simp⟩
theorem dry_panic {c : Nat} {v : Val} {e : Panic} (hv : wins v = []) : Dry c (v, .panic e) := ⟨hv, by simp⟩
theorem dry_div {c : Nat} {v : Val} (hv : wins v = []) : Dry c (v, .diverge) := ⟨hv, by simp⟩
theorem dry_onOk {α : Type} {c : Nat} {v : Val} {r : Res α} {k : α → DR} (hv : wins v = []) (hk : ∀ a, r = .ok a → Dry c (k a)) :
    Dry c (onOk v r k) := by
  cases r with
  | ok a => exact hk a rfl
  | err e => exact dry_err hv
  | panic p => exact dry_panic hv
  | diverge => exact dry_div hv
theorem dry_ite {c : Nat} {p : Prop} [Decidable p] {x y : DR} (hx : p → Dry c x) (hy : ¬ p → Dry c y) : Dry c (if p then x else y) := by
  split
  · exact hx ‹_›
  · exact hy ‹_›
theorem Dry.mono {c c' : Nat} {x : DR} (h : Dry c' x) (hc : c ≤ c') : Dry c x := ⟨h.1, fun e he => by have := h.2 e he; omega⟩

/-- The destination is left alone or replaced by something that refers to no memory. -/
def Leaf (c : Nat) (D : Val → DR) : Prop :=
  ∃ r : Res Nat, (∀ c', r = .ok c' → c ≤ c') ∧ ((∀ rv, D rv = (rv, r)) ∨ ∃ s, wins s = [] ∧ ∀ rv, D rv = (s, r))

theorem leaf_keep {c : Nat} {r : Res Nat} (h : ∀ c', r = .ok c' → c ≤ c') : Leaf c (fun rv => (rv, r)) := ⟨r, h, .inl fun _ => rfl⟩
theorem leaf_err {c : Nat} {e : Err} : Leaf c (fun rv => (rv, .err e)) := leaf_keep (by simp)
theorem leaf_panic {c : Nat} {e : Panic} : Leaf c (fun rv => (rv, .panic e)) := leaf_keep (by simp)
theorem leaf_div {c : Nat} : Leaf c (fun rv => (rv, .diverge)) := leaf_keep (by simp)
theorem leaf_same {c c' : Nat} (h : c ≤ c') : Leaf c (fun rv => (rv, .ok c')) := leaf_keep (by rintro _ ⟨⟩; exact h)
theorem leaf_set {c c' : Nat} {s : Val} (hs : wins s = []) (h : c ≤ c') : Leaf c (fun _ => (s, .ok c')) :=
  ⟨_, by rintro _ ⟨⟩; exact h, .inr ⟨s, hs, fun _ => rfl⟩⟩
theorem leaf_onOk {α : Type} {c : Nat} {r : Res α} {k : α → Val → DR} (hk : ∀ a, r = .ok a → Leaf c (k a)) :
    Leaf c (fun rv => onOk rv r fun a => k a rv) := by
  cases r with
  | ok a => exact hk a rfl
  | err e => exact leaf_err
  | panic p => exact leaf_panic
  | diverge => exact leaf_div
theorem leaf_ite {c : Nat} {p : Prop} [Decidable p] {x y : Val → DR} (hx : p → Leaf c x) (hy : ¬ p → Leaf c y) : Leaf c (fun rv => if p then x rv else y rv) := by
  by_cases h : p
  · simpa only [if_pos h] using hx h
  · simpa only [if_neg h] using hy h
theorem Leaf.mono {c c' : Nat} {D : Val → DR} (h : Leaf c' D) (hc : c ≤ c') : Leaf c D := by
  obtain ⟨r, hr, h⟩ := h
  exact ⟨r, fun e he => by have := hr e he; omega, h⟩
theorem Leaf.dry {c : Nat} {D : Val → DR} (h : Leaf c D) {rv : Val} (hv : wins rv = []) : Dry c (D rv) := by
  obtain ⟨r, hr, h | ⟨s, hs, h⟩⟩ := h
  · rw [h]; exact ⟨hv, hr⟩
  · rw [h]; exact ⟨hs, hr⟩
/-- A value computed elsewhere is stored if the computation succeeds. -/
theorem leaf_store {c : Nat} {x : DR} {k : Val → Val} (hx : Dry c x) (hk : wins x.1 = [] → wins (k x.1) = []) :
    Leaf c (fun rv => match x with | (v, r) => onOk rv r fun c => (k v, .ok c)) := by
  obtain ⟨v, r⟩ := x
  cases r with
  | ok c' => exact leaf_set (hk hx.1) (hx.2 c' rfl)
  | err e => exact leaf_err
  | panic p => exact leaf_panic
  | diverge => exact leaf_div

section Leaves
variable {W : World} {b : Bytes} {c : Nat}

theorem processInt_leaf (k : IKind) (s : Bytes) : Leaf c (processInt k s c) := by
  unfold processInt
  cases parseInt64 s with
  | ok i => exact leaf_ite (fun _ => leaf_err) fun _ => leaf_set rfl (Nat.le_refl _)
  | err e => exact leaf_err
  | panic p => exact leaf_panic
  | diverge => exact leaf_div

theorem processUint_leaf (k : UKind) (s : Bytes) : Leaf c (processUint k s c) := by
  unfold processUint
  cases parseUint s with
  | none => exact leaf_err
  | some n => exact leaf_ite (fun _ => leaf_err) fun _ => leaf_set rfl (Nat.le_refl _)

theorem processFloat_leaf (f : Bool) (s : Bytes) : Leaf c (processFloat W f s c) := by
  unfold processFloat
  cases floatOfText W s with
  | none => exact leaf_err
  | some x => exact leaf_ite (fun _ => leaf_ite (fun _ => leaf_err) fun _ => leaf_set rfl (Nat.le_refl _)) fun _ => leaf_set rfl (Nat.le_refl _)

theorem intBytes_le {c' : Nat} {ob : Option Bytes} (h : intBytes b c = .ok (ob, c')) : c ≤ c' := by
  rcases intBytes_iff.1 h with ⟨-, h⟩ | ⟨_, -, -, h⟩ <;> have := h.lt' <;> omega

theorem floatBytes_le {c' : Nat} {ob : Option Bytes} (h : floatBytes b c = .ok (ob, c')) : c ≤ c' := by
  rcases floatBytes_iff.1 h with ⟨-, h⟩ | ⟨_, -, -, -, h⟩ <;> have := h.lt' <;> omega

theorem intDecode_leaf (k : IKind) : Leaf c (intDecode k b c) := by
  unfold intDecode
  refine leaf_onOk fun x hx => ?_
  obtain ⟨ob, c'⟩ := x
  have := intBytes_le hx
  cases ob with
  | none => exact leaf_same this
  | some s => exact (processInt_leaf k s).mono this

theorem uintDecode_leaf (k : UKind) : Leaf c (uintDecode k b c) := by
  unfold uintDecode
  refine leaf_onOk fun x hx => ?_
  obtain ⟨ob, c'⟩ := x
  have := intBytes_le hx
  cases ob with
  | none => exact leaf_same this
  | some s => exact (processUint_leaf k s).mono this

theorem floatDecode_leaf (f : Bool) : Leaf c (floatDecode W f b c) := by
  unfold floatDecode
  refine leaf_onOk fun x hx => ?_
  obtain ⟨ob, c'⟩ := x
  have := floatBytes_le hx
  cases ob with
  | none => exact leaf_same this
  | some s => exact (processFloat_leaf f s).mono this

theorem boolDecode_leaf : Leaf c (boolDecode b c) := by
  unfold boolDecode
  refine leaf_ite (fun _ => leaf_err) fun _ => leaf_onOk fun x _ => leaf_ite (fun _ => leaf_onOk fun v _ => leaf_set rfl (by omega)) fun _ =>
    leaf_ite (fun _ => leaf_onOk fun _ _ => leaf_same (by omega)) fun _ => leaf_err

variable (hb : b.length < 2 ^ 63)
include hb

theorem stringDecode_leaf : Leaf c (stringDecode b c) := by
  unfold stringDecode
  refine leaf_onOk fun x hx => ?_
  obtain ⟨ob, c'⟩ := x
  have := (stringBytes_progress hb hx).1
  cases ob with
  | none => exact leaf_same (by omega)
  | some s => exact leaf_set rfl (by omega)

theorem wrappedDecode_leaf (t : Ty) : Leaf c (wrappedDecode W t b c) := by
  unfold wrappedDecode
  refine leaf_onOk fun x hx => ?_
  obtain ⟨ob, c'⟩ := x
  have := (stringBytes_progress hb hx).1
  cases ob with
  | none => exact leaf_same (by omega)
  | some s =>
    have hd : Leaf c (decodeString W t s c) := by
      unfold decodeString
      split
      · cases parseBool s with
        | none => exact leaf_err
        | some v => exact leaf_set rfl (Nat.le_refl _)
      · exact processFloat_leaf true s
      · exact processFloat_leaf false s
      · exact processUint_leaf _ s
      · exact processInt_leaf _ s
      · exact leaf_err
    obtain ⟨r, hr, hd | ⟨v, hv, hd⟩⟩ := hd
    · simp only [hd]
      exact leaf_onOk fun _ _ => leaf_same (by omega)
    · simp only [hd]
      cases r with
      | ok a => exact leaf_set hv (by omega)
      | err e => exact ⟨.err e, by simp, .inr ⟨v, hv, fun _ => rfl⟩⟩
      | panic p => exact ⟨.panic p, by simp, .inr ⟨v, hv, fun _ => rfl⟩⟩
      | diverge => exact ⟨.diverge, by simp, .inr ⟨v, hv, fun _ => rfl⟩⟩

theorem unmarshalDecode_leaf (hW : Keeping W) {id d : Nat} (hd : d ≤ maxDepth) : Leaf c (unmarshalDecode W id b c d) := by
  rw [show unmarshalDecode W id b c d = _ from funext (unmarshalDecode_eq W id b c d)]
  refine leaf_onOk fun e he => leaf_onOk fun src _ => ?_
  have := (skip_progress hb hd he).1
  refine leaf_ite (fun _ => leaf_err) fun _ => leaf_ite (fun _ => leaf_err) fun _ => leaf_ite (fun _ => leaf_err) fun _ =>
    leaf_ite (fun _ => leaf_set (hW.zero (.named id)) (by omega)) fun _ => leaf_onOk fun v hv => leaf_set (hW.unmarshal _ _ _ (Res.mapErr_eq_ok.1 hv)) (by omega)

omit hb in
theorem mapLoop_dry {keyDec valDec : Nat → DR} {lo : Nat} (hk : ∀ c, Dry c (keyDec c)) (hv : ∀ c, Dry c (valDec c)) {f c : Nat} {es : List (Val × Val)}
    (hes : winsEntries es = []) (hc : lo ≤ c) : Dry lo (mapLoop keyDec valDec b f c es) := by
  induction f generalizing c es with
  | zero => exact dry_div hes
  | succ f ih =>
    unfold mapLoop
    refine dry_ite (fun _ => dry_err hes) fun _ => ?_
    rcases hk1 : keyDec c with ⟨k, r⟩
    have h1 := hk c; rw [hk1] at h1
    refine dry_onOk hes ?_
    rintro c1 rfl
    refine dry_ite (fun _ => dry_err hes) fun _ => ?_
    rcases hv1 : valDec c1 with ⟨v, r⟩
    have h2 := hv c1; rw [hv1] at h2
    refine dry_onOk hes ?_
    rintro c2 rfl
    have p1 := h1.2 _ rfl
    have p2 := h2.2 _ rfl
    have hes' : winsEntries (mapInsert k v es) = [] := by
      have hz : ∀ w, (winsEntries (mapInsert k v es)).count w = 0 := by
        intro w
        have := count_insert k v es w
        rw [hes, h1.1, h2.1] at this
        simpa using this
      exact List.eq_nil_iff_forall_not_mem.2 fun w hw => by have := hz w; rw [List.count_eq_zero] at this; exact this hw
    refine dry_ite (fun _ => dry_panic hes) fun _ => dry_ite (fun _ => dry_err hes') fun _ => dry_onOk hes' fun y _ =>
      dry_ite (fun _ => dry_ok hes' (by omega)) fun _ => ih hes' (by omega)

theorem mapDecode_dry {keyDec valDec : Nat → Nat → DR} {c d : Nat} {rv : Val} (hk : ∀ c, d + 1 ≤ maxDepth → Dry c (keyDec c (d + 1)))
    (hv : ∀ c, d + 1 ≤ maxDepth → Dry c (valDec c (d + 1))) (hrv : wins rv = []) : Dry c (mapDecode keyDec valDec b c d rv) := by
  unfold mapDecode
  refine dry_ite (fun _ => dry_err hrv) fun _ => dry_ite (fun _ => dry_err hrv) fun hdp => dry_onOk hrv fun x hx => ?_
  refine dry_ite (fun _ => dry_onOk hrv fun _ _ => dry_ok rfl (by omega)) fun _ => dry_onOk hrv fun c1 hh => ?_
  have p1 := header_progress hb hx hh
  refine dry_onOk hrv ?_
  rintro ⟨m, c2⟩ hm
  obtain ⟨cnt, _, -, -, -, p2⟩ := readLength_sound hm
  refine dry_ite (fun _ => dry_err hrv) fun _ => dry_onOk hrv fun _ _ => dry_ite (fun _ => dry_err hrv) fun _ => ?_
  rcases he : mapEntries rv with _ | es
  · exact dry_panic hrv
  · have hes : winsEntries es = [] := by
      cases rv <;> simp [mapEntries] at he
      · subst he; rfl
      · subst he; simpa [wins] using hrv
    refine dry_ite (fun _ => dry_err hes) fun _ => dry_onOk hes fun _ _ => dry_ite (fun _ => dry_ok hes (by omega)) fun _ =>
      mapLoop_dry (fun c => hk c (by omega)) (fun c => hv c (by omega)) hes (by omega)

theorem anyKeyDecode_dry : Dry c (anyKeyDecode b c) := by
  unfold anyKeyDecode
  refine dry_onOk rfl fun x _ => dry_ite (fun _ => ?_) fun _ => dry_ite (fun _ => ?_) fun _ => dry_err rfl
  · exact (leaf_store (k := .iface .str) ((stringDecode_leaf hb).dry rfl) id).dry rfl
  · exact (leaf_store (k := .iface (.int .i64)) ((intDecode_leaf .i64).dry rfl) id).dry rfl

theorem anyDecode_leaf {anyDec : Nat → Nat → DR} {d : Nat} (ha : ∀ c, d + 1 ≤ maxDepth → Dry c (anyDec c (d + 1))) : Leaf c (anyDecode W anyDec b c d) := by
  unfold anyDecode
  refine leaf_onOk fun x _ => leaf_ite (fun _ => ?_) fun _ => leaf_ite (fun _ => ?_) fun _ => leaf_ite (fun _ => ?_) fun _ => leaf_ite (fun _ => ?_) fun _ =>
    leaf_ite (fun _ => ?_) fun _ => leaf_ite (fun _ => ?_) fun _ => leaf_ite (fun _ => ?_) fun _ => leaf_err
  · have hx := mapDecode_dry (c := c) (d := d) (keyDec := fun c _ => stringDecode b c (.str [])) hb (fun c _ => (stringDecode_leaf hb).dry rfl) ha (rv := .mapNil) rfl
    generalize mapDecode (fun c _ => stringDecode b c (.str [])) anyDec b c d .mapNil = x at hx
    exact leaf_store (k := .iface (.map .str .any)) hx fun h => by simpa only [wins] using h
  · have hx := mapDecode_dry (c := c) (d := d) (keyDec := fun c _ => anyKeyDecode b c) hb (fun c _ => anyKeyDecode_dry hb) ha (rv := .mapNil) rfl
    generalize mapDecode (fun c _ => anyKeyDecode b c) anyDec b c d .mapNil = x at hx
    exact leaf_store (k := .iface (.map .any .any)) hx fun h => by simpa only [wins] using h
  · exact leaf_store (k := .iface .f64) ((floatDecode_leaf false).dry rfl) id
  · refine leaf_onOk ?_
    rintro ⟨s, e⟩ hs
    obtain ⟨_, -, -, h⟩ := readString_sound hs
    exact leaf_set rfl (by omega)
  · exact leaf_store (k := .iface (.int .i64)) ((intDecode_leaf .i64).dry rfl) id
  · exact leaf_onOk fun _ _ => leaf_set rfl (by omega)
  · exact leaf_onOk fun _ _ => leaf_set rfl (by omega)

theorem ifaceDecode_dry (hW : Keeping W) {d : Nat} (hd : d ≤ maxDepth) {rv : Val} (hv : wins rv = []) : Dry c (ifaceDecode W b c d rv) := by
  unfold ifaceDecode
  split
  · rename_i t v hq
    have : rv = .iface t v := by
      split at hq
      · split at hq <;> cases hq; rfl
      · cases hq
    subst this
    rw [dynDecode_eq]
    refine dry_onOk hv fun e he => dry_onOk hv fun src _ => ?_
    have := (skip_progress hb hd he).1
    have h2 : ∀ s, wins (.iface t (W.unmarshalDyn t v s).1) = [] := fun s => hW.unmarshalDyn t v s (by simpa [wins] using hv)
    exact dry_ite (fun _ => dry_ok rfl (by omega)) fun _ => dry_onOk (h2 _) fun _ _ => dry_ok (h2 _) (by omega)
  · exact dry_onOk hv fun _ _ => dry_ite (fun _ => dry_onOk hv fun _ _ => dry_ok rfl (by omega)) fun _ => dry_err hv

omit hb in
theorem ptrKeyDecode_dry {x : DR} : Dry c (ptrKeyDecode x b c) := by
  unfold ptrKeyDecode
  exact dry_onOk rfl fun _ _ => dry_ite (fun _ => dry_onOk rfl fun _ _ => dry_ok rfl (by omega)) fun _ => dry_onOk rfl fun _ _ => dry_panic rfl

theorem keyDecode_dry (hW : Keeping W) {anyDec : Nat → Nat → DR} {k : Ty} {d : Nat} (hd : d ≤ maxDepth) (ha : ∀ c, d + 1 ≤ maxDepth → Dry c (anyDec c (d + 1))) :
    Dry c (keyDecode W anyDec b k c d) := by
  have hz := hW.zero k
  have hi : Dry c (invalidDecode c (W.zero k)) := dry_err hz
  unfold keyDecode
  split
  · exact (unmarshalDecode_leaf hb hW hd).dry hz
  · split
    · exact (stringDecode_leaf hb).dry hz
    · exact boolDecode_leaf.dry hz
    · exact (intDecode_leaf _).dry hz
    · exact (uintDecode_leaf _).dry hz
    · exact (anyDecode_leaf hb ha).dry hz
    · exact ifaceDecode_dry hb hW hd hz
    · split
      · exact hi
      · split
        · exact ptrKeyDecode_dry
        · exact ptrKeyDecode_dry
        · exact ptrKeyDecode_dry
        · exact ptrKeyDecode_dry
        · exact ptrKeyDecode_dry
        · exact ptrKeyDecode_dry
        · exact hi
    · exact hi

end Leaves

/-! ### Decoders with byte slices in memory -/

/-- `y` is what the program sees of `x`; the windows in `x` are some of `ws0` and new ones read from position `lo` on. -/
def Post (m : Arrays) (o n lo : Nat) (ws0 : List Win) (x y : DR) : Prop :=
  y = (view m x.1, x.2) ∧ HeldFree x.1 ∧ ∃ e, (∀ c', x.2 = .ok c' → c' = e) ∧ Got o n lo e ws0 (wins x.1)

section Post
variable {m : Arrays} {o n lo : Nat} {ws0 : List Win}

theorem post_ok {c c' : Nat} {v : Val} (hv : HeldFree v) (hg : Got o n lo c ws0 (wins v)) (h : c ≤ c') :
    Post m o n lo ws0 (v, .ok c') (view m v, .ok c') := ⟨rfl, hv, c', by simp, hg.mono h⟩
theorem post_fail {c : Nat} {v : Val} {r : Res Nat} (hv : HeldFree v) (hg : Got o n lo c ws0 (wins v)) (hr : ∀ c', r ≠ .ok c') :
    Post m o n lo ws0 (v, r) (view m v, r) := ⟨rfl, hv, c, fun c' h => absurd h (hr c'), hg⟩
theorem post_err {c : Nat} {v : Val} {e : Err} (hv : HeldFree v) (hg : Got o n lo c ws0 (wins v)) :
    Post m o n lo ws0 (v, .err e) (view m v, .err e) := post_fail hv hg (by simp)
theorem post_panic {c : Nat} {v : Val} {e : Panic} (hv : HeldFree v) (hg : Got o n lo c ws0 (wins v)) :
    Post m o n lo ws0 (v, .panic e) (view m v, .panic e) := post_fail hv hg (by simp)
theorem post_div {c : Nat} {v : Val} (hv : HeldFree v) (hg : Got o n lo c ws0 (wins v)) :
    Post m o n lo ws0 (v, .diverge) (view m v, .diverge) := post_fail hv hg (by simp)
theorem post_onOk {α : Type} {c : Nat} {v : Val} {r : Res α} {k k' : α → DR} (hv : HeldFree v) (hg : Got o n lo c ws0 (wins v))
    (hk : ∀ a, r = .ok a → Post m o n lo ws0 (k a) (k' a)) : Post m o n lo ws0 (onOk v r k) (onOk (view m v) r k') := by
  cases r with
  | ok a => exact hk a rfl
  | err e => exact post_err hv hg
  | panic p => exact post_panic hv hg
  | diverge => exact post_div hv hg
theorem post_ite {p : Prop} [Decidable p] {x y x' y' : DR} (hx : p → Post m o n lo ws0 x x') (hy : ¬ p → Post m o n lo ws0 y y') :
    Post m o n lo ws0 (if p then x else y) (if p then x' else y') := by
  by_cases h : p
  · simpa only [if_pos h] using hx h
  · simpa only [if_neg h] using hy h
theorem Got.drop {c e : Nat} {ws0 ws : List Win} (h : c ≤ e) : ws = [] → Got o n c e ws0 ws := by
  rintro rfl
  exact (Got.refl.le (by simp)).mono h
theorem Leaf.post {c : Nat} {D : Val → DR} (h : Leaf c D) {v : Val} (hv : HeldFree v) : Post m o n c (wins v) (D v) (D (view m v)) := by
  obtain ⟨r, hr, h | ⟨s, hs, h⟩⟩ := h
  · rw [h, h]
    refine ⟨rfl, hv, ?_⟩
    cases r with
    | ok c' => exact ⟨c', by simp, Got.refl.mono (hr _ rfl)⟩
    | err e => exact ⟨c, by simp, Got.refl⟩
    | panic p => exact ⟨c, by simp, Got.refl⟩
    | diverge => exact ⟨c, by simp, Got.refl⟩
  · rw [h, h]
    refine ⟨by simp only [view_eq_self hs], heldFree_of_nil hs, ?_⟩
    cases r with
    | ok c' => exact ⟨c', by simp, Got.drop (hr _ rfl) hs⟩
    | err e => exact ⟨c, by simp, Got.drop (Nat.le_refl _) hs⟩
    | panic p => exact ⟨c, by simp, Got.drop (Nat.le_refl _) hs⟩
    | diverge => exact ⟨c, by simp, Got.drop (Nat.le_refl _) hs⟩
theorem post_dry {x : DR} (h : Dry lo x) : Post m o n lo ws0 x x := by
  obtain ⟨v, r⟩ := x
  refine ⟨by simp only [view_eq_self h.1], heldFree_of_nil h.1, ?_⟩
  cases r with
  | ok c' => exact ⟨c', by simp, Got.drop (h.2 _ rfl) h.1⟩
  | err e => exact ⟨lo, by simp, Got.drop (Nat.le_refl _) h.1⟩
  | panic p => exact ⟨lo, by simp, Got.drop (Nat.le_refl _) h.1⟩
  | diverge => exact ⟨lo, by simp, Got.drop (Nat.le_refl _) h.1⟩
theorem post_ok' {c' : Nat} {v : Val} (hv : wins v = []) (h : lo ≤ c') : Post m o n lo ws0 (v, .ok c') (v, .ok c') := post_dry (dry_ok hv h)
theorem post_err' {v : Val} {e : Err} (hv : wins v = []) : Post m o n lo ws0 (v, .err e) (v, .err e) := post_dry (dry_err hv)
theorem post_onOk' {α : Type} {v : Val} {r : Res α} {k k' : α → DR} (hv : wins v = [])
    (hk : ∀ a, r = .ok a → Post m o n lo ws0 (k a) (k' a)) : Post m o n lo ws0 (onOk v r k) (onOk v r k') := by
  have := post_onOk (m := m) (o := o) (n := n) (lo := lo) (ws0 := ws0) (k := k) (k' := k') (heldFree_of_nil hv) (Got.drop (Nat.le_refl _) hv) hk
  rwa [view_eq_self hv] at this
/-- The two runs of a decoder agree. -/
def PostDec (m : Arrays) (o n : Nat) (D D' : Nat → Val → DR) : Prop := ∀ c v, HeldFree v → Post m o n c (wins v) (D c v) (D' c (view m v))

theorem ptrDecode_post {D D' : Nat → Nat → Val → DR} {d : Nat} (hD : PostDec m o n (fun c => D c d) (fun c => D' c d)) {z : Val} (hz : wins z = []) {b : Bytes} {c : Nat}
    {v : Val} (hv : HeldFree v) : Post m o n c (wins v) (ptrDecode D z b c d v) (ptrDecode D' z b c d (view m v)) := by
  unfold ptrDecode
  refine post_onOk hv Got.refl fun x _ => post_ite (fun _ => post_onOk hv Got.refl fun _ _ => post_ok (c := c) trivial (Got.drop (Nat.le_refl _) rfl) (by omega)) fun _ => ?_
  have key : ∀ v0, HeldFree v0 → wins v0 = wins v →
      Post m o n c (wins v) (match D c d v0 with | (v, r) => (.ptr v, r)) (match D' c d (view m v0) with | (v, r) => (.ptr v, r)) := by
    intro v0 h0 hw
    obtain ⟨h1, h2, h3⟩ := hD c v0 h0
    rw [hw] at h3
    dsimp only at h1 h2 h3
    rw [h1]
    generalize D c d v0 = x at h2 h3
    obtain ⟨x1, x2⟩ := x
    exact ⟨rfl, h2, h3⟩
  cases v with
  | ptrNil => have := key z (heldFree_of_nil hz) hz; rw [view_eq_self hz] at this; exact this
  | ptr v0 => exact key v0 hv rfl
  | _ => exact post_panic hv Got.refl

variable {b : Bytes}

theorem sliceLoop_post {D D' : Nat → Val → DR} (hD : PostDec m o n D D') {z : Val} (hz : wins z = []) {es f c : Nat} {slice : List Val} {rv : Val}
    (hs : HeldFreeList slice) (hrv : HeldFree rv) (hgs : Got o n lo c ws0 (winsList slice)) (hgr : Got o n lo c ws0 (wins rv)) :
    Post m o n lo ws0 (sliceLoop D z es b f c slice rv) (sliceLoop D' z es b f c (viewList m slice) (view m rv)) := by
  induction f generalizing c slice rv with
  | zero => exact post_div hrv hgr
  | succ f ih =>
    unfold sliceLoop
    refine post_ite (fun _ => post_err hrv hgr) fun _ => post_onOk hrv hgr ?_
    rintro ⟨i, c1⟩ hi
    have hp : c < c1 := by obtain ⟨_, -, -, -, h⟩ := readInt_sound hi; omega
    refine post_ite (fun _ => post_err hrv hgr) fun _ => ?_
    have hlen : (viewList m slice).length = slice.length := by rw [viewList_map, List.length_map]
    simp only [hlen]
    refine post_ite (fun _ => post_panic hrv hgr) fun _ => ?_
    generalize hsl : (if decide (i ≥ slice.length) = true then slice ++ List.replicate (i + 1 - slice.length) z else slice) = sl
    have hsv : (if decide (i ≥ slice.length) = true then viewList m slice ++ List.replicate (i + 1 - slice.length) z else viewList m slice) = viewList m sl := by
      rw [← hsl]
      split
      · rw [viewList_append, viewList_replicate hz]
      · rfl
    have hsf : HeldFreeList sl := by
      rw [← hsl]
      split
      · rw [heldFreeList_iff] at hs ⊢
        intro v hv
        rcases List.mem_append.1 hv with hv | hv
        · exact hs v hv
        · rw [(List.mem_replicate.1 hv).2]; exact heldFree_of_nil hz
      · exact hs
    have hsw : winsList sl = winsList slice := by
      rw [← hsl]
      split
      · rw [winsList_append, winsList_replicate hz, List.append_nil]
      · rfl
    rw [hsv]
    clear hsv
    have hgs1 : Got o n lo c ws0 (winsList sl) := by rw [hsw]; exact hgs
    rw [viewList_map, List.getElem?_map]
    rcases hget : sl[i]? with _ | v0
    · exact post_panic hrv hgr
    · simp only [Option.map_some]
      have hv0 : HeldFree v0 := heldFreeList_iff.1 hsf v0 (List.mem_of_getElem? hget)
      obtain ⟨h1, h2, e, he, h3⟩ := hD c1 v0 hv0
      rw [h1]
      generalize D c1 v0 = x at h2 he h3
      obtain ⟨v, r⟩ := x
      have hset : (sl.map (view m)).set i (view m v) = viewList m (sl.set i v) := by rw [viewList_map, List.map_set]
      simp only [hset]
      have hsf' : HeldFreeList (sl.set i v) := heldFree_set hsf h2
      have hg' : Got o n lo e ws0 (winsList (sl.set i v)) := hgs1.part hp h3 fun w => Nat.le_of_eq (count_set hget w)
      have hfail : HeldFree (if decide (i ≥ slice.length) = true then rv else .slice (sl.set i v)) ∧
          Got o n lo e ws0 (wins (if decide (i ≥ slice.length) = true then rv else .slice (sl.set i v))) ∧
          (if decide (i ≥ slice.length) = true then view m rv else .slice (viewList m (sl.set i v))) =
            view m (if decide (i ≥ slice.length) = true then rv else .slice (sl.set i v)) := by
        split
        · exact ⟨hrv, hgr.mono (by have := h3.1; omega), rfl⟩
        · exact ⟨hsf', hg', rfl⟩
      rw [hfail.2.2]
      refine post_onOk hfail.1 hfail.2.1 ?_
      rintro c2 rfl
      obtain rfl := he c2 rfl
      have hrv' : HeldFree (.slice (sl.set i v)) := hsf'
      exact post_ite (fun _ => post_err hrv' hg') fun _ => post_onOk hrv' hg' fun y _ => post_ite (fun _ => post_ok hrv' hg' (by omega)) fun _ =>
        ih hsf' hrv' hg' hg'

theorem readLengthInt_le {c c' : Nat} {k : Int} (h : readLengthInt b c = .ok (k, c')) : c ≤ c' := by
  obtain ⟨_, _, -, -, -, h⟩ := readLength_sound h
  omega

theorem sliceDecode_post {D D' : Nat → Nat → Val → DR} {d : Nat} (hD : d + 1 ≤ maxDepth → PostDec m o n (fun c => D c (d + 1)) (fun c => D' c (d + 1))) {z : Val} (hz : wins z = [])
    {es c : Nat} {v : Val} (hv : HeldFree v) : Post m o n c (wins v) (sliceDecode D z es b c d v) (sliceDecode D' z es b c d (view m v)) := by
  unfold sliceDecode
  have hnil : ∀ k, Post m o n c (wins v) (.sliceNil, .ok (c + k)) (.sliceNil, .ok (c + k)) := fun k =>
    post_ok (c := c) (v := .sliceNil) trivial (Got.drop (Nat.le_refl _) rfl) (by omega)
  refine post_ite (fun _ => post_err hv Got.refl) fun _ => post_ite (fun _ => post_err hv Got.refl) fun hdp => post_onOk hv Got.refl fun x _ =>
    post_ite (fun _ => post_onOk hv Got.refl fun _ _ => hnil 2) fun _ => post_ite (fun _ => ?_) fun _ =>
    post_ite (fun _ => post_err hv Got.refl) fun _ => post_err hv Got.refl
  refine post_ite (fun _ => post_err hv Got.refl) fun _ => post_onOk hv Got.refl fun _ _ => post_ite (fun _ => post_err hv Got.refl) fun _ =>
    post_ite (fun _ => post_err hv Got.refl) fun _ => post_onOk hv Got.refl fun _ _ => post_ite (fun _ => post_onOk hv Got.refl fun _ _ => hnil 6) fun _ =>
    post_onOk hv Got.refl ?_
  rintro ⟨k, c1⟩ hk
  have := readLengthInt_le hk
  exact post_ite (fun _ => post_err hv Got.refl) fun _ => post_onOk hv Got.refl fun _ _ => post_ite (fun _ => post_err hv Got.refl) fun _ =>
    post_ite (fun _ => post_panic hv Got.refl) fun _ => sliceLoop_post (hD (by omega)) hz trivial hv (Got.drop (by omega) rfl) (Got.refl.mono (by omega))

theorem arrayLoop_post {D D' : Nat → Val → DR} {skip : Nat → Res Nat} (hD : PostDec m o n D D') (hskip : ∀ c c', skip c = .ok c' → c ≤ c') {f c : Nat} {vs : List Val}
    (hs : HeldFreeList vs) (hg : Got o n lo c ws0 (winsList vs)) :
    Post m o n lo ws0 (arrayLoop D skip b f c vs) (arrayLoop D' skip b f c (viewList m vs)) := by
  induction f generalizing c vs with
  | zero => exact post_div (v := .arr vs) hs hg
  | succ f ih =>
    have hs1 : HeldFree (.arr vs) := hs
    have hg1 : Got o n lo c ws0 (wins (.arr vs)) := hg
    unfold arrayLoop
    refine post_ite (fun _ => post_err hs1 hg1) fun _ => post_onOk hs1 hg1 ?_
    rintro ⟨i, c1⟩ hi
    have hp : c < c1 := by obtain ⟨_, -, -, -, h⟩ := readInt_sound hi; omega
    refine post_ite (fun _ => post_err hs1 hg1) fun _ => ?_
    have cont : ∀ vs' r e, HeldFreeList vs' → Got o n lo e ws0 (winsList vs') → (∀ c', r = .ok c' → c' = e) → Post m o n lo ws0
        (onOk (.arr vs') r fun c =>
          if !hasByte b c then (.arr vs', .err (.unexpectedEnd "array" c)) else
          onOk (.arr vs') (idx b c) fun b' =>
          if b' = cRBrace then (.arr vs', .ok (c + 1)) else arrayLoop D skip b f c vs')
        (onOk (.arr (viewList m vs')) r fun c =>
          if !hasByte b c then (.arr (viewList m vs'), .err (.unexpectedEnd "array" c)) else
          onOk (.arr (viewList m vs')) (idx b c) fun b' =>
          if b' = cRBrace then (.arr (viewList m vs'), .ok (c + 1)) else arrayLoop D' skip b f c (viewList m vs')) := by
      intro vs' r e hs' hg' he
      have hs1' : HeldFree (.arr vs') := hs'
      have hg1' : Got o n lo e ws0 (wins (.arr vs')) := hg'
      refine post_onOk hs1' hg1' ?_
      rintro c2 rfl
      obtain rfl := he c2 rfl
      exact post_ite (fun _ => post_err hs1' hg1') fun _ => post_onOk hs1' hg1' fun y _ => post_ite (fun _ => post_ok hs1' hg1' (by omega)) fun _ => ih hs' hg'
    have hget' : (viewList m vs)[i]? = vs[i]?.map (view m) := by rw [viewList_map, List.getElem?_map]
    rw [hget']
    rcases hget : vs[i]? with _ | v0
    · rcases hk : skip c1 with c2 | _ | _ | _
      · exact cont vs _ c2 hs (hg.mono (by have := hskip _ _ hk; omega)) (by simp)
      all_goals exact cont vs _ c hs hg (by simp)
    · have hv0 : HeldFree v0 := heldFreeList_iff.1 hs v0 (List.mem_of_getElem? hget)
      obtain ⟨h1, h2, e, he, h3⟩ := hD c1 v0 hv0
      simp only [Option.map_some]
      rw [h1]
      generalize D c1 v0 = x at h2 he h3
      obtain ⟨v, r⟩ := x
      have hset : (viewList m vs).set i (view m v) = viewList m (vs.set i v) := by simp only [viewList_map, List.map_set]
      have := cont (vs.set i v) r e (heldFree_set hs h2) (hg.part hp h3 fun w => Nat.le_of_eq (count_set hget w)) he
      rw [← hset] at this
      exact this

theorem arrayDecode_post {D D' : Nat → Nat → Val → DR} {d : Nat} (hb : b.length < 2 ^ 63) (hD : d + 1 ≤ maxDepth → PostDec m o n (fun c => D c (d + 1)) (fun c => D' c (d + 1))) {z : Val} (hz : wins z = [])
    {k c : Nat} {v : Val} (hv : HeldFree v) : Post m o n c (wins v) (arrayDecode D z k b c d v) (arrayDecode D' z k b c d (view m v)) := by
  unfold arrayDecode
  refine post_ite (fun _ => post_err hv Got.refl) fun _ => post_ite (fun _ => post_err hv Got.refl) fun hdp => post_onOk hv Got.refl fun x _ =>
    post_ite (fun _ => post_onOk hv Got.refl fun _ _ => post_ok hv Got.refl (by omega)) fun _ => post_ite (fun _ => ?_) fun _ => post_err hv Got.refl
  refine post_ite (fun _ => post_err hv Got.refl) fun _ => post_onOk hv Got.refl fun _ _ => post_ite (fun _ => post_err hv Got.refl) fun _ => ?_
  have hzw : wins (.arr (List.replicate k z)) = [] := winsList_replicate hz k
  have hzl : viewList m (List.replicate k z) = List.replicate k z := viewList_replicate hz k
  have hh : HeldFreeList (List.replicate k z) := heldFreeList_of_nil hzw
  have hloop : ∀ c', c ≤ c' → Post m o n c (wins v)
      (arrayLoop (fun c v => D c (d + 1) v) (fun c => skipValue b c (d + 1)) b (b.length + 1) c' (List.replicate k z))
      (arrayLoop (fun c v => D' c (d + 1) v) (fun c => skipValue b c (d + 1)) b (b.length + 1) c' (List.replicate k z)) := by
    intro c' hc
    have := arrayLoop_post (m := m) (o := o) (n := n) (lo := c) (ws0 := wins v) (b := b) (f := b.length + 1) (c := c') (skip := fun c => skipValue b c (d + 1))
      (hD (by omega)) (fun _ _ h => by have := (skip_progress hb (by omega) h).1; omega) hh (Got.drop hc hzw)
    rwa [hzl] at this
  generalize List.replicate k z = zs at *
  refine post_ite (fun _ => post_err' hzw) fun _ => post_onOk' hzw fun _ _ => post_ite (fun _ => post_onOk' hzw fun _ _ => post_ok' hzw (by omega)) fun _ =>
    post_onOk' hzw ?_
  rintro ⟨k, c1⟩ hk
  have := readLengthInt_le hk
  exact post_ite (fun _ => post_err' hzw) fun _ => post_onOk' hzw fun _ _ => post_ite (fun _ => post_err' hzw) fun _ => hloop _ (by omega)

theorem mapLoop_post {keyDec valDec valDec' : Nat → DR} (hk : ∀ c, Dry c (keyDec c)) (hkl : ∀ c c', (keyDec c).2 = .ok c' → c < c') (hv : ∀ c, Post m o n c [] (valDec c) (valDec' c)) {f c : Nat} {es : List (Val × Val)}
    (hes : HeldFreeEntries es) (hg : Got o n lo c ws0 (winsEntries es)) :
    Post m o n lo ws0 (mapLoop keyDec valDec b f c es) (mapLoop keyDec valDec' b f c (viewEntries m es)) := by
  induction f generalizing c es with
  | zero => exact post_div (v := .map es) hes hg
  | succ f ih =>
    have hes1 : HeldFree (.map es) := hes
    have hg1 : Got o n lo c ws0 (wins (.map es)) := hg
    unfold mapLoop
    refine post_ite (fun _ => post_err hes1 hg1) fun _ => ?_
    rcases hk1 : keyDec c with ⟨k, r⟩
    have h1 := hk c; rw [hk1] at h1
    refine post_onOk hes1 hg1 ?_
    rintro c1 rfl
    refine post_ite (fun _ => post_err hes1 hg1) fun _ => ?_
    obtain ⟨h2, h3, e, he, h4⟩ := hv c1
    rw [h2]
    rcases hv1 : valDec c1 with ⟨v, r⟩
    rw [hv1] at h3 he h4
    refine post_onOk hes1 hg1 ?_
    rintro c2 rfl
    obtain rfl := he c2 rfl
    have p1 := hkl c c1 (by rw [hk1])
    have hes' : HeldFreeEntries (mapInsert k v es) := heldFree_insert hes (heldFree_of_nil h1.1) h3
    have hg' : Got o n lo c2 ws0 (winsEntries (mapInsert k v es)) := hg.part p1 h4 fun w => by
      have := count_insert k v es w
      rw [h1.1] at this
      simpa using this
    have hins : mapInsert k (view m v) (viewEntries m es) = viewEntries m (mapInsert k v es) := by rw [mapInsert_view, view_eq_self h1.1]
    dsimp only
    rw [hins]
    refine post_ite (fun _ => post_panic hes1 hg1) fun _ => ?_
    have hes1' : HeldFree (.map (mapInsert k v es)) := hes'
    exact post_ite (fun _ => post_err hes1' hg') fun _ => post_onOk hes1' hg' fun y _ => post_ite (fun _ => post_ok hes1' hg' (by omega)) fun _ => ih hes' hg'

theorem mapDecode_post (hb : b.length < 2 ^ 63) {keyDec valDec valDec' : Nat → Nat → DR} {c d : Nat} {v : Val} (hk : ∀ c, d + 1 ≤ maxDepth → Dry c (keyDec c (d + 1)))
    (hkl : ∀ c c', d + 1 ≤ maxDepth → (keyDec c (d + 1)).2 = .ok c' → c < c') (hval : ∀ c, d + 1 ≤ maxDepth → Post m o n c [] (valDec c (d + 1)) (valDec' c (d + 1))) (hv : HeldFree v) :
    Post m o n c (wins v) (mapDecode keyDec valDec b c d v) (mapDecode keyDec valDec' b c d (view m v)) := by
  unfold mapDecode
  refine post_ite (fun _ => post_err hv Got.refl) fun _ => post_ite (fun _ => post_err hv Got.refl) fun hdp => post_onOk hv Got.refl fun x hx => ?_
  refine post_ite (fun _ => post_onOk hv Got.refl fun _ _ => post_ok' rfl (by omega)) fun _ => post_onOk hv Got.refl fun c1 hh => ?_
  have p1 := header_progress hb hx hh
  refine post_onOk hv Got.refl ?_
  rintro ⟨cnt, c2⟩ hm
  obtain ⟨_, _, -, -, -, p2⟩ := readLength_sound hm
  refine post_ite (fun _ => post_err hv Got.refl) fun _ => post_onOk hv Got.refl fun _ _ => post_ite (fun _ => post_err hv Got.refl) fun _ => ?_
  have hme : mapEntries (view m v) = (mapEntries v).map (viewEntries m) := by cases v <;> rfl
  rw [hme]
  rcases he : mapEntries v with _ | es
  · exact post_panic hv Got.refl
  · have hes : HeldFreeEntries es ∧ winsEntries es = wins v := by
      cases v <;> simp [mapEntries] at he
      · subst he; exact ⟨trivial, rfl⟩
      · subst he; exact ⟨hv, rfl⟩
    have hes1 : HeldFree (.map es) := hes.1
    have hg : Got o n c c (wins v) (wins (.map es)) := by simp only [wins, hes.2]; exact Got.refl
    exact post_ite (fun _ => post_err hes1 hg) fun _ => post_onOk hes1 hg fun _ _ => post_ite (fun _ => post_ok hes1 hg (by omega)) fun _ =>
      mapLoop_post (fun c => hk c (by omega)) (fun c c' => hkl c c' (by omega)) (fun c => hval c (by omega)) hes.1 (hg.mono (by omega))

theorem structLoop_post (hb : b.length < 2 ^ 63) {sets : List FieldSet} {D D' : FieldSet → Nat → Val → DR} {skip : Nat → Res Nat} (hD : ∀ s, PostDec m o n (D s) (D' s))
    (hskip : ∀ c c', skip c = .ok c' → c ≤ c') {f c : Nat} {vs : List Val} (hs : HeldFreeList vs) (hg : Got o n lo c ws0 (winsList vs)) :
    Post m o n lo ws0 (structLoop sets D skip b f c vs) (structLoop sets D' skip b f c (viewList m vs)) := by
  induction f generalizing c vs with
  | zero => exact post_div (v := .struct vs) hs hg
  | succ f ih =>
    have hs1 : HeldFree (.struct vs) := hs
    have hg1 : Got o n lo c ws0 (wins (.struct vs)) := hg
    unfold structLoop
    refine post_ite (fun _ => post_err hs1 hg1) fun _ => post_onOk hs1 hg1 ?_
    rintro ⟨fld, c1⟩ hi
    have hp : c < c1 := by
      simp only [decodeKey, Res.bind_eq_ok, Res.ok.injEq, Prod.mk.injEq] at hi
      obtain ⟨⟨ob, c'⟩, h, -, rfl⟩ := hi
      have := (stringBytes_progress hb h).1
      omega
    refine post_ite (fun _ => post_err hs1 hg1) fun _ => ?_
    have cont : ∀ vs' r e, HeldFreeList vs' → Got o n lo e ws0 (winsList vs') → (∀ c', r = .ok c' → c' = e) → Post m o n lo ws0
        (onOk (.struct vs') r fun c =>
          if !hasByte b c then (.struct vs', .err (.unexpectedEnd "object" c)) else
          onOk (.struct vs') (idx b c) fun b' =>
          if b' = cRBrace then (.struct vs', .ok (c + 1)) else structLoop sets D skip b f c vs')
        (onOk (.struct (viewList m vs')) r fun c =>
          if !hasByte b c then (.struct (viewList m vs'), .err (.unexpectedEnd "object" c)) else
          onOk (.struct (viewList m vs')) (idx b c) fun b' =>
          if b' = cRBrace then (.struct (viewList m vs'), .ok (c + 1)) else structLoop sets D' skip b f c (viewList m vs')) := by
      intro vs' r e hs' hg' he
      have hs1' : HeldFree (.struct vs') := hs'
      have hg1' : Got o n lo e ws0 (wins (.struct vs')) := hg'
      refine post_onOk hs1' hg1' ?_
      rintro c2 rfl
      obtain rfl := he c2 rfl
      exact post_ite (fun _ => post_err hs1' hg1') fun _ => post_onOk hs1' hg1' fun y _ => post_ite (fun _ => post_ok hs1' hg1' (by omega)) fun _ => ih hs' hg'
    rcases fld with _ | s
    · rcases hk : skip c1 with c2 | _ | _ | _
      · exact cont vs (.ok c2) c2 hs (hg.mono (by have := hskip _ _ hk; omega)) (by simp)
      · exact cont vs (.err _) c hs hg (by simp)
      · exact cont vs (.panic _) c hs hg (by simp)
      · exact cont vs .diverge c hs hg (by simp)
    · have hget' : (viewList m vs)[s.idx]? = vs[s.idx]?.map (view m) := by rw [viewList_map, List.getElem?_map]
      dsimp only
      rw [hget']
      rcases hget : vs[s.idx]? with _ | v0
      · exact post_panic hs1 hg1
      · have hv0 : HeldFree v0 := heldFreeList_iff.1 hs v0 (List.mem_of_getElem? hget)
        obtain ⟨h1, h2, e, he, h3⟩ := hD s c1 v0 hv0
        simp only [Option.map_some]
        rw [h1]
        generalize D s c1 v0 = x at h2 he h3
        obtain ⟨v, r⟩ := x
        have hset : (viewList m vs).set s.idx (view m v) = viewList m (vs.set s.idx v) := by simp only [viewList_map, List.map_set]
        have := cont (vs.set s.idx v) r e (heldFree_set hs h2) (hg.part hp h3 fun w => Nat.le_of_eq (count_set hget w)) he
        rw [← hset] at this
        exact this

theorem structDecode_post (hb : b.length < 2 ^ 63) {sets : List FieldSet} {D D' : FieldSet → Nat → Nat → Val → DR} {d c : Nat}
    (hD : d + 1 ≤ maxDepth → ∀ s, PostDec m o n (fun c => D s c (d + 1)) (fun c => D' s c (d + 1))) {v : Val} (hv : HeldFree v) :
    Post m o n c (wins v) (structDecode sets D b c d v) (structDecode sets D' b c d (view m v)) := by
  unfold structDecode
  refine post_ite (fun _ => post_err hv Got.refl) fun _ => post_ite (fun _ => post_err hv Got.refl) fun hdp => post_onOk hv Got.refl fun x hx => ?_
  refine post_ite (fun _ => post_onOk hv Got.refl fun _ _ => post_ok hv Got.refl (by omega)) fun _ => post_onOk hv Got.refl fun c1 hh => ?_
  have p1 := header_progress hb hx hh
  refine post_ite (fun _ => post_err hv Got.refl) fun _ => post_onOk hv Got.refl fun _ _ => post_ite (fun _ => post_err hv Got.refl) fun _ =>
    post_onOk hv Got.refl fun c2 hm => ?_
  obtain ⟨_, -, -, p2⟩ := skipLen_sound hm
  refine post_ite (fun _ => post_err hv Got.refl) fun _ => post_onOk hv Got.refl fun _ _ => post_ite (fun _ => post_err hv Got.refl) fun _ =>
    post_ite (fun _ => post_err hv Got.refl) fun _ => post_onOk hv Got.refl fun _ _ => post_ite (fun _ => post_ok hv Got.refl (by omega)) fun _ => ?_
  cases v with
  | struct vs => exact structLoop_post hb (hD (by omega)) (fun _ _ h => by have := (skip_progress hb (by omega) h).1; omega) hv (Got.refl.mono (by omega))
  | _ => exact post_panic hv Got.refl

theorem str_window {b : Bytes} {c e : Nat} {l s : Bytes} (h : At b c (.str l s) e) :
    c < e - 2 - s.length ∧ e - 2 - s.length + s.length < e ∧ e - 2 - s.length + s.length ≤ b.length ∧ (b.drop (e - 2 - s.length)).take s.length = s := by
  obtain ⟨hd, he⟩ := h
  simp only [Doc.text, List.length_cons, List.length_append, List.length_nil, List.append_assoc, List.cons_append, List.nil_append] at hd he
  have hl := congrArg List.length hd
  simp only [List.length_drop, List.length_cons, List.length_append] at hl
  refine ⟨by omega, by omega, by omega, ?_⟩
  have h1 : e - 2 - s.length = c + (l.length + 4) := by omega
  rw [h1, ← List.drop_drop, hd]
  have h2 : ∀ r, (115 :: 58 :: (l ++ 58 :: 34 :: (s ++ r)) : Bytes) = (115 :: 58 :: (l ++ [58, 34])) ++ (s ++ r) := by simp
  have h3 : l.length + 4 = (115 :: 58 :: (l ++ [58, 34]) : Bytes).length := by simp
  rw [h2, h3, List.drop_left, List.take_left]

theorem bytesDecodeAt_post (hb : b.length < 2 ^ 63) (hm : m.getD o [] = b) {D D' : Nat → Nat → Val → DR} {d : Nat}
    (hD : d + 1 ≤ maxDepth → PostDec m o b.length (fun c => D c (d + 1)) (fun c => D' c (d + 1))) {z : Val} (hz : wins z = []) {c : Nat} {v : Val} (hv : HeldFree v) :
    Post m o b.length c (wins v) (bytesDecodeAt o D z b c d v) (bytesDecode D' z b c d (view m v)) := by
  unfold bytesDecodeAt bytesDecode
  refine post_onOk hv Got.refl fun x _ => post_ite (fun _ => sliceDecode_post hD hz hv) fun _ => post_onOk hv Got.refl ?_
  rintro ⟨ob, c'⟩ h
  have hp := (stringBytes_progress hb h).1
  rcases (stringBytes_iff hb).1 h with ⟨rfl, -⟩ | ⟨l, s, rfl, -, hat⟩
  · exact post_ok hv Got.refl (by omega)
  · obtain ⟨h1, h2, h3, h4⟩ := str_window hat
    refine ⟨?_, trivial, c', by simp, by omega, [⟨o, c' - 2 - s.length, s.length⟩], ⟨by simp, ?_⟩, ?_⟩
    · simp only [view, Arrays.read, hm, h4]
    · intro w hw
      rw [List.mem_singleton] at hw
      subst hw
      exact ⟨rfl, Nat.le_of_lt h1, Nat.le_of_lt h2, h3⟩
    · intro w
      simp only [wins]
      omega

theorem sub_window {b src : Bytes} {c e : Nat} (hs : sub b c e = .ok src) : c + src.length = e ∧ e ≤ b.length ∧ (b.drop c).take src.length = src := by
  unfold sub at hs
  split at hs
  · rename_i hle
    cases hs
    have hl : ((b.drop c).take (e - c)).length = e - c := by simp only [List.length_take, List.length_drop]; omega
    exact ⟨by omega, hle.2, by rw [hl]⟩
  · cases hs

theorem unmarshalDecodeAt_post (hb : b.length < 2 ^ 63) (hm : m.getD o [] = b) {W : World} (hW : Keeping W) {id c d : Nat} (hd : d ≤ maxDepth) {v : Val} (hv : HeldFree v) :
    Post m o b.length c (wins v) (unmarshalDecodeAt W id o b c d v) (unmarshalDecode W id b c d (view m v)) := by
  unfold unmarshalDecodeAt unmarshalDecode
  refine post_onOk hv Got.refl fun e he => post_onOk hv Got.refl fun src hs => ?_
  have hp := (skip_progress hb hd he).1
  obtain ⟨h1, h2, h3⟩ := sub_window hs
  obtain ⟨doc, -, hat⟩ := (skipValue_ok_iff hb hd).1 he
  have hat : At b c doc e := hat
  have hq : src.head? ≠ some 34 := by
    rw [← h3, List.head?_take, if_neg (by omega), hat.1]
    cases doc <;> simp [Doc.text]
  refine post_ite (fun _ => post_err hv Got.refl) fun _ => post_ite (fun _ => post_err hv Got.refl) fun _ => post_ite (fun _ => post_err hv Got.refl) fun _ =>
    post_ite (fun _ => post_ok' (hW.zero (.named id)) (by omega)) fun _ => post_onOk hv Got.refl fun a ha => ?_
  have : a = none := by
    unfold unquoteBytes at ha
    rw [if_pos (.inr (.inl hq))] at ha
    cases ha
    rfl
  subst this
  refine post_onOk hv Got.refl fun u hu => ?_
  have hu : W.unmarshal id src = .ok u := Res.mapErr_eq_ok.1 hu
  refine ⟨?_, hW.held _ _ _ hu o c, e, by simp, by omega, wins (W.kept id o c src u), ⟨hW.apart _ _ _ hu o c, fun w hw => ?_⟩, fun w => by dsimp only [Option.getD]; omega⟩
  · have := hW.same _ _ _ hu m o c (by unfold Arrays.read; rw [hm, h3])
    dsimp only [Option.getD]
    rw [this]
  · obtain ⟨e1, e2, e3⟩ := hW.inside _ _ _ hu o c w hw
    exact ⟨e1, e2, by omega, by omega⟩

theorem ifaceDecode_post (hb : b.length < 2 ^ 63) {W : World} (hW : Keeping W) {c d : Nat} (hd : d ≤ maxDepth) {v : Val} (hv : HeldFree v) :
    Post m o n c (wins v) (ifaceDecode W b c d v) (ifaceDecode W b c d (view m v)) := by
  by_cases hi : ∃ t u, v = .iface t u
  · obtain ⟨t, u, rfl⟩ := hi
    have hw : wins (.iface t u) = [] := hv
    rw [view_eq_self hw]
    exact post_dry (ifaceDecode_dry hb hW hd hw)
  · have key : ∀ v : Val, (¬ ∃ t u, v = .iface t u) → ifaceDecode W b c d v =
        onOk v (idx b c) fun x => if x = cN then onOk v (validateNull b c) fun _ => (.ifaceNil, .ok (c + 2)) else (v, .err (.typeError "interface" c)) := by
      intro v h
      unfold ifaceDecode
      cases v with
      | iface t u => exact absurd ⟨t, u, rfl⟩ h
      | _ => rfl
    have hi' : ¬ ∃ t u, view m v = .iface t u := by
      rintro ⟨t, u, h⟩
      cases v <;> simp [view, bytesVal] at h
      exact hi ⟨_, _, rfl⟩
    rw [key v hi, key _ hi']
    exact post_onOk hv Got.refl fun _ _ => post_ite (fun _ => post_onOk hv Got.refl fun _ _ => post_ok' rfl (by omega)) fun _ => post_err hv Got.refl

theorem decodeAt_any {W : World} {f : Nat} : decodeAt W o b f .any = decodeF W b f .any := by
  induction f with
  | zero => rfl
  | succ f ih =>
    funext c d v
    have h1 : decodeAt W o b (f + 1) .any c d v = anyDecode W (fun c d => decodeAt W o b f .any c d .ifaceNil) b c d v := rfl
    have h2 : decodeF W b (f + 1) .any c d v = anyDecode W (fun c d => decodeF W b f .any c d .ifaceNil) b c d v := rfl
    rw [h1, h2, ih]

theorem decodeF_any_dry (hb : b.length < 2 ^ 63) {W : World} {f c d : Nat} {v : Val} (hv : wins v = []) : Dry c (decodeF W b f .any c d v) := by
  induction f generalizing c d v with
  | zero => exact dry_div hv
  | succ f ih =>
    have h : decodeF W b (f + 1) .any c d v = anyDecode W (fun c d => decodeF W b f .any c d .ifaceNil) b c d v := rfl
    rw [h]
    have ha : ∀ c, d + 1 ≤ maxDepth → Dry c (decodeF W b f .any c (d + 1) .ifaceNil) := fun _ _ => ih rfl
    exact Leaf.dry (D := anyDecode W (fun c d => decodeF W b f .any c d .ifaceNil) b c d) (anyDecode_leaf (anyDec := fun c d => decodeF W b f .any c d .ifaceNil) hb ha) hv

theorem fieldDecode_post (hb : b.length < 2 ^ 63) {W : World} (hW : Keeping W) {R R' : Ty → Nat → Nat → Val → DR} {d : Nat} (hR : ∀ t, PostDec m o n (fun c => R t c d) (fun c => R' t c d)) (s : FieldSet) :
    PostDec m o n (fun c => fieldDecode W R b s c d) (fun c => fieldDecode W R' b s c d) := by
  intro c v hv
  dsimp only
  unfold fieldDecode
  refine post_ite (fun _ => ?_) fun _ => hR s.ty c v hv
  split
  · exact post_ite (fun _ => ptrDecode_post (fun c v hv => (wrappedDecode_leaf hb _).post hv) (hW.zero _) hv) fun _ => post_err hv Got.refl
  · exact post_ite (fun _ => (wrappedDecode_leaf hb _).post hv) fun _ => post_err hv Got.refl

theorem decodeNonPtrAt_post (hm : m.getD o [] = b) (hb : b.length < 2 ^ 63) {W : World} (hW : Keeping W) {R R' : Ty → Nat → Nat → Val → DR}
    (hR : ∀ t d, d ≤ maxDepth → PostDec m o b.length (fun c => R t c d) (fun c => R' t c d)) (hany : R .any = R' .any) (hdry : ∀ c d v, wins v = [] → Dry c (R' .any c d v))
    (hsound : ∀ c d v v' c', d ≤ maxDepth → R' .any c d v = (v', .ok c') → ∃ doc, At b c doc c' ∧ DecDoc W .any (maxDepth - d) doc v v')
    {t : Ty} {d : Nat} (hd : d ≤ maxDepth) : PostDec m o b.length (fun c => decodeNonPtrAt W o R b t c d) (fun c => decodeNonPtr W R' b t c d) := by
  intro c v hv
  dsimp only
  unfold decodeNonPtrAt decodeNonPtr
  rw [hany]
  have hkd : ∀ c k, d + 1 ≤ maxDepth → Dry c (keyDecode W (fun c d => R' .any c d .ifaceNil) b k c (d + 1)) := fun c k h =>
    keyDecode_dry hb hW h fun c _ => hdry _ _ _ rfl
  rcases W.unmOf t with _ | id
  · cases W.resolve t with
    | bool => exact boolDecode_leaf.post hv
    | int k => exact (intDecode_leaf k).post hv
    | uint k => exact (uintDecode_leaf k).post hv
    | f32 => exact (floatDecode_leaf true).post hv
    | f64 => exact (floatDecode_leaf false).post hv
    | str => exact (stringDecode_leaf hb).post hv
    | slice e => exact post_ite (fun _ => bytesDecodeAt_post hb hm (hR e _) (hW.zero e) hv) fun _ => sliceDecode_post (hR e _) (hW.zero e) hv
    | array n e => exact arrayDecode_post hb (hR e _) (hW.zero e) hv
    | map k e =>
      refine mapDecode_post hb (fun c h => hkd c k h) (fun c c' h hk => ?_) (fun c h => ?_) hv
      · generalize hx : keyDecode W (fun c d => R' .any c d .ifaceNil) b k c (d + 1) = x at hk
        obtain ⟨x1, x2⟩ := x
        cases hk
        obtain ⟨doc, hat, -⟩ := keyDecode_sound hb h (fun h' c v c' => hsound _ _ _ _ _ h') hx
        exact hat.lt'
      have := hR e _ h c (W.zero e) (heldFree_of_nil (hW.zero e))
      dsimp only at this
      rwa [view_eq_self (hW.zero e), hW.zero e] at this
    | struct id => exact structDecode_post hb (fun h s => fieldDecode_post hb hW (fun t => hR t _ h) s) hv
    | any => exact (anyDecode_leaf hb fun _ _ => hdry _ _ _ rfl).post hv
    | iface id => exact ifaceDecode_post hb hW hd hv
    | other => exact post_err hv Got.refl
    | ptr e => exact post_err hv Got.refl
    | named id => exact post_err hv Got.refl
  · exact unmarshalDecodeAt_post hb hm hW hd hv

theorem decodeAt_post (hm : m.getD o [] = b) (hb : b.length < 2 ^ 63) {W : World} (hW : Keeping W) (f : Nat) :
    ∀ t d, d ≤ maxDepth → PostDec m o b.length (fun c => decodeAt W o b f t c d) (fun c => decodeF W b f t c d) := by
  induction f with
  | zero => exact fun t d _ c v hv => post_div hv Got.refl
  | succ f ih =>
    have hn : ∀ t d, d ≤ maxDepth → PostDec m o b.length (fun c => decodeNonPtrAt W o (decodeAt W o b f) b t c d) (fun c => decodeNonPtr W (decodeF W b f) b t c d) :=
      fun t d hd => decodeNonPtrAt_post hm hb hW ih decodeAt_any (fun _ _ _ => decodeF_any_dry hb) (fun _ _ _ _ _ h => decodeF_sound hb h) hd
    intro t d hd c v hv
    dsimp only
    unfold decodeAt decodeF
    have h0 := hn t d hd c v hv
    cases W.unmOf t with
    | some id => exact h0
    | none =>
      cases W.resolve t with
      | ptr e => exact post_ite (fun _ => post_err hv Got.refl) fun _ => ptrDecode_post (hn e d hd) (hW.zero e) hv
      | _ => exact h0

end Post

/-! ### Changing memory -/

mutual
theorem view_congr {m m' : Arrays} : ∀ {v : Val}, (∀ w ∈ wins v, m'.read w.obj w.off w.len = m.read w.obj w.off w.len) → view m' v = view m v
  | .win o a n, h => by simp only [view]; rw [h ⟨o, a, n⟩ (by simp [wins])]
  | .slice vs, h => by simp only [wins] at h; simp only [view, viewList_congr h]
  | .arr vs, h => by simp only [wins] at h; simp only [view, viewList_congr h]
  | .struct vs, h => by simp only [wins] at h; simp only [view, viewList_congr h]
  | .map es, h => by simp only [wins] at h; simp only [view, viewEntries_congr h]
  | .ptr v, h => by simp only [wins] at h; simp only [view, view_congr h]
  | .iface _ v, h => by simp only [wins] at h; simp only [view, view_congr h]
  | .bool _, _ => rfl
  | .int _, _ => rfl
  | .uint _, _ => rfl
  | .f32 _, _ => rfl
  | .f64 _, _ => rfl
  | .str _, _ => rfl
  | .sliceNil, _ => rfl
  | .mapNil, _ => rfl
  | .ptrNil, _ => rfl
  | .ifaceNil, _ => rfl
  | .other, _ => rfl
theorem viewList_congr {m m' : Arrays} : ∀ {vs : List Val}, (∀ w ∈ winsList vs, m'.read w.obj w.off w.len = m.read w.obj w.off w.len) → viewList m' vs = viewList m vs
  | [], _ => rfl
  | v :: vs, h => by
    simp only [winsList, List.mem_append] at h
    simp only [viewList, view_congr fun w hw => h w (.inl hw), viewList_congr fun w hw => h w (.inr hw)]
theorem viewEntries_congr {m m' : Arrays} : ∀ {es : List (Val × Val)}, (∀ w ∈ winsEntries es, m'.read w.obj w.off w.len = m.read w.obj w.off w.len) →
    viewEntries m' es = viewEntries m es
  | [], _ => rfl
  | (k, v) :: es, h => by
    simp only [winsEntries, List.mem_append] at h
    simp only [viewEntries, view_congr fun w hw => h w (.inl (.inl hw)), view_congr fun w hw => h w (.inl (.inr hw)), viewEntries_congr fun w hw => h w (.inr hw)]
end

theorem getD_set {m : Arrays} {o i : Nat} {x : Bytes} : (m.set o x).getD i [] = if i = o ∧ o < m.length then x else m.getD i [] := by
  simp only [List.getD_eq_getElem?_getD, List.getElem?_set]
  by_cases h : o = i
  · subst h
    by_cases h2 : o < m.length
    · simp [h2]
    · simp [h2]
  · rw [if_neg h, if_neg fun h' => h h'.1.symm]

theorem read_write_other {m : Arrays} {o a i off len : Nat} {bs : Bytes} (h : i ≠ o ∨ off + len ≤ a ∨ a + bs.length ≤ off)
    (hin : a + bs.length ≤ (m.getD o []).length) : (write m o a bs).read i off len = m.read i off len := by
  unfold write Arrays.read
  rw [getD_set]
  split
  · rename_i hi
    obtain ⟨rfl, -⟩ := hi
    generalize m.getD i [] = x at *
    apply List.ext_getElem?
    intro j
    simp only [List.getElem?_take, List.getElem?_drop, List.getElem?_append, List.length_append, List.length_take]
    rcases h with h | h | h
    · exact absurd rfl h
    · by_cases hj : j < len
      · rw [if_pos hj, if_pos hj, if_pos (by omega), if_pos (by omega), if_pos (by omega)]
      · rw [if_neg hj, if_neg hj]
    · by_cases hj : j < len
      · rw [if_pos hj, if_pos hj, if_neg (by omega)]
        congr 1
        omega
      · rw [if_neg hj, if_neg hj]
  · rfl

theorem read_write_same {m : Arrays} {o a : Nat} {bs : Bytes} (ho : o < m.length) (hin : a + bs.length ≤ (m.getD o []).length) :
    (write m o a bs).read o a bs.length = bs := by
  unfold write Arrays.read
  rw [getD_set, if_pos ⟨rfl, ho⟩]
  generalize m.getD o [] = x at *
  have : (x.take a).length = a := by rw [List.length_take]; omega
  rw [List.append_assoc, List.drop_left' this, List.take_left]

theorem apart_symm {a b : Win} (h : Win.Apart a b) : Win.Apart b a := by
  rcases h with h | h | h
  · exact .inl (Ne.symm h)
  · exact .inr (.inr h)
  · exact .inr (.inl h)

theorem swap_mem {o a n : Nat} {y v v' : Val} (h : Swap (.win o a n) y v v') : (⟨o, a, n⟩ : Win) ∈ wins v := by
  have hl : ∀ {vs : List Val} {i : Nat} {v : Val}, vs[i]? = some v → (⟨o, a, n⟩ : Win) ∈ wins v → (⟨o, a, n⟩ : Win) ∈ winsList vs := by
    intro vs
    induction vs with
    | nil => simp
    | cons x xs ih =>
      intro i v hi hv
      cases i with
      | zero => simp at hi; subst hi; exact List.mem_append_left _ hv
      | succ i => exact List.mem_append_right _ (ih (by simpa using hi) hv)
  induction h with
  | here => simp [wins]
  | slice hi _ ih => exact hl hi ih
  | arr hi _ ih => exact hl hi ih
  | struct hi _ ih => exact hl hi ih
  | @map es k v v' i hi _ ih =>
    simp only [wins]
    clear hl
    induction es generalizing i with
    | nil => simp at hi
    | cons e es ih2 =>
      obtain ⟨k1, v1⟩ := e
      cases i with
      | zero => simp at hi; obtain ⟨rfl, rfl⟩ := hi; simp [winsEntries, ih]
      | succ i => exact List.mem_append_right _ (ih2 (by simpa using hi))
  | ptr _ ih => exact ih
  | iface _ ih => exact ih

/-- The part `win o a n` of `v` changes in memory, nothing else does. -/
theorem view_swap {m m' : Arrays} {o a n : Nat} {y : Val} (hy : view m' (.win o a n) = view m y)
    (ho : ∀ w : Win, Win.Apart ⟨o, a, n⟩ w → m'.read w.obj w.off w.len = m.read w.obj w.off w.len) {v v' : Val} (h : Swap (.win o a n) y v v')
    (hp : (wins v).Pairwise Win.Apart) : view m' v = view m v' := by
  have hl : ∀ {vs : List Val} {i : Nat} {v v' : Val}, vs[i]? = some v → (⟨o, a, n⟩ : Win) ∈ wins v → ((wins v).Pairwise Win.Apart → view m' v = view m v') →
      (winsList vs).Pairwise Win.Apart → viewList m' vs = viewList m (vs.set i v') := by
    intro vs
    induction vs with
    | nil => simp
    | cons x xs ih =>
      intro i v v' hi hv hvv hp
      simp only [winsList, List.pairwise_append] at hp
      cases i with
      | zero =>
        simp at hi
        subst hi
        simp only [List.set_cons_zero, viewList, hvv hp.1]
        rw [viewList_congr fun w hw => ho w (hp.2.2 _ hv _ hw)]
      | succ i =>
        simp only [List.set_cons_succ, viewList]
        have hi' : xs[i]? = some v := by simpa using hi
        rw [ih hi' hv hvv hp.2.1]
        have hmem : ∀ (vs : List Val) (i : Nat), vs[i]? = some v → (⟨o, a, n⟩ : Win) ∈ winsList vs := by
          intro vs
          induction vs with
          | nil => simp
          | cons z zs ihz =>
            intro i hi
            cases i with
            | zero => simp at hi; subst hi; exact List.mem_append_left _ hv
            | succ i => exact List.mem_append_right _ (ihz i (by simpa using hi))
        rw [view_congr fun w hw => ho w (apart_symm (hp.2.2 _ hw _ (hmem xs i hi')))]
  induction h with
  | here => exact hy
  | slice hi hs ih => simp only [view, hl hi (swap_mem hs) ih hp]
  | arr hi hs ih => simp only [view, hl hi (swap_mem hs) ih hp]
  | struct hi hs ih => simp only [view, hl hi (swap_mem hs) ih hp]
  | @map es k v v' i hi hs ih =>
    simp only [view]
    simp only [wins] at hp
    clear hl
    have hv := swap_mem hs
    have hmem : ∀ (es : List (Val × Val)) (i : Nat), es[i]? = some (k, v) → (⟨o, a, n⟩ : Win) ∈ winsEntries es := by
      intro es
      induction es with
      | nil => simp
      | cons z zs ihz =>
        intro i hi
        obtain ⟨k1, v1⟩ := z
        cases i with
        | zero => simp at hi; obtain ⟨rfl, rfl⟩ := hi; simp [winsEntries, hv]
        | succ i => exact List.mem_append_right _ (ihz i (by simpa using hi))
    congr 1
    induction es generalizing i with
    | nil => simp at hi
    | cons e es ih2 =>
      obtain ⟨k1, v1⟩ := e
      simp only [winsEntries, List.pairwise_append] at hp
      cases i with
      | zero =>
        simp at hi
        obtain ⟨rfl, rfl⟩ := hi
        simp only [List.set_cons_zero, viewEntries, ih hp.1.2.1]
        rw [view_congr fun w hw => ho w (apart_symm (hp.1.2.2 _ hw _ hv)), viewEntries_congr fun w hw => ho w (hp.2.2 _ (List.mem_append_right _ hv) _ hw)]
      | succ i =>
        simp only [List.set_cons_succ, viewEntries]
        have hi' : es[i]? = some (k, v) := by simpa using hi
        rw [ih2 hi' hp.2.1]
        rw [view_congr fun w hw => ho w (apart_symm (hp.2.2 _ (List.mem_append_left _ hw) _ (hmem es i hi'))),
          view_congr fun w hw => ho w (apart_symm (hp.2.2 _ (List.mem_append_right _ hw) _ (hmem es i hi')))]
  | ptr hs ih => simp only [view, ih hp]
  | iface hs ih => simp only [view, ih hp]

/-- `unmarshalAt` against `unmarshalInto`. -/
theorem unmarshalAt_post {W : World} (hW : Keeping W) {fuel : Nat} {m : Arrays} {inp off n : Nat} {t : Ty} {v : Val} (hb : (m.read inp off n).length < 2 ^ 63)
    (hv : HeldFree v) : ∃ v' r, unmarshalAt W fuel m inp off n t v = (m ++ [m.read inp off n], v', r) ∧
      unmarshalInto W fuel (m.read inp off n) t (view (m ++ [m.read inp off n]) v) = (view (m ++ [m.read inp off n]) v', r) ∧ HeldFree v' ∧
      ∃ e, Got m.length (m.read inp off n).length 0 e (wins v) (wins v') := by
  unfold unmarshalAt unmarshalInto
  dsimp only
  have hl : (m ++ [m.read inp off n]).length - 1 = m.length := by simp
  rw [hl]
  have hm : (m ++ [m.read inp off n]).getD m.length [] = m.read inp off n := by simp [List.getD_eq_getElem?_getD]
  generalize m.read inp off n = src at *
  obtain ⟨h1, h2, e, he, h3⟩ := decodeAt_post hm hb hW (src.length + 1) t 0 (by simp [maxDepth]) 0 v hv
  dsimp only at h1 h2 he h3
  rw [h1]
  cases compileD W fuel [] t with
  | ok _ =>
    refine ⟨(decodeAt W m.length src (src.length + 1) t 0 0 v).1, ?_⟩
    generalize decodeAt W m.length src (src.length + 1) t 0 0 v = x at *
    obtain ⟨x1, x2⟩ := x
    cases x2 with
    | ok c => exact ⟨_, rfl, rfl, h2, e, h3⟩
    | err c => exact ⟨_, rfl, rfl, h2, e, h3⟩
    | panic c => exact ⟨_, rfl, rfl, h2, e, h3⟩
    | diverge => exact ⟨_, rfl, rfl, h2, e, h3⟩
  | err c => exact ⟨v, _, rfl, rfl, hv, 0, Got.refl⟩
  | panic c => exact ⟨v, _, rfl, rfl, hv, 0, Got.refl⟩
  | diverge => exact ⟨v, _, rfl, rfl, hv, 0, Got.refl⟩

end Verif

import Verif.Proofs.MemKeep
import Verif.Proofs.Share
import Verif.Proofs.Twin
/-
Decoding into a well-typed memory has the outcome of decoding into any tree of the same type, whatever is shared.
-/
set_option linter.unusedSimpArgs false
namespace Verif
open Spec

/-- The same outcome, and if it is a success then the tree satisfies `T`. -/
def Alike {β : Type} (T : Val → Prop) (x : Mem × Res β) (y : Val × Res β) : Prop := x.2 = y.2 ∧ ∀ a, y.2 = .ok a → T y.1

section Combinators
variable {α β : Type} {T : Val → Prop} {m : Mem} {v : Val}

theorem alike_ok {a : β} (h : T v) : Alike T (m, .ok a) (v, .ok a) := ⟨rfl, fun _ _ => h⟩

theorem alike_err {e : Err} : Alike (β := β) T (m, .err e) (v, .err e) := ⟨rfl, fun _ h => nomatch h⟩

theorem alike_panic {p : Panic} : Alike (β := β) T (m, .panic p) (v, .panic p) := ⟨rfl, fun _ h => nomatch h⟩

theorem alike_diverge : Alike (β := β) T (m, .diverge) (v, .diverge) := ⟨rfl, fun _ h => nomatch h⟩

theorem alike_onOk {r : Res α} {k : α → Mem × Res β} {k' : α → Val × Res β} (h : ∀ x, r = .ok x → Alike T (k x) (k' x)) :
    Alike T (onOkM m r k) (onOk v r k') := by
  cases r with
  | ok a => exact h a rfl
  | err e => exact alike_err
  | panic p => exact alike_panic
  | diverge => exact alike_diverge

theorem alike_ite {c : Prop} [Decidable c] {x y : Mem × Res β} {x' y' : Val × Res β} (hx : c → Alike T x x') (hy : ¬ c → Alike T y y') :
    Alike T (if c then x else y) (if c then x' else y') := by
  split
  · exact hx ‹_›
  · exact hy ‹_›

theorem Alike.imp {E : Val → Prop} {x : Mem × Res β} {y : Val × Res β} (h : Alike E x y) (hw : ∀ v, E v → T v) : Alike T x y :=
  ⟨h.1, fun a ha => hw _ (h.2 a ha)⟩

end Combinators

/-- A decoder on memory and one on trees, for type `t`. -/
def Same (W : World) (D : Ty → Prop) (inp n : Nat) (t : Ty) (T T' : Val → Prop) (d : Loc → Mem → DM) (e : Val → DR) : Prop :=
  ∀ S l m v, TOk W D inp n S m → PlaceTy W S l t → T v → Alike T' (d l m) (e v)

/-- A decoder touches only its place and what references lead to from there. -/
def Local (inp : Nat) (d : Loc → Mem → DM) : Prop := ∀ X : Nat → Prop, X inp → ConfD X d

section Frame
variable {W : World} {D : Ty → Prop} {inp n : Nat} {S : List ObjTy} {m : Mem}

theorem refs_bytes {hs : List HV} (h : ∀ x ∈ hs, HvTy W D S (.uint .u8) x) : refsAll hs = [] := by
  induction hs with
  | nil => rfl
  | cons x hs ih =>
    have : refs x = [] := by
      have := h x List.mem_cons_self
      cases this <;> first | rfl | simp_all [World.resolve]
    simp only [refsAll, this, ih fun y hy => h y (List.mem_cons_of_mem _ hy), List.append_nil]

theorem refs_input {c : Cell} (h : CellTy W D S (.var (.array n (.uint .u8))) c) : refsOf c = [] := by
  cases h with
  | var h =>
    cases h with
    | arr h1 h2 h3 =>
      cases h1
      simp [refsOf, refs, refs_bytes h3]
    | _ => simp_all [World.resolve]

/-- Decoding into a new variable leaves all old objects but the copy of the input alone. -/
theorem Local.frame {d : Loc → Mem → DM} (hd : Local inp d) (h : TOk W D inp n S m) {z : HV} (hz : refs z = []) {a : Nat} (ha : a < m.length)
    (hi : a ≠ inp) : (d ⟨m.length, []⟩ (m.new (.var z))).1[a]? = m[a]? := by
  have hinp : inp < m.length := by rw [← h.mem.length]; exact (List.getElem?_eq_some_iff.1 h.inp).1
  have hinv : Inv (fun a => m.length ≤ a ∨ a = inp) ⟨m.length, []⟩ (m.new (.var z)) := by
    refine ⟨fun a ha => .inl (by rw [new_length] at ha; omega), ?_, ?_⟩
    · intro a c ha hc r hr
      rcases ha with ha | rfl
      · have := cell_lt hc
        rw [new_length] at this
        have : a = m.length := by omega
        subst this
        rw [new_new] at hc
        cases hc
        simp [refsOf, hz] at hr
      · rw [new_old hinp] at hc
        have hc' := h.mem.cells _ _ _ h.inp hc
        rw [refs_input hc'] at hr
        cases hr
    · intro g hg r hr
      rw [read_var, new_new] at hg
      cases hg
      simp [hz] at hr
  have h1 := (hd _ (.inr rfl) _ _ hinv).2.same a (fun e => e.elim (fun e => by omega) hi) (by show a ≠ m.length; omega)
  rw [h1, new_old ha]

theorem Local.grows {d : Loc → Mem → DM} (hd : Local inp d) {l : Loc} : m.length ≤ (d l m).1.length :=
  (hd (fun _ => True) trivial l m ⟨fun _ _ => trivial, fun _ _ _ _ _ _ => trivial, fun _ _ _ _ => trivial⟩).2.grows

end Frame

section Leaves
variable {W : World} {D : Ty → Prop} {inp n : Nat} {b : Bytes} {t e : Ty} {T : Val → Prop}

theorem scalarAt_same {dec : Val → DR} (hs : Scal dec) {l : Loc} {m : Mem} {v : Val} : Alike Anything (scalarAt dec l m) (dec v) := by
  unfold scalarAt
  obtain ⟨r, hs | ⟨s, -, ho, hs⟩⟩ := hs
  · rw [hs .other, hs v]
    exact ⟨rfl, fun _ _ => trivial⟩
  · rw [hs .other, hs v]
    cases s <;> first | exact absurd rfl ho | exact ⟨rfl, fun _ _ => trivial⟩

theorem hvTy_ptr {S : List ObjTy} (ht : W.resolve t = .ptr e) {x : HV} (h : HvTy W D S t x) :
    x = .ptrNil ∨ ∃ o p, x = .ptr o p ∧ PlaceTy W S ⟨o, p⟩ e := by
  cases h with
  | ptrNil => exact .inl rfl
  | ptr h h2 => rw [ht] at h; cases h; exact .inr ⟨_, _, rfl, h2⟩
  | _ => simp_all

theorem slot_ptr (hp : Plain W t (.ptr e)) {v : Val} (hv : Slot W t v) : v = .ptrNil ∨ ∃ x, v = .ptr x ∧ Slot W e x := by
  cases hv with
  | unm h => rw [hp.1] at h; cases h
  | leaf h => exact absurd hp.2 (h e)
  | ptrNil => exact .inl rfl
  | ptr h hv => have := h.2; rw [hp.2] at this; cases this; exact .inr ⟨_, rfl, hv⟩
  | mapNil h => have := h.2; rw [hp.2] at this; cases this
  | map h => have := h.2; rw [hp.2] at this; cases this
  | struct h => have := h.2; rw [hp.2] at this; cases this

theorem ptrAt_same (hpl : Plain W t (.ptr e)) {inner : Nat → Nat → Loc → Mem → DM} {innerT : Nat → Nat → Val → DR} {z : Val} (hz : HasTy W D e z)
    {c depth : Nat} (hi : Same W D inp n e (Slot W e) (Slot W e) (inner c depth) (innerT c depth)) :
    Same W D inp n t (Slot W t) (Slot W t) (ptrAt inner (flat z) b c depth) (ptrDecode innerT z b c depth) := by
  intro S l m v h hp hv
  unfold ptrAt ptrDecode
  refine alike_onOk fun _ _ => alike_ite (fun _ => alike_onOk fun _ _ => alike_ok (.ptrNil hpl)) fun _ => ?_
  have hzs : Slot W e z := shape_of_hasTy hz
  -- the inner decoder, wherever it works
  have key : ∀ (S' : List ObjTy) (l' : Loc) (m' : Mem) (x : Val), TOk W D inp n S' m' → PlaceTy W S' l' e → Slot W e x →
      Alike (Slot W t) (inner c depth l' m') (match innerT c depth x with | (v, r) => (Val.ptr v, r)) := by
    intro S' l' m' x h' hp' hx
    obtain ⟨h1, h2⟩ := hi _ _ _ _ h' hp' hx
    generalize innerT c depth x = y at h1 h2
    obtain ⟨v1, r⟩ := y
    exact ⟨h1, fun a ha => .ptr hpl (h2 a ha)⟩
  obtain ⟨x, hx, hxt⟩ := h.read hp
  rw [hx]
  rcases hvTy_ptr hpl.2 hxt with rfl | ⟨o, p, rfl, ho⟩
  · obtain ⟨h1, h2, h3⟩ := h.newVar (t := e) (hvTy_flat hz)
    have h4 := h1.write (placeTy_mono h3 hp) (x := .ptr m.length []) (.ptr hpl.2 h2)
    rcases slot_ptr hpl hv with rfl | ⟨x, rfl, hx⟩
    · exact key _ _ _ _ h4 h2 hzs
    · exact key _ _ _ _ h4 h2 hx
  · rcases slot_ptr hpl hv with rfl | ⟨x, rfl, hx⟩
    · exact key _ _ _ _ h ho hzs
    · exact key _ _ _ _ h ho hx

theorem sliceLoopAt_same (ht : W.resolve t = .slice e) {dec : Nat → Loc → Mem → DM} {decT : Nat → Val → DR} {E : Val → Prop}
    (hk : ∀ c, StaysTyped W D inp n e (dec c)) (hd : ∀ c, Same W D inp n e E E (dec c) (decT c)) {z : Val} (hz : HasTy W D e z) (hzE : E z)
    {es f c o : Nat} {S : List ObjTy} {l : Loc} {m : Mem} {sl : List Val} {rv : Val} (h : TOk W D inp n S m) (hp : PlaceTy W S l t)
    (ho : S[o]? = some (.var (.array sl.length e))) (hsl : ∀ v ∈ sl, E v) :
    Alike Anything (sliceLoopAt dec (flat z) es b f c o l m) (sliceLoop decT z es b f c sl rv) := by
  induction f generalizing c o m S sl rv with
  | zero => exact alike_diverge
  | succ f ih =>
    unfold sliceLoopAt sliceLoop
    refine alike_ite (fun _ => alike_err) fun _ => alike_onOk ?_
    rintro ⟨i, c1⟩ -
    refine alike_ite (fun _ => alike_err) fun _ => ?_
    obtain ⟨x, hx, hxt⟩ := h.read (l := ⟨o, []⟩) (t := .array sl.length e) ⟨_, ho, .here rfl⟩
    rw [hx]
    cases hxt with
    | arr h1 h2 h3 =>
      rename_i k' e' hs
      cases h1
      dsimp only
      rw [h2]
      refine alike_ite (fun _ => alike_panic) fun _ => ?_
      -- the rest, for any array of the right size
      have fin : ∀ (S1 : List ObjTy) (m1 : Mem) (o' : Nat) (sl' : List Val) (w : Val → Val), S <+: S1 → TOk W D inp n S1 m1 →
          S1[o']? = some (.var (.array sl'.length e)) → i < sl'.length → (∀ v ∈ sl', E v) →
          Alike Anything (match dec c1 ⟨o', [i]⟩ m1 with
            | (m, r) => onOkM m r fun c =>
              if !hasByte b c then (m.write l (.slice o' 0 sl'.length), .err (.unexpectedEnd "array" c)) else
              onOkM (m.write l (.slice o' 0 sl'.length)) (idx b c) fun b' =>
              if b' = cRBrace then (m.write l (.slice o' 0 sl'.length), .ok (c + 1)) else
              sliceLoopAt dec (flat z) es b f c o' l (m.write l (.slice o' 0 sl'.length)))
          (match sl'[i]? with
            | none => (rv, .panic .index)
            | some v0 => match decT c1 v0 with
              | (v, r) =>
                onOk (w v) r fun c =>
                if !hasByte b c then (.slice (sl'.set i v), .err (.unexpectedEnd "array" c)) else
                onOk (.slice (sl'.set i v)) (idx b c) fun b' =>
                if b' = cRBrace then (.slice (sl'.set i v), .ok (c + 1)) else
                sliceLoop decT z es b f c (sl'.set i v) (.slice (sl'.set i v))) := by
        intro S1 m1 o' sl' w hpre h1 ho' hik hE
        have hpl : PlaceTy W S1 ⟨o', [i]⟩ e := ⟨_, ho', .elem rfl hik (.here rfl)⟩
        rw [List.getElem?_eq_getElem hik]
        dsimp only
        obtain ⟨S2, hs2, h4⟩ := hk c1 S1 ⟨o', [i]⟩ m1 h1 hpl
        obtain ⟨a1, a2⟩ := hd c1 S1 ⟨o', [i]⟩ m1 sl'[i] h1 hpl (hE _ (List.getElem_mem _))
        revert h4 a1 a2
        generalize dec c1 ⟨o', [i]⟩ m1 = y
        generalize decT c1 sl'[i] = y'
        obtain ⟨m2, r⟩ := y
        obtain ⟨v2, r'⟩ := y'
        intro h4 a1 a2
        dsimp only at a1 a2 h4
        subst a1
        have hss := hpre.trans hs2
        refine alike_onOk fun c2 hc2 => alike_ite (fun _ => alike_err) fun _ => alike_onOk fun _ _ => alike_ite (fun _ => alike_ok trivial) fun _ => ?_
        refine ih (sl := sl'.set i v2) (S := S2) ?_ (placeTy_mono hss hp) (by rw [List.length_set]; exact prefix_get hs2 ho') ?_
        · exact h4.write (placeTy_mono hss hp) (.slice ht fun j hj => ⟨_, prefix_get hs2 ho', .elem rfl (by omega) (.here rfl)⟩)
        · intro v hv
          rcases List.mem_or_eq_of_mem_set hv with hv | rfl
          · exact hE v hv
          · exact a2 c2 hc2
      by_cases hg : i ≥ sl.length
      · have hlen : (sl ++ List.replicate (i + 1 - sl.length) z).length = i + 1 := by rw [List.length_append, List.length_replicate]; omega
        have h4 : TOk W D inp n (S ++ [.var (.array (i + 1) e)]) (m.new (.var (.arr (hs ++ List.replicate (i + 1 - sl.length) (flat z))))) := by
          refine h.new (.var (.arr rfl (by rw [List.length_append, List.length_replicate]; omega) fun y hy => ?_))
          rcases List.mem_append.1 hy with hy | hy
          · exact hvTy_mono (List.prefix_append _ _) (h3 y hy)
          · rw [(List.mem_replicate.1 hy).2]
            exact hvTy_flat hz
        have := fin _ _ m.length (sl ++ List.replicate (i + 1 - sl.length) z) (fun _ => rv) (List.prefix_append _ _) h4 (by
            rw [hlen, ← h.mem.length, List.getElem?_append_right (Nat.le_refl _), Nat.sub_self]
            rfl) (by omega) (by
            intro v hv
            rcases List.mem_append.1 hv with hv | hv
            · exact hsl v hv
            · rw [(List.mem_replicate.1 hv).2]; exact hzE)
        rw [hlen] at this
        simp only [hg, decide_true, if_true]
        exact this
      · have := fin S m o sl (fun v => .slice (sl.set i v)) (List.prefix_refl _) h ho (by omega) hsl
        simp only [hg, decide_false, Bool.false_eq_true, if_false]
        exact this
    | _ => simp_all [World.resolve]

theorem sliceAt_same (ht : W.resolve t = .slice e) {dec : Nat → Nat → Loc → Mem → DM} {decT : Nat → Nat → Val → DR} {E : Val → Prop}
    (hk : ∀ c d, StaysTyped W D inp n e (dec c d)) (hd : ∀ c d, Same W D inp n e E E (dec c d) (decT c d)) {z : Val} (hz : HasTy W D e z) (hzE : E z)
    {es c depth : Nat} : Same W D inp n t T Anything (sliceAt dec (flat z) es b c depth) (sliceDecode decT z es b c depth) := by
  intro S l m v h hp _
  unfold sliceAt sliceDecode
  refine alike_ite (fun _ => alike_err) fun _ => alike_ite (fun _ => alike_err) fun _ => alike_onOk fun _ _ => ?_
  refine alike_ite (fun _ => alike_onOk fun _ _ => alike_ok trivial) fun _ => alike_ite (fun _ => ?_) fun _ =>
    alike_ite (fun _ => alike_err) fun _ => alike_err
  refine alike_ite (fun _ => alike_err) fun _ => alike_onOk fun _ _ => alike_ite (fun _ => alike_err) fun _ => alike_ite (fun _ => alike_err) fun _ => ?_
  refine alike_onOk fun _ _ => alike_ite (fun _ => alike_onOk fun _ _ => alike_ok trivial) fun _ => alike_onOk ?_
  rintro ⟨k, c1⟩ -
  refine alike_ite (fun _ => alike_err) fun _ => alike_onOk fun _ _ => alike_ite (fun _ => alike_err) fun _ => alike_ite (fun _ => alike_panic) fun _ => ?_
  obtain ⟨h1, h2, h3⟩ := h.newVar (t := .array 0 e) (z := .arr []) (.arr rfl rfl (by simp))
  refine sliceLoopAt_same ht (fun c => hk c _) (fun c => hd c _) hz hzE h1 (placeTy_mono h3 hp) ?_ (by simp)
  rw [← h.mem.length, List.getElem?_append_right (Nat.le_refl _), Nat.sub_self]
  rfl

theorem bytesAt_same (ht : W.resolve t = .slice e) {dec : Nat → Nat → Loc → Mem → DM} {decT : Nat → Nat → Val → DR} {E : Val → Prop}
    (hk : ∀ c d, StaysTyped W D inp n e (dec c d)) (hd : ∀ c d, Same W D inp n e E E (dec c d) (decT c d)) {z : Val} (hz : HasTy W D e z) (hzE : E z)
    {c depth : Nat} : Same W D inp n t T Anything (bytesAt inp dec (flat z) b c depth) (bytesDecode decT z b c depth) := by
  intro S l m v h hp hv
  unfold bytesAt bytesDecode
  refine alike_onOk fun _ _ => alike_ite (fun _ => sliceAt_same ht hk hd hz hzE _ _ _ _ h hp hv) fun _ => alike_onOk ?_
  rintro ⟨ob, c1⟩ -
  cases ob with
  | none => exact alike_ok trivial
  | some s => exact alike_ok trivial

theorem arrayLoopAt_same {k : Nat} (ht : W.resolve t = .array k e) {dec : Nat → Loc → Mem → DM} {decT : Nat → Val → DR} {E : Val → Prop}
    (hk : ∀ c, StaysTyped W D inp n e (dec c)) (hd : ∀ c, Same W D inp n e E E (dec c) (decT c)) {skip : Nat → Res Nat} {f c : Nat}
    {S : List ObjTy} {l : Loc} {m : Mem} {vs : List Val} (h : TOk W D inp n S m) (hp : PlaceTy W S l t) (hl : vs.length = k) (hvs : ∀ v ∈ vs, E v) :
    Alike Anything (arrayLoopAt dec skip k b f c l m) (arrayLoop decT skip b f c vs) := by
  induction f generalizing c m S vs with
  | zero => exact alike_diverge
  | succ f ih =>
    unfold arrayLoopAt arrayLoop
    refine alike_ite (fun _ => alike_err) fun _ => alike_onOk ?_
    rintro ⟨i, c1⟩ -
    refine alike_ite (fun _ => alike_err) fun _ => ?_
    dsimp only
    by_cases hi : i < k
    · have hik : i < vs.length := by omega
      have hpl := place_elem hp ht hi
      rw [if_pos hi, List.getElem?_eq_getElem hik]
      dsimp only
      obtain ⟨S2, hs2, h4⟩ := hk c1 S (l.sub i) m h hpl
      obtain ⟨a1, a2⟩ := hd c1 S (l.sub i) m vs[i] h hpl (hvs _ (List.getElem_mem _))
      revert h4 a1 a2
      generalize dec c1 (l.sub i) m = y
      generalize decT c1 vs[i] = y'
      obtain ⟨m2, r⟩ := y
      obtain ⟨v2, r'⟩ := y'
      intro h4 a1 a2
      dsimp only at a1 a2 h4
      subst a1
      refine alike_onOk fun c2 hc2 => alike_ite (fun _ => alike_err) fun _ => alike_onOk fun _ _ => alike_ite (fun _ => alike_ok trivial) fun _ => ?_
      refine ih h4 (placeTy_mono hs2 hp) (by rw [List.length_set]; exact hl) ?_
      intro v hv
      rcases List.mem_or_eq_of_mem_set hv with hv | rfl
      · exact hvs v hv
      · exact a2 c2 hc2
    · rw [if_neg hi, List.getElem?_eq_none (by omega)]
      dsimp only
      exact alike_onOk fun c2 hc2 => alike_ite (fun _ => alike_err) fun _ => alike_onOk fun _ _ => alike_ite (fun _ => alike_ok trivial) fun _ => ih h hp hl hvs

theorem arrayAt_same {k : Nat} (ht : W.resolve t = .array k e) {dec : Nat → Nat → Loc → Mem → DM} {decT : Nat → Nat → Val → DR} {E : Val → Prop}
    (hk : ∀ c d, StaysTyped W D inp n e (dec c d)) (hd : ∀ c d, Same W D inp n e E E (dec c d) (decT c d)) {z : Val} (hz : HasTy W D e z) (hzE : E z)
    {c depth : Nat} : Same W D inp n t T Anything (arrayAt dec (flat z) k b c depth) (arrayDecode decT z k b c depth) := by
  intro S l m v h hp _
  unfold arrayAt arrayDecode
  refine alike_ite (fun _ => alike_err) fun _ => alike_ite (fun _ => alike_err) fun _ => alike_onOk fun _ _ => ?_
  refine alike_ite (fun _ => alike_onOk fun _ _ => alike_ok trivial) fun _ => alike_ite (fun _ => ?_) fun _ => alike_err
  refine alike_ite (fun _ => alike_err) fun _ => alike_onOk fun _ _ => alike_ite (fun _ => alike_err) fun _ => ?_
  have h1 := h.write hp (hvTy_zeros ht hz)
  refine alike_ite (fun _ => alike_err) fun _ => alike_onOk fun _ _ => alike_ite (fun _ => alike_onOk fun _ _ => alike_ok trivial) fun _ => alike_onOk ?_
  rintro ⟨_, c1⟩ -
  refine alike_ite (fun _ => alike_err) fun _ => alike_onOk fun _ _ => alike_ite (fun _ => alike_err) fun _ => ?_
  refine arrayLoopAt_same ht (fun c => hk c _) (fun c => hd c _) h1 hp (by simp) ?_
  intro v hv
  rw [(List.mem_replicate.1 hv).2]
  exact hzE

end Leaves

/-! ### Maps -/

/-- On a new variable holding `z`: the same outcome, and values that can be hashed or not alike. -/
def FreshSame (W : World) (D : Ty → Prop) (inp n : Nat) (R : HV → Val → Prop) (z : HV) (d : Loc → Mem → DM) (y : DR) : Prop :=
  ∀ S m, TOk W D inp n S m → (d ⟨m.length, []⟩ (m.new (.var z))).2 = y.2 ∧
    ∀ a h, y.2 = .ok a → (d ⟨m.length, []⟩ (m.new (.var z))).1.read ⟨m.length, []⟩ = some h → R h y.1

/-- Both can be hashed or both cannot. -/
abbrev HashAlike (h : HV) (v : Val) : Prop := h.hashable = v.hashable

section Maps
variable {W : World} {D : Ty → Prop} {inp n : Nat} {b : Bytes} {t k v : Ty}

/-- A place for maps is not in the copy of the input. -/
theorem map_place {S : List ObjTy} {m : Mem} {l : Loc} (h : TOk W D inp n S m) (ht : W.resolve t = .map k v) (hp : PlaceTy W S l t) : l.obj ≠ inp := by
  rintro rfl
  obtain ⟨t0, h1, h2⟩ := hp
  rw [h.inp] at h1
  cases h1
  generalize l.path = p at h2
  cases h2 with
  | here h => rw [ht] at h; cases h
  | elem h1 h2 h3 =>
    cases h1
    cases h3 with
    | here h => rw [ht] at h; cases h
    | elem h => cases h
    | field h => cases h
  | field h => cases h

theorem placeTy_lt {S : List ObjTy} {m : Mem} {l : Loc} (h : TOk W D inp n S m) (hp : PlaceTy W S l t) : l.obj < m.length := by
  obtain ⟨t0, h1, -⟩ := hp
  rw [← h.mem.length]
  exact (List.getElem?_eq_some_iff.1 h1).1

theorem mapLoopAt_same (ht : W.resolve t = .map k v) {kd vd : Nat → Loc → Mem → DM} {kT vT : Nat → DR} (hk : ∀ c, StaysTyped W D inp n k (kd c))
    (hv : ∀ c, StaysTyped W D inp n v (vd c)) (lk : ∀ c, Local inp (kd c)) (lv : ∀ c, Local inp (vd c)) {zk zv : Val} (hzk : HasTy W D k zk)
    (hzv : HasTy W D v zv) (sk : ∀ c, FreshSame W D inp n HashAlike (flat zk) (kd c) (kT c))
    (sv : ∀ c, FreshSame W D inp n (fun _ _ => True) (flat zv) (vd c) (vT c)) {f c o : Nat}
    {S : List ObjTy} {l : Loc} {m : Mem} {es : List (Val × Val)} (h : TOk W D inp n S m) (hp : PlaceTy W S l t) (hr : m.read l = some (.map o)) :
    Alike IsMap (mapLoopAt kd vd (flat zk) (flat zv) b f c l m) (mapLoop kT vT b f c es) := by
  induction f generalizing c m S es with
  | zero => exact alike_diverge
  | succ f ih =>
    have hinp : inp < m.length := by rw [← h.mem.length]; exact (List.getElem?_eq_some_iff.1 h.inp).1
    unfold mapLoopAt mapLoop
    refine alike_ite (fun _ => alike_err) fun _ => ?_
    have hli := map_place h ht hp
    have hll := placeTy_lt h hp
    obtain ⟨S1, hs1, h1, hp1⟩ := (hk c).fresh h (hvTy_flat hzk)
    have hr1 := (read_congr ((lk c).frame h (refs_flat (v := zk)) hll hli)).trans hr
    obtain ⟨e1, e1'⟩ := sk c S m h
    dsimp only
    revert h1 hr1 e1 e1'
    generalize kd c ⟨m.length, []⟩ (m.new (.var (flat zk))) = x
    generalize kT c = y
    obtain ⟨m1, r1⟩ := x
    obtain ⟨k1, r1'⟩ := y
    intro h1 hr1 e1 e1'
    dsimp only at h1 hr1 e1 e1'
    subst e1
    refine alike_onOk fun c1 hc1 => alike_ite (fun _ => alike_err) fun _ => ?_
    have hll1 := placeTy_lt h1 (placeTy_mono hs1 hp)
    have hkl := placeTy_lt h1 hp1
    obtain ⟨S2, hs2, h2, hp2⟩ := (hv c1).fresh h1 (hvTy_flat hzv)
    have hr2 := (read_congr ((lv c1).frame h1 (refs_flat (v := zv)) hll1 hli)).trans hr1
    have hk2 := read_congr (l := ⟨m.length, []⟩) ((lv c1).frame h1 (refs_flat (v := zv)) (a := m.length) hkl (by omega))
    obtain ⟨e2, -⟩ := sv c1 S1 m1 h1
    revert h2 hr2 hk2 e2
    generalize vd c1 ⟨m1.length, []⟩ (m1.new (.var (flat zv))) = x
    generalize vT c1 = y
    obtain ⟨m2, r2⟩ := x
    obtain ⟨v2, r2'⟩ := y
    intro h2 hr2 hk2 e2
    dsimp only at h2 hr2 hk2 e2
    subst e2
    refine alike_onOk fun c2 _ => ?_
    have hs := hs1.trans hs2
    obtain ⟨kx, hkx, hkt⟩ := h2.read (placeTy_mono hs2 hp1)
    obtain ⟨vx, hvx, hvt⟩ := h2.read hp2
    obtain ⟨lx, hlx, hlt⟩ := h2.read (placeTy_mono hs hp)
    rw [hr2] at hlx
    cases hlx
    have hh : kx.hashable = k1.hashable := e1' c1 kx hc1 (hk2 ▸ hkx)
    rw [hkx, hvx, hr2]
    dsimp only
    rw [hh]
    refine alike_ite (fun _ => alike_panic) fun _ => ?_
    rcases hvTy_map ht hlt with e | ⟨o', e, ho⟩
    · cases e
    · cases e
      obtain ⟨hs', he, het⟩ := h2.entries ho
      rw [he]
      dsimp only
      have h3 : TOk W D inp n S2 (m2.set o (.map (hvInsert kx vx hs'))) := by
        refine h2.setMap ho fun a a' ha => ?_
        rcases mem_hvInsert ha with ha | ⟨rfl, rfl⟩
        · exact het a a' ha
        · exact ⟨hkt, hvt⟩
      refine alike_ite (fun _ => alike_err) fun _ => alike_onOk fun _ _ => alike_ite (fun _ => alike_ok trivial) fun _ => ?_
      refine ih h3 (placeTy_mono hs hp) ?_
      rw [← hr2]
      refine read_congr (List.getElem?_set_ne fun e => ?_)
      obtain ⟨t0, h4, -⟩ := placeTy_mono hs hp
      rw [← e, ho] at h4
      cases h4

theorem mapAt_same (ht : W.resolve t = .map k v) {kd vd : Nat → Nat → Loc → Mem → DM} {kT vT : Nat → Nat → DR}
    (hk : ∀ c d, StaysTyped W D inp n k (kd c d)) (hv : ∀ c d, StaysTyped W D inp n v (vd c d)) (lk : ∀ c d, Local inp (kd c d))
    (lv : ∀ c d, Local inp (vd c d)) {zk zv : Val} (hzk : HasTy W D k zk) (hzv : HasTy W D v zv)
    (sk : ∀ c d, FreshSame W D inp n HashAlike (flat zk) (kd c d) (kT c d))
    (sv : ∀ c d, FreshSame W D inp n (fun _ _ => True) (flat zv) (vd c d) (vT c d)) {c depth : Nat} :
    Same W D inp n t IsMap IsMap (mapAt kd vd (flat zk) (flat zv) b c depth) (mapDecode kT vT b c depth) := by
  intro S l m rv h hp hm
  unfold mapAt mapDecode
  refine alike_ite (fun _ => alike_err) fun _ => alike_ite (fun _ => alike_err) fun _ => alike_onOk fun _ _ => ?_
  refine alike_ite (fun _ => alike_onOk fun _ _ => alike_ok trivial) fun _ => alike_onOk fun _ _ => alike_onOk ?_
  rintro ⟨_, c1⟩ -
  refine alike_ite (fun _ => alike_err) fun _ => alike_onOk fun _ _ => alike_ite (fun _ => alike_err) fun _ => ?_
  have key : ∃ es, mapEntries rv = some es := by
    cases rv <;> first | exact ⟨_, rfl⟩ | exact hm.elim
  obtain ⟨es, he⟩ := key
  rw [he]
  obtain ⟨x, hx, hxt⟩ := h.read hp
  rw [hx]
  have fin : ∀ (S1 : List ObjTy) (m1 : Mem) (o : Nat), S <+: S1 → TOk W D inp n S1 m1 → m1.read l = some (.map o) →
      Alike IsMap (if !hasByte b (c1 + 1) then (m1, .err (.unexpectedEnd "map" (c1 + 1 : Nat))) else
        onOkM m1 (idx b (c1 + 1)) fun b' =>
        if b' = cRBrace then (m1, .ok (c1 + 1 + 1)) else
        mapLoopAt (fun c => kd c (depth + 1)) (fun c => vd c (depth + 1)) (flat zk) (flat zv) b (b.length + 1) (c1 + 1) l m1)
      (if !hasByte b (c1 + 1) then (.map es, .err (.unexpectedEnd "map" (c1 + 1 : Nat))) else
        onOk (.map es) (idx b (c1 + 1)) fun b' =>
        if b' = cRBrace then (.map es, .ok (c1 + 1 + 1)) else
        mapLoop (fun c => kT c (depth + 1)) (fun c => vT c (depth + 1)) b (b.length + 1) (c1 + 1) es) := by
    intro S1 m1 o hs h1 hr
    refine alike_ite (fun _ => alike_err) fun _ => alike_onOk fun _ _ => alike_ite (fun _ => alike_ok trivial) fun _ => ?_
    exact mapLoopAt_same ht (fun c => hk c _) (fun c => hv c _) (fun c => lk c _) (fun c => lv c _) hzk hzv (fun c => sk c _) (fun c => sv c _) h1
      (placeTy_mono hs hp) hr
  rcases hvTy_map ht hxt with rfl | ⟨o, rfl, ho⟩
  · refine fin _ _ m.length (List.prefix_append _ _) (h.newMap ht hp) ?_
    obtain ⟨y, hy, -⟩ := (h.new (o := .map k v) (c := .map []) (.map (by simp))).read (placeTy_mono (List.prefix_append _ _) hp)
    exact read_write hy
  · exact fin S m o (List.prefix_refl _) h hx

end Maps

/-! ### Interfaces and keys -/

section Hash

mutual
theorem hashable_flat : ∀ {v : Val}, RefFree v → (flat v).hashable = v.hashable
  | .bool _, _ | .int _, _ | .uint _, _ | .f32 _, _ | .f64 _, _ | .str _, _ | .sliceNil, _ | .mapNil, _ | .ptrNil, _ | .ifaceNil, _ | .other, _ => rfl
  | .arr _, h => hashable_flatList h
  | .struct _, h => hashable_flatList h
  | .slice _, h | .map _, h | .ptr _, h | .iface _ _, h | .win _ _ _, h => h.elim
theorem hashable_flatList : ∀ {vs : List Val}, RefFreeAll vs → hvHashableList (flatList vs) = hashableList vs
  | [], _ => rfl
  | v :: vs, h => by simp only [flatList, hvHashableList, hashableList, hashable_flat h.1, hashable_flatList h.2]
end

variable {W : World} {D : Ty → Prop} {S : List ObjTy}

/-- The types whose values can all be hashed. -/
def Scalar (W : World) (t : Ty) : Prop :=
  W.resolve t = .bool ∨ (∃ k, W.resolve t = .int k) ∨ (∃ k, W.resolve t = .uint k) ∨ W.resolve t = .f32 ∨ W.resolve t = .f64 ∨ W.resolve t = .str ∨
    ∃ e, W.resolve t = .ptr e

theorem scalar_hv {t : Ty} (ht : Scalar W t) {h : HV} (hh : HvTy W D S t h) : h.hashable = true := by
  unfold Scalar at ht
  cases hh <;> first | rfl | simp_all

theorem scalar_val {t : Ty} (ht : Scalar W t) {v : Val} (hh : HasTy W D t v) : v.hashable = true := by
  unfold Scalar at ht
  cases hh <;> first | rfl | simp_all

theorem map_hv {t k v : Ty} (ht : W.resolve t = .map k v) {h : HV} (hh : HvTy W D S t h) : h.hashable = false := by
  rcases hvTy_map ht hh with rfl | ⟨o, rfl, -⟩ <;> rfl

theorem map_val {v : Val} (h : IsMap v) : v.hashable = false := by
  cases v <;> first | rfl | exact h.elim

end Hash

section Ifaces
variable {W : World} {D : Ty → Prop} {inp n : Nat} {b : Bytes} {t : Ty} {T : Val → Prop}

/-- At a place: the same outcome, and values that can be hashed or not alike. -/
def HashSame (l : Loc) (x : DM) (y : DR) : Prop := x.2 = y.2 ∧ ∀ a h, y.2 = .ok a → x.1.read l = some h → HashAlike h y.1

theorem hash_err {l : Loc} {m : Mem} {v : Val} {e : Err} : HashSame l (m, .err e) (v, .err e) := ⟨rfl, fun _ _ h => nomatch h⟩

theorem hash_panic {l : Loc} {m : Mem} {v : Val} {p : Panic} : HashSame l (m, .panic p) (v, .panic p) := ⟨rfl, fun _ _ h => nomatch h⟩

theorem hash_onOk {α : Type} {l : Loc} {m : Mem} {v : Val} {r : Res α} {k : α → DM} {k' : α → DR} (h : ∀ x, r = .ok x → HashSame l (k x) (k' x)) :
    HashSame l (onOkM m r k) (onOk v r k') := by
  cases r with
  | ok a => exact h a rfl
  | err e => exact hash_err
  | panic p => exact hash_panic
  | diverge => exact ⟨rfl, fun _ _ h => nomatch h⟩

theorem hash_ite {l : Loc} {c : Prop} [Decidable c] {x y : DM} {x' y' : DR} (hx : c → HashSame l x x') (hy : ¬ c → HashSame l y y') :
    HashSame l (if c then x else y) (if c then x' else y') := by
  split
  · exact hx ‹_›
  · exact hy ‹_›

theorem HashSame.alike {l : Loc} {x : DM} {y : DR} (h : HashSame l x y) : Alike Anything x y := ⟨h.1, fun _ _ => trivial⟩

/-- A value is stored. -/
theorem hash_write {S : List ObjTy} {l : Loc} {m : Mem} (h : TOk W D inp n S m) (hp : PlaceTy W S l t) {x : HV} {v : Val} {c : Nat}
    (hx : x.hashable = v.hashable) : HashSame l (m.write l x, .ok c) (v, .ok c) := by
  obtain ⟨y, hy, -⟩ := h.read hp
  refine ⟨rfl, fun a g _ hg => ?_⟩
  rw [read_write hy] at hg
  cases hg
  exact hx

/-- What a typed decoder leaves in the place is of a type whose values can all be hashed, or of one whose values cannot. -/
theorem hash_of {S : List ObjTy} {l : Loc} {m : Mem} (h : TOk W D inp n S m) (hp : PlaceTy W S l t) {d : Loc → Mem → DM} (hd : StaysTyped W D inp n t d)
    {y : DR} (hs : (d l m).2 = y.2) {v : Bool} (hh : ∀ S' h, HvTy W D S' t h → h.hashable = v) (hy : ∀ a, y.2 = .ok a → y.1.hashable = v) :
    HashSame l (d l m) y := by
  refine ⟨hs, fun a g ha hg => ?_⟩
  obtain ⟨S', h1, h2⟩ := hd _ _ _ h hp
  obtain ⟨x, hx, hxt⟩ := h2.read (placeTy_mono h1 hp)
  rw [hg] at hx
  cases hx
  exact (hh _ _ hxt).trans (hy a ha).symm

theorem viaLocal_same {dt : Ty} {d : Loc → Mem → DM} (hd : StaysTyped W D inp n dt d) {z : Val} (hz : HasTy W D dt z)
    {y : DR} (hs : FreshSame W D inp n (fun _ _ => True) (flat z) d y) {u : Bool} (hh : ∀ S' h, HvTy W D S' dt h → h.hashable = u)
    (hy : ∀ a, y.2 = .ok a → y.1.hashable = u) {S : List ObjTy} {l : Loc} {m : Mem} (h : TOk W D inp n S m) (hp : PlaceTy W S l t) {rv : Val} :
    HashSame l (viaLocal dt (flat z) d l m) (match y with | (v, r) => onOk rv r fun c => (.iface dt v, .ok c)) := by
  unfold viaLocal
  obtain ⟨S1, hs1, h1, hp1⟩ := hd.fresh h (hvTy_flat hz)
  obtain ⟨e1, -⟩ := hs S m h
  dsimp only
  revert h1 e1
  generalize d ⟨m.length, []⟩ (m.new (.var (flat z))) = x
  obtain ⟨m1, r⟩ := x
  obtain ⟨v, r'⟩ := y
  intro h1 e1
  dsimp only at h1 e1
  subst e1
  refine hash_onOk fun c hc => ?_
  obtain ⟨x, hx, hxt⟩ := h1.read hp1
  rw [hx]
  refine hash_write h1 (placeTy_mono hs1 hp) ?_
  exact (hh _ _ hxt).trans (hy c hc).symm

/-- A scalar decoder on a new variable. -/
theorem scal_fresh {dec : Val → DR} (hs : Scal dec) {z : HV} {v : Val} : FreshSame W D inp n (fun _ _ => True) z (scalarAt dec) (dec v) :=
  fun _ _ _ => ⟨(scalarAt_same hs).1, fun _ _ _ _ => trivial⟩

theorem stringLocal_same {c : Nat} {S : List ObjTy} {l : Loc} {m : Mem} (h : TOk W D inp n S m) (hp : PlaceTy W S l t) {rv : Val} :
    HashSame l (viaLocal .str (.str []) (scalarAt (stringDecode b c)) l m)
      (match stringDecode b c (.str []) with | (v, r) => onOk rv r fun c => (.iface .str v, .ok c)) :=
  viaLocal_same (D := D) (z := .str []) (stringAt_keeps rfl) (.str rfl) (scal_fresh stringDecode_scal) (u := true)
    (fun _ _ h => scalar_hv (.inr (.inr (.inr (.inr (.inr (.inl rfl)))))) h)
    (fun _ _ => scalar_val (.inr (.inr (.inr (.inr (.inr (.inl rfl)))))) (stringDecode_good (W := W) (D := D) (t := .str) (P := fun _ => True) rfl (.str rfl)).1) h hp

theorem intLocal_same {c : Nat} {S : List ObjTy} {l : Loc} {m : Mem} (h : TOk W D inp n S m) (hp : PlaceTy W S l t) {rv : Val} :
    HashSame l (viaLocal (.int .i64) (.int 0) (scalarAt (intDecode .i64 b c)) l m)
      (match intDecode .i64 b c (.int 0) with | (v, r) => onOk rv r fun c => (.iface (.int .i64) v, .ok c)) :=
  viaLocal_same (D := D) (z := .int 0) int64At_keeps (.int rfl (inRange_zero _)) (scal_fresh (intDecode_scal _)) (u := true)
    (fun _ _ h => scalar_hv (.inr (.inl ⟨_, rfl⟩)) h)
    (fun _ _ => scalar_val (.inr (.inl ⟨_, rfl⟩)) (intDecode_good (W := W) (D := D) (t := .int .i64) (P := fun _ => True) rfl (.int rfl (inRange_zero _))).1) h hp

theorem floatLocal_same {c : Nat} {S : List ObjTy} {l : Loc} {m : Mem} (h : TOk W D inp n S m) (hp : PlaceTy W S l t) {rv : Val} :
    HashSame l (viaLocal .f64 (.f64 0) (scalarAt (floatDecode W false b c)) l m)
      (match floatDecode W false b c (.f64 0) with | (v, r) => onOk rv r fun c => (.iface .f64 v, .ok c)) :=
  viaLocal_same (D := D) (z := .f64 0) (f64At_keeps rfl) (.f64 rfl) (scal_fresh (floatDecode_scal _)) (u := true)
    (fun _ _ h => scalar_hv (.inr (.inr (.inr (.inr (.inl rfl))))) h)
    (fun _ _ => scalar_val (.inr (.inr (.inr (.inr (.inl rfl))))) (floatDecode64_good (W := W) (D := D) (t := .f64) (P := fun _ => True) rfl (.f64 rfl)).1) h hp

theorem anyKeyAt_same {c : Nat} : FreshSame W D inp n HashAlike .ifaceNil (anyKeyAt b c) (anyKeyDecode b c) := by
  intro S m h
  obtain ⟨h1, h2, -⟩ := h.newVar (t := .any) (z := .ifaceNil) (.anyNil rfl)
  unfold anyKeyAt anyKeyDecode
  exact hash_onOk fun _ _ => hash_ite (fun _ => stringLocal_same h1 h2) fun _ => hash_ite (fun _ => intLocal_same h1 h2) fun _ => hash_err

theorem scalar_local {dec : Val → DR} : Local inp (scalarAt dec) := fun _ _ => scalarAt_conf

/-- A scalar decoder of map keys on a new variable. -/
theorem scal_key {k : Ty} (hk : Scalar W k) {dec : Val → DR} (hs : Scal dec) (hd : StaysTyped W D inp n k (scalarAt dec)) {z : Val}
    (hz : HasTy W D k z) (hg : HasTy W D k (dec z).1) : FreshSame W D inp n HashAlike (flat z) (scalarAt dec) (dec z) := by
  intro S m h
  obtain ⟨h1, h2, -⟩ := h.newVar (hvTy_flat hz)
  exact hash_of h1 h2 hd (scalarAt_same hs).1 (v := true) (fun _ _ h => scalar_hv hk h) fun _ _ => scalar_val hk hg

/-- Maps in interfaces. -/
theorem mapLocal_same {k v dt : Ty} (hdt : W.resolve dt = .map k v) {kd vd : Nat → Nat → Loc → Mem → DM} {kT vT : Nat → Nat → DR}
    (hk : ∀ c d, StaysTyped W D inp n k (kd c d)) (hv : ∀ c d, StaysTyped W D inp n v (vd c d)) (lk : ∀ c d, Local inp (kd c d))
    (lv : ∀ c d, Local inp (vd c d)) {zk zv : Val} (hzk : HasTy W D k zk) (hzv : HasTy W D v zv)
    (sk : ∀ c d, FreshSame W D inp n HashAlike (flat zk) (kd c d) (kT c d))
    (sv : ∀ c d, FreshSame W D inp n (fun _ _ => True) (flat zv) (vd c d) (vT c d)) {c depth : Nat} {S : List ObjTy} {l : Loc} {m : Mem} {rv : Val}
    (h : TOk W D inp n S m) (hp : PlaceTy W S l t) :
    HashSame l (viaLocal dt .mapNil (mapAt kd vd (flat zk) (flat zv) b c depth) l m)
      (match mapDecode kT vT b c depth .mapNil with | (v, r) => onOk rv r fun c => (.iface dt v, .ok c)) := by
  have hs : FreshSame W D inp n (fun _ _ => True) .mapNil (mapAt kd vd (flat zk) (flat zv) b c depth) (mapDecode kT vT b c depth .mapNil) := by
    intro S m h
    obtain ⟨h1, h2, -⟩ := h.newVar (t := dt) (z := .mapNil) (.mapNil hdt)
    exact ⟨(mapAt_same hdt hk hv lk lv hzk hzv sk sv _ _ _ .mapNil h1 h2 trivial).1, fun _ _ _ _ => trivial⟩
  have hm : ∀ a, (mapDecode kT vT b c depth .mapNil).2 = .ok a → (mapDecode kT vT b c depth .mapNil).1.hashable = false := fun a ha =>
    map_val ((mapDecode_twin (rv := .mapNil) (rv' := .mapNil) trivial trivial).2 a ha).1
  exact viaLocal_same (D := D) (z := .mapNil) (mapAt_keeps hdt hk hv hzk hzv) (.mapNil hdt) hs (fun _ _ h => map_hv hdt h) hm h hp

theorem anyAt_same (hD : ∀ t, Documented t → D t) {ad : Nat → Nat → Loc → Mem → DM} {adT : Nat → Nat → DR}
    (ha : ∀ c d, StaysTyped W D inp n .any (ad c d)) (la : ∀ c d, Local inp (ad c d))
    (sa : ∀ c d, FreshSame W D inp n (fun _ _ => True) .ifaceNil (ad c d) (adT c d)) {c depth : Nat} {S : List ObjTy} {l : Loc} {m : Mem} {rv : Val}
    (h : TOk W D inp n S m) (hp : PlaceTy W S l t) : HashSame l (anyAt W ad b c depth l m) (anyDecode W adT b c depth rv) := by
  unfold anyAt anyDecode
  refine hash_onOk fun _ _ => ?_
  have hkey : ∀ c (_ : Nat), FreshSame W D inp n HashAlike (flat (.str [])) (scalarAt (stringDecode b c)) (stringDecode b c (.str [])) := fun c _ =>
    scal_key (k := .str) (.inr (.inr (.inr (.inr (.inr (.inl rfl)))))) stringDecode_scal (stringAt_keeps rfl) (.str rfl)
      (stringDecode_good (P := fun _ => True) rfl (.str rfl)).1
  refine hash_ite (fun _ => ?_) fun _ => hash_ite (fun _ => ?_) fun _ => hash_ite (fun _ => floatLocal_same h hp) fun _ => hash_ite (fun _ => ?_) fun _ =>
    hash_ite (fun _ => intLocal_same h hp) fun _ => hash_ite (fun _ => ?_) fun _ => hash_ite (fun _ => ?_) fun _ => hash_err
  · exact mapLocal_same (k := .str) (v := .any) (zk := .str []) (zv := .ifaceNil) rfl (fun _ _ => stringAt_keeps rfl) ha (fun _ _ => scalar_local) la
      (.str rfl) (.anyNil rfl) hkey sa h hp
  · exact mapLocal_same (k := .any) (v := .any) (zk := .ifaceNil) (zv := .ifaceNil) rfl (fun _ _ => anyKeyAt_keeps hD) ha
      (fun _ _ _ _ => anyKeyAt_conf) la (.anyNil rfl) (.anyNil rfl) (fun _ _ => anyKeyAt_same) sa h hp
  · refine hash_onOk ?_
    rintro ⟨s, e⟩ -
    exact hash_write h hp rfl
  · exact hash_onOk fun _ _ => hash_write h hp rfl
  · exact hash_onOk fun _ _ => hash_write h hp rfl

theorem unmarshalerAt_same {U : Methods} (hU : TypedMethods W D U) (hs : SameOutcome W U) (hz : FlatZeros W) {id : Nat}
    {c depth : Nat} {S : List ObjTy} {l : Loc} {m : Mem} {rv : Val} (h : TOk W D inp n S m) (hp : PlaceTy W S l t) :
    HashSame l (unmarshalerAt W U id b c depth l m) (unmarshalDecode W id b c depth rv) := by
  simp only [unmarshalerAt_eq, unmarshalDecode_eq]
  refine hash_onOk fun e _ => hash_onOk fun src _ => hash_ite (fun _ => hash_err) fun _ => hash_ite (fun _ => hash_err) fun _ =>
    hash_ite (fun _ => hash_err) fun _ => hash_ite (fun _ => hash_write h hp (hashable_flat (hz.named id))) fun _ => ?_
  suffices hs : ∀ src, HashSame l (match U.fresh id src m with
      | (m, r) => onOkM m (r.mapErr (annotate c)) fun v => ((m.write l v, .ok e) : DM))
      (onOk rv ((W.unmarshal id src).mapErr (annotate c)) fun v => (v, .ok e)) from hs _
  intro src
  obtain ⟨S', h1, h2, -⟩ := hU.fresh S m id src h.mem
  have h3 := hs id src m
  revert h2 h3
  generalize U.fresh id src m = y
  generalize W.unmarshal id src = y'
  obtain ⟨m1, r⟩ := y
  intro h2 h3
  have h4 : TOk W D inp n S' m1 := ⟨h2, prefix_get h1 h.inp⟩
  dsimp only at h3
  cases r <;> cases y' <;> dsimp only at h3 <;> first | exact h3.elim | skip
  · exact hash_write h4 (placeTy_mono h1 hp) h3
  · subst h3; exact hash_err
  · subst h3; exact hash_panic
  · exact ⟨rfl, fun _ _ h => nomatch h⟩

theorem ptrKeyAt_same {S : List ObjTy} {l : Loc} {m : Mem} {k e : Ty} (hk : W.resolve k = .ptr e) (h : TOk W D inp n S m) (hp : PlaceTy W S l k)
    {scratch : DM} {sT : DR} (hs : scratch.2 = sT.2) {c : Nat} : HashSame l (ptrKeyAt scratch b c m) (ptrKeyDecode sT b c) := by
  unfold ptrKeyAt ptrKeyDecode
  refine hash_onOk fun _ _ => hash_ite (fun _ => hash_onOk fun _ _ => ⟨rfl, fun a g _ hg => ?_⟩) fun _ => ?_
  · obtain ⟨x, hx, hxt⟩ := h.read hp
    rw [hg] at hx
    cases hx
    exact scalar_hv (.inr (.inr (.inr (.inr (.inr (.inr ⟨e, hk⟩)))))) hxt
  · rw [hs]
    exact hash_onOk fun _ _ => hash_panic

theorem mapKeyAt_same (hW : WorldOk W D) (hz : FlatZeros W) (hD : ∀ t, Documented t → D t) {U : Methods} (hU : TypedMethods W D U)
    (hs : SameOutcome W U) {ad : Nat → Nat → Loc → Mem → DM} {adT : Nat → Nat → DR}
    (ha : ∀ c d, StaysTyped W D inp n .any (ad c d)) (la : ∀ c d, Local inp (ad c d))
    (sa : ∀ c d, FreshSame W D inp n (fun _ _ => True) .ifaceNil (ad c d) (adT c d)) {k : Ty} (hk : ∀ i, ¬ Plain W k (.iface i)) {c depth : Nat} :
    FreshSame W D inp n HashAlike (flat (W.zero k)) (mapKeyAt W U ad b k c depth) (keyDecode W adT b k c depth) := by
  intro S m h
  have hzk := zero_hasTy hW k
  obtain ⟨h1, h2, -⟩ := h.newVar (hvTy_flat hzk)
  show HashSame _ _ _
  unfold mapKeyAt keyDecode
  cases hu : W.unmOf k with
  | some id => exact unmarshalerAt_same hU hs hz h1 h2
  | none =>
    cases hr : W.resolve k with
    | str =>
      exact scal_key (.inr (.inr (.inr (.inr (.inr (.inl hr)))))) stringDecode_scal (stringAt_keeps hr) hzk
        (stringDecode_good (P := fun _ => True) hr hzk).1 S m h
    | bool => exact scal_key (.inl hr) boolDecode_scal (boolAt_keeps hr) hzk (boolDecode_good (P := fun _ => True) hr hzk).1 S m h
    | int kd => exact scal_key (.inr (.inl ⟨_, hr⟩)) (intDecode_scal _) (intAt_keeps hr) hzk (intDecode_good (P := fun _ => True) hr hzk).1 S m h
    | uint kd =>
      exact scal_key (.inr (.inr (.inl ⟨_, hr⟩))) (uintDecode_scal _) (uintAt_keeps hr) hzk
        (uintDecode_good (P := fun _ => True) hr hzk).1 S m h
    | any => exact anyAt_same hD ha la sa h1 h2
    | iface i => exact absurd ⟨hu, hr⟩ (hk i)
    | ptr e =>
      dsimp only
      have hscr : (anyAt W ad b c depth ⟨(m.new (.var (flat (W.zero k)))).length, []⟩ ((m.new (.var (flat (W.zero k)))).new (.var .ifaceNil))).2 =
          (anyDecode W adT b c depth .ifaceNil).2 := by
        obtain ⟨h3, h4, -⟩ := h1.newVar (t := .any) (z := .ifaceNil) (.anyNil rfl)
        exact (anyAt_same hD ha la sa h3 h4).1
      cases W.unmOf e with
      | some id => exact hash_err
      | none =>
        dsimp only
        cases W.resolve e with
        | str => exact ptrKeyAt_same hr h1 h2 rfl
        | bool => exact ptrKeyAt_same hr h1 h2 rfl
        | int _ => exact ptrKeyAt_same hr h1 h2 rfl
        | uint _ => exact ptrKeyAt_same hr h1 h2 rfl
        | any => exact ptrKeyAt_same hr h1 h2 hscr
        | iface _ => exact ptrKeyAt_same hr h1 h2 hscr
        | _ => exact hash_err
    | _ => exact hash_err

end Ifaces

/-! ### Structs and dispatch -/

section Structs
variable {W : World} {D : Ty → Prop} {inp n : Nat} {b : Bytes} {t : Ty}

theorem structLoopAt_same (hzs : ∀ t, Slot W t (W.zero t)) {id : Nat} (ht : W.resolve t = .struct id) {dec : FieldSet → Nat → Loc → Mem → DM}
    {decT : FieldSet → Nat → Val → DR} (hd : ∀ key i f c, FieldFor W id key i f → StaysTyped W D inp n f.ty (dec (mkSet W i f) c))
    (hs : ∀ key i f c, FieldFor W id key i f → Same W D inp n f.ty (Slot W f.ty) (Slot W f.ty) (dec (mkSet W i f) c) (decT (mkSet W i f) c))
    {skip : Nat → Res Nat} {f c : Nat} {S : List ObjTy} {l : Loc} {m : Mem} {vs : List Val} (h : TOk W D inp n S m) (hp : PlaceTy W S l t)
    (hvs : FieldShapes W id vs) :
    Alike (IsStruct W id) (structLoopAt (fieldSets W 0 (W.fields id)) dec skip b f c l m)
      (structLoop (fieldSets W 0 (W.fields id)) decT skip b f c vs) := by
  induction f generalizing c m S vs with
  | zero => exact alike_diverge
  | succ f ih =>
    unfold structLoopAt structLoop
    refine alike_ite (fun _ => alike_err) fun _ => alike_onOk ?_
    rintro ⟨fld, cn⟩ hk
    simp only [decodeKey, Res.bind_eq_ok] at hk
    obtain ⟨⟨ob, cn'⟩, -, hk⟩ := hk
    cases hk
    refine alike_ite (fun _ => alike_err) fun _ => ?_
    have key : ∀ {S1 : List ObjTy} {m1 : Mem} {vs1 : List Val} {r : Res Nat}, S <+: S1 → TOk W D inp n S1 m1 → (∀ c, r = .ok c → FieldShapes W id vs1) →
        Alike (IsStruct W id) (onOkM m1 r fun c =>
          if !hasByte b c then (m1, .err (.unexpectedEnd "object" c)) else
          onOkM m1 (idx b c) fun b' =>
          if b' = cRBrace then (m1, .ok (c + 1)) else
          structLoopAt (fieldSets W 0 (W.fields id)) dec skip b f c l m1)
        (onOk (.struct vs1) r fun c =>
          if !hasByte b c then (.struct vs1, .err (.unexpectedEnd "object" c)) else
          onOk (.struct vs1) (idx b c) fun b' =>
          if b' = cRBrace then (.struct vs1, .ok (c + 1)) else
          structLoop (fieldSets W 0 (W.fields id)) decT skip b f c vs1) := by
      intro S1 m1 vs1 r hs1 h1 hr
      refine alike_onOk fun c2 hc2 => ?_
      have h2 := hr _ hc2
      refine alike_ite (fun _ => alike_err) fun _ => alike_onOk fun _ _ => ?_
      exact alike_ite (fun _ => alike_ok ⟨_, rfl, h2⟩) fun _ => ih h1 (placeTy_mono hs1 hp) h2
    dsimp only
    rcases hfind : (fieldSets W 0 (W.fields id)).find? (fun s => decide (s.key = ob.getD [])) with _ | fs
    · rw [hfind]
      exact key (List.prefix_refl _) h fun _ _ => hvs
    · obtain ⟨i, fd, hff, rfl⟩ := find_some hfind
      rw [hfind]
      have hpl := place_field hp ht hff.1
      obtain ⟨x, hx, -⟩ := h.read hpl
      have hd1 := hd _ i fd cn' hff S _ m h hpl
      have hi : i < (W.fields id).length := (List.getElem?_eq_some_iff.1 hff.1).1
      have hl := hvs.1
      have hv0 : vs[i]? = some vs[i] := List.getElem?_eq_getElem (by omega)
      have hg := hs _ i fd cn' hff S _ m vs[i] h hpl (hvs.2 i fd _ hff.1 hv0)
      dsimp only [mkSet]
      rw [hx, hv0]
      dsimp only
      unfold mkSet at hg hd1
      revert hg hd1
      generalize dec _ cn' (l.sub i) m = r
      generalize decT _ cn' vs[i] = r'
      obtain ⟨m1, r⟩ := r
      obtain ⟨v', r'⟩ := r'
      rintro ⟨S1, hs1, h1⟩ ⟨e1, e2⟩
      dsimp only at e1 e2 h1
      subst e1
      exact key hs1 h1 fun c hc => fieldShapes_set (K := fun _ => True) hzs hvs hff.1 hv0 (.set (e2 c hc))

theorem hvTy_struct {S : List ObjTy} {id : Nat} (ht : W.resolve t = .struct id) {x : HV} (h : HvTy W D S t x) : ∃ hs, x = .struct hs := by
  cases h with
  | struct => exact ⟨_, rfl⟩
  | _ => simp_all

theorem structAt_same (hzs : ∀ t, Slot W t (W.zero t)) {id : Nat} (ht : W.resolve t = .struct id) {dec : FieldSet → Nat → Nat → Loc → Mem → DM}
    {decT : FieldSet → Nat → Nat → Val → DR} (hd : ∀ key i f c d, FieldFor W id key i f → StaysTyped W D inp n f.ty (dec (mkSet W i f) c d))
    (hs : ∀ key i f c d, FieldFor W id key i f → Same W D inp n f.ty (Slot W f.ty) (Slot W f.ty) (dec (mkSet W i f) c d) (decT (mkSet W i f) c d))
    {c depth : Nat} : Same W D inp n t (IsStruct W id) (IsStruct W id) (structAt (fieldSets W 0 (W.fields id)) dec b c depth)
      (structDecode (fieldSets W 0 (W.fields id)) decT b c depth) := by
  intro S l m v h hp hv
  unfold structAt structDecode
  refine alike_ite (fun _ => alike_err) fun _ => alike_ite (fun _ => alike_err) fun _ => alike_onOk fun _ _ => ?_
  refine alike_ite (fun _ => alike_onOk fun _ _ => alike_ok hv) fun _ => alike_onOk fun _ _ => ?_
  refine alike_ite (fun _ => alike_err) fun _ => alike_onOk fun _ _ => alike_ite (fun _ => alike_err) fun _ => alike_onOk fun _ _ => ?_
  refine alike_ite (fun _ => alike_err) fun _ => alike_onOk fun _ _ => alike_ite (fun _ => alike_err) fun _ => ?_
  refine alike_ite (fun _ => alike_err) fun _ => alike_onOk fun _ _ => alike_ite (fun _ => alike_ok hv) fun _ => ?_
  obtain ⟨x, hx, hxt⟩ := h.read hp
  obtain ⟨xs, rfl⟩ := hvTy_struct ht hxt
  rw [hx]
  obtain ⟨vs, rfl, hvs⟩ := hv
  exact structLoopAt_same hzs ht (fun key i f c => hd key i f c _) (fun key i f c => hs key i f c _) h hp hvs

theorem wrappable_slot {e : Ty} (he : wrappable W e = true) : ∀ x, Anything x → Slot W e x := by
  unfold wrappable at he
  revert he
  cases hue : W.unmOf e with
  | some id => exact fun _ x _ => .unm hue
  | none =>
    cases hr : W.resolve e with
    | bool => exact fun _ => slot_leaf (by simp [hr]) (by simp [hr]) (by simp [hr])
    | int k => exact fun _ => slot_leaf (by simp [hr]) (by simp [hr]) (by simp [hr])
    | uint k => exact fun _ => slot_leaf (by simp [hr]) (by simp [hr]) (by simp [hr])
    | f32 => exact fun _ => slot_leaf (by simp [hr]) (by simp [hr]) (by simp [hr])
    | f64 => exact fun _ => slot_leaf (by simp [hr]) (by simp [hr]) (by simp [hr])
    | _ => intro h; cases h

theorem fieldAt_same (hW : WorldOk W D) {rec : Ty → Nat → Nat → Loc → Mem → DM} {recT : Ty → Nat → Nat → Val → DR} {s : FieldSet} {c depth : Nat}
    (hu : s.str = true → W.unmOf s.ty = none) (hrec : Same W D inp n s.ty (Slot W s.ty) (Slot W s.ty) (rec s.ty c depth) (recT s.ty c depth)) :
    Same W D inp n s.ty (Slot W s.ty) (Slot W s.ty) (fieldAt W rec b s c depth) (fieldDecode W recT b s c depth) := by
  intro S l m v h hp hv
  unfold fieldAt fieldDecode
  refine alike_ite (fun hs => ?_) fun _ => hrec _ _ _ _ h hp hv
  cases hr : W.resolve s.ty with
  | ptr e =>
    refine alike_ite (fun hw => ?_) fun _ => alike_err
    exact ptrAt_same (inner := fun c _ => scalarAt (wrappedDecode W e b c)) (innerT := fun c _ v => wrappedDecode W e b c v) ⟨hu hs, hr⟩
      (zero_hasTy hW e) (fun _ _ _ _ _ _ _ => (scalarAt_same (wrappedDecode_scal _)).imp (wrappable_slot hw)) _ _ _ _ h hp hv
  | _ => exact alike_ite (fun hw => (scalarAt_same (wrappedDecode_scal _)).imp (wrappable_slot hw)) fun _ => alike_err

/-- No interface type with methods among the components. -/
def NoIface (W : World) (t : Ty) : Prop := ∀ t' i, Reach W t t' → ¬ Plain W t' (.iface i)

theorem Reach.head {a b c : Ty} (h : Component W a b) (h2 : Reach W b c) : Reach W a c := by
  induction h2 with
  | refl => exact .step .refl h
  | step _ hc ih => exact .step ih hc

theorem NoIface.comp {t' : Ty} (h : NoIface W t) (hc : Component W t t') : NoIface W t' := fun u i hu => h u i (Reach.head hc hu)

theorem noIface_any : NoIface W .any := by
  intro u i hu
  have : u = .any := by
    induction hu with
    | refl => rfl
    | step _ hc ih =>
      subst ih
      cases hc with
      | ptr h => exact nomatch h.2
      | slice h => exact nomatch h.2
      | array h => exact nomatch h.2
      | mapKey h => exact nomatch h.2
      | mapVal h => exact nomatch h.2
      | field h => exact nomatch h.2
  subst this
  exact fun h => nomatch h.2

theorem Same.fresh {d : Loc → Mem → DM} {e : Val → DR} {T T' : Val → Prop} (h : Same W D inp n t T T' d e) {z : Val} (hz : HasTy W D t z) (hT : T z) :
    FreshSame W D inp n (fun _ _ => True) (flat z) d (e z) := by
  intro S m hm
  obtain ⟨h1, h2, -⟩ := hm.newVar (hvTy_flat hz)
  exact ⟨(h _ _ _ z h1 h2 hT).1, fun _ _ _ _ => trivial⟩

theorem nonPtrAt_same (hW : WorldOk W D) (hz : FlatZeros W) (hD : ∀ t, Documented t → D t) {U : Methods} (hU : TypedMethods W D U)
    (hc : Confined U) (hs : SameOutcome W U) {rec : Ty → Nat → Nat → Loc → Mem → DM} {recT : Ty → Nat → Nat → Val → DR}
    (hk : ∀ t c d, StaysTyped W D inp n t (rec t c d)) (hl : ∀ t c d, Local inp (rec t c d))
    (hrec : ∀ t c d, NoIface W t → Same W D inp n t (Slot W t) (Slot W t) (rec t c d) (recT t c d)) (hi : NoIface W t) {c depth : Nat} :
    Same W D inp n t (Slot W t) (Slot W t) (nonPtrAt W U inp rec b t c depth) (decodeNonPtr W recT b t c depth) := by
  intro S l m v h hp hv
  have hzs : ∀ t, Slot W t (W.zero t) := fun t => shape_of_hasTy (zero_hasTy hW t)
  have hany : ∀ c d, FreshSame W D inp n (fun _ _ => True) .ifaceNil (rec .any c d) (recT .any c d .ifaceNil) := fun c d =>
    (hrec .any c d noIface_any).fresh (z := .ifaceNil) (.anyNil rfl) (.leaf (by simp [World.resolve]) (by simp [World.resolve]) (by simp [World.resolve]))
  unfold nonPtrAt decodeNonPtr
  cases hu : W.unmOf t with
  | some id => exact (unmarshalerAt_same hU hs hz h hp).alike.imp fun _ _ => .unm hu
  | none =>
    cases hr : W.resolve t with
    | bool => exact (scalarAt_same boolDecode_scal).imp (slot_leaf (by simp [hr]) (by simp [hr]) (by simp [hr]))
    | int k => exact (scalarAt_same (intDecode_scal _)).imp (slot_leaf (by simp [hr]) (by simp [hr]) (by simp [hr]))
    | uint k => exact (scalarAt_same (uintDecode_scal _)).imp (slot_leaf (by simp [hr]) (by simp [hr]) (by simp [hr]))
    | f32 => exact (scalarAt_same (floatDecode_scal _)).imp (slot_leaf (by simp [hr]) (by simp [hr]) (by simp [hr]))
    | f64 => exact (scalarAt_same (floatDecode_scal _)).imp (slot_leaf (by simp [hr]) (by simp [hr]) (by simp [hr]))
    | str => exact (scalarAt_same stringDecode_scal).imp (slot_leaf (by simp [hr]) (by simp [hr]) (by simp [hr]))
    | slice e =>
      have he : NoIface W e := hi.comp (.slice ⟨hu, hr⟩)
      refine Alike.imp (E := Anything) ?_ (slot_leaf (by simp [hr]) (by simp [hr]) (by simp [hr]))
      refine alike_ite (fun _ => ?_) fun _ => ?_
      · exact bytesAt_same (T := Anything) hr (hk e) (fun c d => hrec e c d he) (zero_hasTy hW e) (hzs e) _ _ _ _ h hp trivial
      · exact sliceAt_same (T := Anything) hr (hk e) (fun c d => hrec e c d he) (zero_hasTy hW e) (hzs e) _ _ _ _ h hp trivial
    | array k e =>
      have he : NoIface W e := hi.comp (.array ⟨hu, hr⟩)
      refine Alike.imp (E := Anything) ?_ (slot_leaf (by simp [hr]) (by simp [hr]) (by simp [hr]))
      exact arrayAt_same (T := Anything) hr (hk e) (fun c d => hrec e c d he) (zero_hasTy hW e) (hzs e) _ _ _ _ h hp trivial
    | map k e =>
      have hke : NoIface W k := hi.comp (.mapKey ⟨hu, hr⟩)
      have hve : NoIface W e := hi.comp (.mapVal ⟨hu, hr⟩)
      refine Alike.imp (E := IsMap) ?_ ?_
      · exact mapAt_same hr (fun c d => mapKeyAt_keeps hW hD hU (hk .any)) (hk e) (fun c d X hX => mapKeyAt_conf hc fun c d => hl .any c d X hX) (hl e)
          (zero_hasTy hW k) (zero_hasTy hW e)
          (fun c d => mapKeyAt_same hW hz hD hU hs (hk .any) (hl .any) hany fun i => hke k i .refl)
          (fun c d => (hrec e c d hve).fresh (zero_hasTy hW e) (hzs e)) _ _ _ _ h hp (isMap_of_slot ⟨hu, hr⟩ hv)
      · intro x hx
        cases x <;> first | exact hx.elim | exact .mapNil ⟨hu, hr⟩ | exact .map ⟨hu, hr⟩
    | struct id =>
      have hstr : ∀ (f : Field) (i : Nat), (mkSet W i f).str = true → W.unmOf (mkSet W i f).ty = none := by
        intro f i hs
        simp only [mkSet, Bool.and_eq_true, stringTagOk] at hs
        show W.unmOf f.ty = none
        cases hf : W.unmOf f.ty with
        | none => rfl
        | some _ => rw [hf] at hs; simp at hs
      refine Alike.imp (E := IsStruct W id) ?_ ?_
      · exact structAt_same hzs hr (fun key i f c d _ => fieldAt_keeps (s := mkSet W i f) hW (hk f.ty c d))
          (fun key i f c d hf => fieldAt_same (s := mkSet W i f) hW (hstr f i) (hrec f.ty c d (hi.comp (.field ⟨hu, hr⟩ (List.mem_of_getElem? hf.1)))))
          _ _ _ _ h hp (isStruct_of_slot ⟨hu, hr⟩ hv)
      · rintro x ⟨vs, rfl, h1, h2⟩
        exact .struct ⟨hu, hr⟩ h1 h2
    | any => exact (anyAt_same hD (hk .any) (hl .any) hany h hp).alike.imp (slot_leaf (by simp [hr]) (by simp [hr]) (by simp [hr]))
    | iface i => exact absurd ⟨hu, hr⟩ (hi t i .refl)
    | other => exact alike_err
    | ptr e => exact alike_err
    | named i => exact alike_err

theorem decodeMem_same (hW : WorldOk W D) (hz : FlatZeros W) (hD : ∀ t, Documented t → D t) {U : Methods} (hU : TypedMethods W D U)
    (hc : Confined U) (hs : SameOutcome W U) {f : Nat} {t : Ty} (hi : NoIface W t) {c depth : Nat} :
    Same W D inp b.length t (Slot W t) (Slot W t) (decodeMem W U inp b f t c depth) (decodeF W b f t c depth) := by
  induction f generalizing t c depth with
  | zero => exact fun _ _ _ _ _ _ _ => alike_diverge
  | succ f ih =>
    have hnp : ∀ {t c depth}, NoIface W t → Same W D inp b.length t (Slot W t) (Slot W t) (nonPtrAt W U inp (decodeMem W U inp b f) b t c depth)
        (decodeNonPtr W (decodeF W b f) b t c depth) := fun hi =>
      nonPtrAt_same hW hz hD hU hc hs (fun t c d => decodeMem_keeps hW hD hU) (fun t c d X hX => decodeMem_conf hc hX) (fun t c d hi => ih hi) hi
    intro S l m v h hp hv
    unfold decodeMem decodeF
    cases hu : W.unmOf t with
    | some id => exact hnp hi _ _ _ _ h hp hv
    | none =>
      cases hr : W.resolve t with
      | ptr e =>
        refine alike_ite (fun _ => alike_err) fun _ => ?_
        exact ptrAt_same (inner := nonPtrAt W U inp (decodeMem W U inp b f) b e) (innerT := decodeNonPtr W (decodeF W b f) b e) ⟨hu, hr⟩ (zero_hasTy hW e)
          (hnp (hi.comp (.ptr ⟨hu, hr⟩))) _ _ _ _ h hp hv
      | _ => exact hnp hi _ _ _ _ h hp hv

/-- The memory with the copy of the input. -/
theorem tok_input {S : List ObjTy} {m : Mem} (h : MemTy W D S m) (data : Bytes) :
    TOk W D m.length data.length (S ++ [.var (.array data.length (.uint .u8))]) (m.new (.var (.arr (data.map fun c => .uint c.toNat)))) := by
  have hpre : S <+: S ++ [ObjTy.var (.array data.length (.uint .u8))] := List.prefix_append _ _
  have hat : (S ++ [ObjTy.var (.array data.length (.uint .u8))])[m.length]? = some (.var (.array data.length (.uint .u8))) := by
    rw [← h.length, List.getElem?_append_right (Nat.le_refl _), Nat.sub_self]
    rfl
  refine ⟨⟨by rw [new_length, List.length_append, h.length]; rfl, ?_⟩, hat⟩
  intro a o c ho hc
  by_cases ha : a < m.length
  · rw [new_old ha] at hc
    rw [List.getElem?_append_left (by rw [h.length]; exact ha)] at ho
    exact cellTy_mono hpre (h.cells a o c ho hc)
  · have h1 := cell_lt hc
    rw [new_length] at h1
    have : a = m.length := by omega
    subst this
    rw [new_new] at hc
    cases hc
    rw [hat] at ho
    cases ho
    refine .var (.arr rfl (by simp) fun y hy => ?_)
    obtain ⟨x, -, rfl⟩ := List.mem_map.1 hy
    have := x.toNat_lt
    exact .uint rfl (by simp only [InURange, uintMax]; omega)

theorem unmarshalMem_keeps (hW : WorldOk W D) (hD : ∀ t, Documented t → D t) {U : Methods} (hU : TypedMethods W D U) {fuel : Nat} {data : Bytes}
    {S : List ObjTy} {l : Loc} {m : Mem} (h : MemTy W D S m) (hp : PlaceTy W S l t) :
    ∃ S', S <+: S' ∧ MemTy W D S' (unmarshalMem W U fuel data t l m).1 := by
  unfold unmarshalMem
  have hm : ∃ S', S <+: S' ∧ MemTy W D S' m := ⟨S, List.prefix_refl _, h⟩
  split
  · exact hm
  · cases compileD W fuel [] t with
    | ok a =>
      have hpre : S <+: S ++ [ObjTy.var (.array data.length (.uint .u8))] := List.prefix_append _ _
      obtain ⟨S', h1, h2⟩ := decodeMem_keeps (b := data) hW hD hU (f := data.length + 1) (c := 0) (depth := 0) _ _ _ (tok_input h data) (placeTy_mono hpre hp)
      dsimp only [onOkM]
      revert h2
      generalize decodeMem W U m.length data (data.length + 1) t 0 0 l _ = x
      obtain ⟨m1, r⟩ := x
      intro h2
      cases r <;> exact ⟨S', hpre.trans h1, h2.mem⟩
    | err e => exact hm
    | panic p => exact hm
    | diverge => exact hm

theorem unmarshalMem_same (hW : WorldOk W D) (hz : FlatZeros W) (hD : ∀ t, Documented t → D t) {U : Methods} (hU : TypedMethods W D U)
    (hc : Confined U) (hs : SameOutcome W U) (hi : NoIface W t) {fuel : Nat} {data : Bytes} {S : List ObjTy} {l : Loc} {m : Mem} (h : MemTy W D S m)
    (hp : PlaceTy W S l t) {v : Val} (hv : HasTy W D t v) :
    (unmarshalMem W U fuel data t l m).2 = (unmarshal W fuel data (.ptr t v)).2 := by
  unfold unmarshalMem unmarshal unmarshalInto
  split
  · rfl
  · dsimp only
    generalize compileD W fuel [] t = rc
    cases rc with
    | ok a =>
      have hpre : S <+: S ++ [ObjTy.var (.array data.length (.uint .u8))] := List.prefix_append _ _
      obtain ⟨h1, -⟩ := decodeMem_same (b := data) hW hz hD hU hc hs hi (f := data.length + 1) (c := 0) (depth := 0) _ _ _ v (tok_input h data)
        (placeTy_mono hpre hp) (shape_of_hasTy hv)
      dsimp only [onOkM, onOk]
      revert h1
      generalize decodeMem W U m.length data (data.length + 1) t 0 0 l _ = x
      generalize decodeF W data (data.length + 1) t 0 0 v = y
      obtain ⟨m1, r⟩ := x
      obtain ⟨v1, r'⟩ := y
      intro h1
      dsimp only at h1
      subst h1
      cases r <;> rfl
    | err e => rfl
    | panic p => rfl
    | diverge => rfl

end Structs

end Verif

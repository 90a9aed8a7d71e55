import Verif.Proofs.UnquoteUse
import Verif.Proofs.Mem
/-
The decoders on memory (Model/Mem.lean) do on unshared destinations what the decoders on trees (Model/Decode.lean) do.
-/
set_option linter.unusedSimpArgs false
namespace Verif
open Spec

/-! ### Scalars -/

/-- A scalar decoder leaves its destination alone or stores a value that does not depend on it. -/
def Scal (D : Val → DR) : Prop := ∃ r, (∀ rv, D rv = (rv, r)) ∨ ∃ s, RefFree s ∧ s ≠ .other ∧ ∀ rv, D rv = (s, r)

theorem scal_keep {r : Res Nat} : Scal (fun rv => (rv, r)) := ⟨r, .inl fun _ => rfl⟩

theorem scal_set {s : Val} {r : Res Nat} (h : RefFree s) (ho : s ≠ .other) : Scal (fun _ => (s, r)) := ⟨r, .inr ⟨s, h, ho, fun _ => rfl⟩⟩

theorem scal_onOk {α : Type} {r : Res α} {k : α → Val → DR} (hk : ∀ a, r = .ok a → Scal (k a)) : Scal (fun rv => onOk rv r (fun a => k a rv)) := by
  cases r with
  | ok a => exact hk a rfl
  | err e => exact scal_keep
  | panic p => exact scal_keep
  | diverge => exact scal_keep

theorem scal_ite {p : Prop} [Decidable p] {x y : Val → DR} (hx : p → Scal x) (hy : ¬ p → Scal y) : Scal (fun rv => if p then x rv else y rv) := by
  by_cases h : p
  · simp only [h, if_true]; exact hx h
  · simp only [h, if_false]; exact hy h

section Scalars
variable {W : World} {b : Bytes} {c : Nat}

theorem processInt_scal (k : IKind) (s : Bytes) : Scal (processInt k s c) := by
  unfold processInt
  cases parseInt64 s with
  | ok i => exact scal_ite (fun _ => scal_keep) fun _ => scal_set trivial (by simp)
  | err e => exact scal_keep
  | panic p => exact scal_keep
  | diverge => exact scal_keep

theorem processUint_scal (k : UKind) (s : Bytes) : Scal (processUint k s c) := by
  unfold processUint
  cases parseUint s with
  | none => exact scal_keep
  | some n => exact scal_ite (fun _ => scal_keep) fun _ => scal_set trivial (by simp)

theorem processFloat_scal (f : Bool) (s : Bytes) : Scal (processFloat W f s c) := by
  unfold processFloat
  cases floatOfText W s with
  | none => exact scal_keep
  | some n =>
    exact scal_ite (fun _ => scal_ite (fun _ => scal_keep) fun _ => scal_set trivial (by simp)) fun _ => scal_set trivial (by simp)

theorem intDecode_scal (k : IKind) : Scal (intDecode k b c) := by
  unfold intDecode
  refine scal_onOk ?_
  rintro ⟨ob, e⟩ -
  cases ob with
  | none => exact scal_keep
  | some s => exact processInt_scal k s

theorem uintDecode_scal (k : UKind) : Scal (uintDecode k b c) := by
  unfold uintDecode
  refine scal_onOk ?_
  rintro ⟨ob, e⟩ -
  cases ob with
  | none => exact scal_keep
  | some s => exact processUint_scal k s

theorem floatDecode_scal (f : Bool) : Scal (floatDecode W f b c) := by
  unfold floatDecode
  refine scal_onOk ?_
  rintro ⟨ob, e⟩ -
  cases ob with
  | none => exact scal_keep
  | some s => exact processFloat_scal f s

theorem boolDecode_scal : Scal (boolDecode b c) := by
  unfold boolDecode
  refine scal_ite (fun _ => scal_keep) fun _ => scal_onOk fun _ _ => scal_ite (fun _ => ?_) fun _ => scal_ite (fun _ => ?_) fun _ => scal_keep
  · exact scal_onOk fun _ _ => scal_set trivial (by simp)
  · exact scal_onOk fun _ _ => scal_keep

theorem stringDecode_scal : Scal (stringDecode b c) := by
  unfold stringDecode
  refine scal_onOk ?_
  rintro ⟨ob, e⟩ -
  cases ob with
  | none => exact scal_keep
  | some s => exact scal_set trivial (by simp)

theorem decodeString_scal (t : Ty) (s : Bytes) : Scal (decodeString W t s c) := by
  unfold decodeString
  cases W.resolve t with
  | bool => cases parseBool s with
    | none => exact scal_keep
    | some v => exact scal_set trivial (by simp)
  | f32 => exact processFloat_scal _ _
  | f64 => exact processFloat_scal _ _
  | uint k => exact processUint_scal _ _
  | int k => exact processInt_scal _ _
  | _ => exact scal_keep

theorem wrappedDecode_scal (t : Ty) : Scal (wrappedDecode W t b c) := by
  unfold wrappedDecode
  refine scal_onOk ?_
  rintro ⟨ob, e⟩ -
  cases ob with
  | none => exact scal_keep
  | some s =>
    obtain ⟨r, h | ⟨x, hx, ho, h⟩⟩ := decodeString_scal (W := W) (c := c) t s
    · simp only [h]
      exact scal_onOk fun _ _ => scal_keep
    · simp only [h]
      cases r with
      | ok a => exact scal_set hx ho
      | err e => exact scal_set hx ho
      | panic p => exact scal_set hx ho
      | diverge => exact scal_set hx ho

variable {S : Nat → List HV → Prop}

theorem scalarAt_keep {D : Val → DR} {r : Res Nat} (h : ∀ rv, D rv = (rv, r)) (l : Loc) (m : Mem) : scalarAt D l m = (m, r) := by
  simp only [scalarAt, h]

theorem scalarAt_set {D : Val → DR} {r : Res Nat} {s : Val} (hs : s ≠ .other) (h : ∀ rv, D rv = (s, r)) (l : Loc) (m : Mem) :
    scalarAt D l m = (m.write l (flat s), r) := by
  simp only [scalarAt, h]

theorem scalarAt_sim {D : Val → DR} (h : Scal D) : MSim S (scalarAt D) D := by
  intro l m v fp hh
  obtain ⟨r, h | ⟨s, hs, ho, h⟩⟩ := h
  · rw [scalarAt_keep h, h]
    exact mpost_done hh.now
  · rw [scalarAt_set ho h, h]
    exact mpost_done (hh.now.write_flat hs)

end Scalars

/-! ### Pointers -/

section Containers
variable {S : Nat → List HV → Prop} {b : Bytes}

/-- A run through a pointer. -/
theorem mpost_deref {m : Mem} {l : Loc} {v : Val} {fp : List Nat} {o : Nat} (h : Holds S m l (.ptr v) fp) (hr : m.read l = some (.ptr o []))
    {d : Loc → Mem → DM} {dt : Val → DR} (hd : MSim S d dt) : MPost S l m fp (d ⟨o, []⟩ m) (match dt v with | (v, r) => (.ptr v, r)) := by
  obtain ⟨o', c1, hr', h1, hk⟩ := h.deref
  have : o = o' := by simpa using hr.symm.trans hr'
  subst this
  obtain ⟨h2, h3⟩ := hd _ _ _ _ h1
  exact ⟨h2, hk _ _ h3⟩

/-- A new object leaves everything as it is. -/
theorem now_new {m : Mem} {l : Loc} {v : Val} {fp : List Nat} {x : Cell} (h : Holds S m l v fp) : Now S l m fp (m.new x) v := by
  refine ⟨fp, h.frame fun a ha _ => new_old ha, ?_⟩
  refine ⟨by rw [new_length]; omega, fun a ha _ _ => new_old ha, ?_, fun a ha => .inl ha⟩
  intro x hx
  rw [new_old h.lt]
  exact Spec.OnlyAt.refl (l := l) (fp := []) |>.around x hx

theorem ptrAt_sim {inner : Nat → Nat → Loc → Mem → DM} {innerT : Nat → Nat → Val → DR} {z : Val} {c depth : Nat} (hz : RefFree z)
    (hi : ∀ c d, MSim S (inner c d) (innerT c d)) : MSim S (ptrAt inner (flat z) b c depth) (ptrDecode innerT z b c depth) := by
  intro l m v fp hh
  unfold ptrAt ptrDecode
  refine mpost_onOk hh.now fun x _ => mpost_ite (fun _ => ?_) fun _ => ?_
  · exact mpost_onOk hh.now fun _ _ => mpost_done (hh.now.write_flat (v2 := .ptrNil) trivial)
  · obtain ⟨g, hg, ho⟩ := hh.value
    rw [hg]
    have hS : Kept S m := hh.kept
    have hl : l.obj < m.length := hh.lt
    cases ho with
    | ptrNil =>
      have h3 : Now S l m [] ((m.new (.var (flat z))).write l (.ptr m.length [])) (.ptr z) := by
        refine (now_new hh).write (c := [m.length]) (.ptr new_new (owns_flat hz)) (by simp) ?_
        intro a ha
        rw [List.mem_singleton.1 ha]
        refine ⟨by omega, fun es h => ?_, .inr (Nat.le_refl _)⟩
        have := hS.lt h
        omega
      refine MPost.from h3 fun fp1 h4 => mpost_deref h4 (read_write (h := .ptrNil) ?_) (hi c depth)
      rw [read_congr (new_old hl)]
      exact hg
    | ptr h1 h2 => exact mpost_deref hh hg (hi c depth)
    | _ => exact mpost_done hh.now

/-! ### Slices -/

/-- The local slice of the loop: empty and not yet seen by the destination, or what the destination holds. -/
def SliceSt (S : Nat → List HV → Prop) (l : Loc) (m : Mem) (o : Nat) (sl : List Val) (rv : Val) : Prop :=
  (sl = [] ∧ m[o]? = some (.var (.arr []))) ∨ ((∀ es, ¬ S o es) ∧ rv = .slice sl ∧ m.read l = some (.slice o 0 sl.length))

/-- What the array of the loop holds. -/
theorem SliceSt.array {l : Loc} {m : Mem} {o : Nat} {sl : List Val} {rv : Val} {fp : List Nat} (h : SliceSt S l m o sl rv) (hh : Holds S m l rv fp) :
    ∃ hs c, m[o]? = some (.var (.arr hs)) ∧ hs.length = sl.length ∧ OwnsAll m S hs sl c ∧ c.Nodup ∧ (∀ a ∈ c, a ∈ fp ∧ a ≠ l.obj ∧ ∀ es, ¬ S a es) ∧
      (sl ≠ [] → rv = .slice sl ∧ m.read l = some (.slice o 0 hs.length) ∧ fp = o :: c ∧ ∀ es, ¬ S o es) := by
  rcases h with ⟨rfl, h1⟩ | ⟨h0, rfl, h1⟩
  · exact ⟨[], [], h1, rfl, .nil, List.nodup_nil, by simp, fun h => absurd rfl h⟩
  · obtain ⟨g, hg, ho⟩ := hh.value
    have : g = .slice o 0 sl.length := by simpa using hg.symm.trans h1
    subst this
    generalize hn : sl.length = n at ho
    cases ho with
    | shared hs => exact absurd hs (h0 _)
    | @slice _ hs _ c h2 h3 =>
      have hu := hh.unshared
      rw [List.nodup_cons, List.nodup_cons] at hu
      refine ⟨hs, c, h2, by first | rfl | exact hn.symm, h3, hu.2.2, ?_, ?_⟩
      · intro a ha
        refine ⟨by simp [ha], ?_, ?_⟩
        · rintro rfl
          exact hu.1 (by simp [ha])
        · intro es hs
          exact hh.apart a es hs (by simp [ha])
      · intro _
        exact ⟨rfl, by rw [← hn]; exact hg, rfl, h0⟩

theorem write_self {m : Mem} {l : Loc} {g : HV} (h : m.read l = some g) : m.write l g = m := by
  obtain ⟨x, hx, hp⟩ := read_eq_some.1 h
  unfold Mem.write
  rw [hx]
  dsimp only
  rw [HV.put_self hp]
  obtain ⟨hi, hx⟩ := List.getElem?_eq_some_iff.1 hx
  rw [← hx, List.set_getElem_self]

theorem sliceLoopAt_sim {dec : Nat → Loc → Mem → DM} {decT : Nat → Val → DR} {z : Val} {es : Nat} (hz : RefFree z)
    (hd : ∀ c, MSim S (dec c) (decT c)) {f c o : Nat} {l : Loc} {m : Mem} {sl : List Val} {rv : Val} {fp : List Nat}
    (hh : Holds S m l rv fp) (hs : SliceSt S l m o sl rv) :
    MPost S l m fp (sliceLoopAt dec (flat z) es b f c o l m) (sliceLoop decT z es b f c sl rv) := by
  induction f generalizing c o m sl rv fp with
  | zero => exact mpost_done hh.now
  | succ f ih =>
    unfold sliceLoopAt sliceLoop
    refine mpost_ite (fun _ => mpost_done hh.now) fun _ => mpost_onOk hh.now ?_
    rintro ⟨i, c1⟩ -
    refine mpost_ite (fun _ => mpost_done hh.now) fun _ => ?_
    obtain ⟨hs', ce, hm, hlen, howns, hnd, hce, hne⟩ := hs.array hh
    rw [read_var.2 hm]
    dsimp only
    rw [hlen]
    refine mpost_ite (fun _ => mpost_done hh.now) fun _ => ?_
    have hS : Kept S m := hh.kept
    have hl : l.obj < m.length := hh.lt
    -- what follows the element
    have fin : ∀ {m1 : Mem} {sl' : List Val} {r : Res Nat} {o' n : Nat} {rv1 : Val}, Now S l m fp m1 rv1 → (∀ es, ¬ S o' es) → n = sl'.length →
        Now S l m fp (m1.write l (.slice o' 0 n)) (.slice sl') →
        MPost S l m fp (onOkM m1 r fun c =>
          if !hasByte b c then (m1.write l (.slice o' 0 n), .err (.unexpectedEnd "array" c)) else
          onOkM (m1.write l (.slice o' 0 n)) (idx b c) fun b' =>
          if b' = cRBrace then (m1.write l (.slice o' 0 n), .ok (c + 1)) else
          sliceLoopAt dec (flat z) es b f c o' l (m1.write l (.slice o' 0 n)))
        (onOk rv1 r fun c =>
          if !hasByte b c then (.slice sl', .err (.unexpectedEnd "array" c)) else
          onOk (.slice sl') (idx b c) fun b' =>
          if b' = cRBrace then (.slice sl', .ok (c + 1)) else
          sliceLoop decT z es b f c sl' (.slice sl')) := by
      intro m1 sl' r o' n rv1 h1 ho' hn h2
      refine mpost_onOk h1 fun c2 _ => mpost_ite (fun _ => mpost_done h2) fun _ => mpost_onOk h2 fun _ _ =>
        mpost_ite (fun _ => mpost_done h2) fun _ => ?_
      refine MPost.from h2 fun fp1 h3 => ih h3 (.inr ⟨ho', rfl, ?_⟩)
      obtain ⟨fp2, h4, -⟩ := h1
      obtain ⟨g, hg⟩ := h4.read
      rw [read_write hg, hn]
    by_cases hi : i ≥ sl.length
    · have hgrow : decide (i ≥ sl.length) = true := by simpa using hi
      simp only [hgrow, if_true]
      have hz0 : (sl ++ List.replicate (i + 1 - sl.length) z)[i]? = some z := by
        rw [List.getElem?_append_right hi, List.getElem?_replicate]
        simp
        omega
      rw [hz0]
      dsimp only
      -- the new array
      have hnew : Holds S (m.new (.var (.arr (hs' ++ List.replicate (i + 1 - sl.length) (flat z))))) ⟨m.length, []⟩
          (.arr (sl ++ List.replicate (i + 1 - sl.length) z)) ce := by
        refine ⟨⟨_, read_var.2 new_new, .arr ?_⟩, ?_, hS.mono fun _ => new_old, ?_⟩
        · have h1 := ownsAll_append (ownsAll_frame (m' := m.new (.var (.arr (hs' ++ List.replicate (i + 1 - sl.length) (flat z)))))
            (fun _ _ h => h) howns fun a ha => new_old (ownsAll_lt howns a ha)) (ownsAll_replicate (owns_flat hz) (i + 1 - sl.length))
          simpa using h1
        · refine List.nodup_cons.2 ⟨fun hm => ?_, hnd⟩
          have := ownsAll_lt howns _ hm
          simp at this
        · intro a es ha hm
          have := hS.lt ha
          rcases List.mem_cons.1 hm with hm | hm
          · simp only at hm; omega
          · exact (hce a hm).2.2 es ha
      obtain ⟨ci, he1, he2⟩ := hnew.elem hz0
      have hci : ci = [] := by
        obtain ⟨_, -, ho⟩ := he1.value
        exact owns_refFree ho hz
      subst hci
      obtain ⟨hr, hnow⟩ := hd c1 _ _ _ _ he1
      have hwhole := he2 _ _ hnow
      simp only [Loc.sub, List.nil_append] at hr hnow hwhole
      revert hr hnow hwhole
      generalize dec c1 ⟨m.length, [i]⟩ _ = x
      generalize decT c1 z = y
      obtain ⟨m1, r⟩ := x
      obtain ⟨v, r'⟩ := y
      intro hr hnow hwhole
      simp only at hr hnow hwhole
      subst hr
      obtain ⟨c2, g1, g2⟩ := hnow
      have hold : ∀ a, a < m.length → m1[a]? = m[a]? := by
        intro a ha
        rw [g2.same a (by rw [new_length]; omega) (by simp only; omega) (by simp), new_old ha]
      have hlen1 : m.length < m1.length := by
        have := g2.grows
        rw [new_length] at this
        omega
      have h1 : Now S l m fp m1 rv := by
        refine ⟨fp, hh.frame fun a ha _ => hold a ha, ⟨by omega, fun a ha _ _ => hold a ha, ?_, fun a ha => .inl ha⟩⟩
        intro x hx
        rw [hold _ hl]
        exact Spec.OnlyAt.refl (l := l) (fp := []) |>.around x hx
      refine fin h1 (fun es h => by have := hS.lt h; omega) (by simp; omega) ?_
      obtain ⟨c3, g3, g4⟩ := hwhole
      obtain ⟨g, hg, hog⟩ := g3.value
      cases hog with
      | @arr hs3 _ _ hog =>
        have hn3 : i + 1 = hs3.length := by
          rw [ownsAll_length hog]
          simp
          omega
        have hsl := Owns.slice (read_var.1 hg) hog
        rw [← hn3] at hsl
        refine h1.write hsl g3.unshared ?_
        intro a ha
        rcases List.mem_cons.1 ha with rfl | ha
        · exact ⟨by omega, fun es h => by have := hS.lt h; omega, .inr (Nat.le_refl _)⟩
        · rcases g4.parts a ha with h5 | h5
          · exact ⟨(hce a h5).2.1, (hce a h5).2.2, .inl (hce a h5).1⟩
          · rw [new_length] at h5
            exact ⟨by omega, fun es h => by have := hS.lt h; omega, .inr (by omega)⟩
    · have hgrow : decide (i ≥ sl.length) = false := by simpa using hi
      simp only [hgrow, if_false, Bool.false_eq_true]
      have hslne : sl ≠ [] := by
        rintro rfl
        simp at hi
      obtain ⟨hrv, hrl, hfp, hSo⟩ := hne hslne
      subst hrv hfp
      have hi' : i < sl.length := by omega
      have hv0 : sl[i]? = some sl[i] := List.getElem?_eq_getElem hi'
      rw [hv0]
      dsimp only
      have hu := List.nodup_cons.1 hh.unshared
      have hol : l.obj ≠ o := fun h => hu.1 (by simp [h])
      have harr : Holds S m ⟨o, []⟩ (.arr sl) ce := by
        refine ⟨⟨_, read_var.2 hm, .arr howns⟩, hu.2, hS, fun a es ha hm => ?_⟩
        exact hh.apart a es ha (List.mem_cons_of_mem _ hm)
      obtain ⟨ci, he1, he2⟩ := harr.elem hv0
      obtain ⟨hr, hnow⟩ := hd c1 _ _ _ _ he1
      have hwhole := he2 _ _ hnow
      simp only [Loc.sub, List.nil_append] at hr hnow hwhole
      revert hr hnow hwhole
      generalize dec c1 ⟨o, [i]⟩ _ = x
      generalize decT c1 sl[i] = y
      obtain ⟨m1, r⟩ := x
      obtain ⟨v, r'⟩ := y
      intro hr hnow hwhole
      simp only at hr hnow hwhole
      subst hr
      have hread : m1.read l = some (.slice o 0 sl.length) := by
        obtain ⟨c3, g3, g4⟩ := hwhole
        rw [read_congr (g4.same _ hl hol fun h => hu.1 (by simp [h])), hrl, hlen]
      have h1 : Now S l m (o :: ce) m1 (.slice (sl.set i v)) := by
        refine ref_core hh hrl harr ?_ hwhole
        intro h' c1' e1 e2
        cases e2 with
        | @arr hs3 _ _ e3 =>
          have : hs'.length = hs3.length := by
            rw [ownsAll_length e3, hlen]
            simp
          rw [this]
          exact .slice e1 e3
      refine fin h1 hSo (by simp) ?_
      rw [write_self hread]
      exact h1

theorem sliceAt_sim {dec : Nat → Nat → Loc → Mem → DM} {decT : Nat → Nat → Val → DR} {z : Val} {es c depth : Nat} (hz : RefFree z)
    (hd : ∀ c d, MSim S (dec c d) (decT c d)) : MSim S (sliceAt dec (flat z) es b c depth) (sliceDecode decT z es b c depth) := by
  intro l m v fp hh
  have hn := hh.now
  unfold sliceAt sliceDecode
  refine mpost_ite (fun _ => mpost_done hn) fun _ => mpost_ite (fun _ => mpost_done hn) fun _ => mpost_onOk hn fun _ _ => ?_
  refine mpost_ite (fun _ => mpost_onOk hn fun _ _ => mpost_done (hn.write_flat (v2 := .sliceNil) trivial)) fun _ => mpost_ite (fun _ => ?_) fun _ =>
    mpost_ite (fun _ => mpost_done hn) fun _ => mpost_done hn
  refine mpost_ite (fun _ => mpost_done hn) fun _ => mpost_onOk hn fun _ _ => ?_
  refine mpost_ite (fun _ => mpost_done hn) fun _ => ?_
  refine mpost_ite (fun _ => mpost_done hn) fun _ => mpost_onOk hn fun _ _ => ?_
  refine mpost_ite (fun _ => mpost_onOk hn fun _ _ => mpost_done (hn.write_flat (v2 := .sliceNil) trivial)) fun _ => mpost_onOk hn ?_
  rintro ⟨n, c1⟩ -
  refine mpost_ite (fun _ => mpost_done hn) fun _ => mpost_onOk hn fun _ _ => ?_
  refine mpost_ite (fun _ => mpost_done hn) fun _ => mpost_ite (fun _ => mpost_done hn) fun _ => ?_
  exact MPost.from (now_new hh) fun fp1 h1 => sliceLoopAt_sim hz (fun c => hd c _) h1 (.inl ⟨rfl, new_new⟩)

/-- Where the bytes of a string are in the input. -/
theorem stringBytes_place {c e : Nat} {s : Bytes} (h : stringBytes b c = .ok (some s, e)) :
    e - 2 - s.length + s.length ≤ b.length ∧ (b.drop (e - 2 - s.length)).take s.length = s := by
  simp only [stringBytes, Res.ite_err_ok, Res.bind_eq_ok] at h
  obtain ⟨_, x, hx, h⟩ := h
  split at h
  · simp only [Res.bind_eq_ok] at h
    obtain ⟨_, _, h⟩ := h
    cases h
  simp only [Res.ite_err_ok] at h
  obtain ⟨_, _, h⟩ := h
  split at h
  · simp only [Res.bind_eq_ok] at h
    obtain ⟨⟨s', e'⟩, hs, h⟩ := h
    cases h
    obtain ⟨ds, -, hd, he⟩ := readString_sound hs
    have hdrop : b.drop (e' - 2 - s'.length) = s' ++ 34 :: 59 :: b.drop e' := by
      have : e' - 2 - s'.length = (c + 1) + (ds.length + 3) := by omega
      rw [this, ← List.drop_drop, hd, List.drop_succ_cons, show ds.length + 2 = ds.length + 2 from rfl, ← List.drop_drop,
        List.drop_left]
      rfl
    dsimp only
    constructor
    · have := congrArg List.length hdrop
      simp only [List.length_drop, List.length_append, List.length_cons] at this
      omega
    · rw [hdrop, List.take_left]
  · simp only [Res.ite_err_ok] at h
    obtain ⟨_, h⟩ := h
    cases h

theorem owns_bytes {m : Mem} : ∀ (s : Bytes), OwnsAll m S (s.map fun c => .uint c.toNat) (s.map fun c => .uint c.toNat) []
  | [] => .nil
  | _ :: s => .cons (a := []) (b := []) .uint (owns_bytes s)

theorem bytesAt_sim {dec : Nat → Nat → Loc → Mem → DM} {decT : Nat → Nat → Val → DR} {z : Val} {inp c depth : Nat} (hz : RefFree z)
    (hi : S inp (b.map fun c => .uint c.toNat)) (hd : ∀ c d, MSim S (dec c d) (decT c d)) :
    MSim S (bytesAt inp dec (flat z) b c depth) (bytesDecode decT z b c depth) := by
  intro l m v fp hh
  have hn := hh.now
  unfold bytesAt bytesDecode
  refine mpost_onOk hn fun _ _ => mpost_ite (fun _ => sliceAt_sim hz hd _ _ _ _ hh) fun _ => mpost_onOk hn ?_
  rintro ⟨ob, c1⟩ hs
  cases ob with
  | none => exact mpost_done hn
  | some s =>
    obtain ⟨h1, h2⟩ := stringBytes_place hs
    refine mpost_done (hn.write (c := []) ?_ List.nodup_nil (by simp))
    refine .shared hi (by simpa using h1) ?_
    rw [← List.map_drop, ← List.map_take, h2]
    exact owns_bytes s

/-! ### Arrays -/

theorem arrayLoopAt_sim {dec : Nat → Loc → Mem → DM} {decT : Nat → Val → DR} {skip : Nat → Res Nat} {n : Nat}
    (hd : ∀ c, MSim S (dec c) (decT c)) {f c : Nat} {l : Loc} {m : Mem} {vs : List Val} {fp : List Nat} (hh : Holds S m l (.arr vs) fp) (hv : vs.length = n) :
    MPost S l m fp (arrayLoopAt dec skip n b f c l m) (arrayLoop decT skip b f c vs) := by
  induction f generalizing c m vs fp with
  | zero => exact mpost_done hh.now
  | succ f ih =>
    unfold arrayLoopAt arrayLoop
    refine mpost_ite (fun _ => mpost_done hh.now) fun _ => mpost_onOk hh.now ?_
    rintro ⟨i, c1⟩ -
    refine mpost_ite (fun _ => mpost_done hh.now) fun _ => ?_
    have fin : ∀ {m1 : Mem} {vs' : List Val} {r : Res Nat}, Now S l m fp m1 (.arr vs') → vs'.length = n →
        MPost S l m fp (onOkM m1 r fun c =>
          if !hasByte b c then (m1, .err (.unexpectedEnd "array" c)) else
          onOkM m1 (idx b c) fun b' => if b' = cRBrace then (m1, .ok (c + 1)) else arrayLoopAt dec skip n b f c l m1)
        (onOk (.arr vs') r fun c =>
          if !hasByte b c then (.arr vs', .err (.unexpectedEnd "array" c)) else
          onOk (.arr vs') (idx b c) fun b' => if b' = cRBrace then (.arr vs', .ok (c + 1)) else arrayLoop decT skip b f c vs') := by
      intro m1 vs' r h1 hl
      refine mpost_onOk h1 fun c2 _ => mpost_ite (fun _ => mpost_done h1) fun _ => mpost_onOk h1 fun _ _ =>
        mpost_ite (fun _ => mpost_done h1) fun _ => ?_
      exact MPost.from h1 fun fp1 h2 => ih h2 hl
    dsimp only
    by_cases hi : i < n
    · rw [if_pos hi]
      have hv0 : vs[i]? = some vs[i] := List.getElem?_eq_getElem (by omega)
      rw [hv0]
      dsimp only
      obtain ⟨ci, he1, he2⟩ := hh.elem hv0
      obtain ⟨hr, hnow⟩ := hd c1 _ _ _ _ he1
      have hwhole := he2 _ _ hnow
      revert hr hwhole
      generalize dec c1 (l.sub i) _ = x
      generalize decT c1 vs[i] = y
      obtain ⟨m1, r⟩ := x
      obtain ⟨v, r'⟩ := y
      intro hr hwhole
      simp only at hr hwhole
      subst hr
      exact fin hwhole (by simpa using hv)
    · rw [if_neg hi]
      have hv0 : vs[i]? = none := List.getElem?_eq_none (by omega)
      rw [hv0]
      exact fin hh.now hv

theorem flat_arr (n : Nat) (z : Val) : HV.arr (List.replicate n (flat z)) = flat (.arr (List.replicate n z)) := by
  simp only [flat]
  congr 1
  induction n with
  | zero => rfl
  | succ n ih => simp only [List.replicate_succ, flatList, ih]

theorem refFree_replicate {z : Val} (hz : RefFree z) : ∀ n, RefFreeAll (List.replicate n z)
  | 0 => trivial
  | n + 1 => ⟨hz, refFree_replicate hz n⟩

theorem arrayAt_sim {dec : Nat → Nat → Loc → Mem → DM} {decT : Nat → Nat → Val → DR} {z : Val} {n c depth : Nat} (hz : RefFree z)
    (hd : ∀ c d, MSim S (dec c d) (decT c d)) : MSim S (arrayAt dec (flat z) n b c depth) (arrayDecode decT z n b c depth) := by
  intro l m v fp hh
  have hn := hh.now
  unfold arrayAt arrayDecode
  refine mpost_ite (fun _ => mpost_done hn) fun _ => mpost_ite (fun _ => mpost_done hn) fun _ => mpost_onOk hn fun _ _ => ?_
  refine mpost_ite (fun _ => mpost_onOk hn fun _ _ => mpost_done hn) fun _ => mpost_ite (fun _ => ?_) fun _ => mpost_done hn
  refine mpost_ite (fun _ => mpost_done hn) fun _ => mpost_onOk hn fun _ _ => ?_
  refine mpost_ite (fun _ => mpost_done hn) fun _ => ?_
  have hn2 : Now S l m fp (m.write l (.arr (List.replicate n (flat z)))) (.arr (List.replicate n z)) := by
    rw [flat_arr]
    exact hn.write_flat (refFree_replicate hz n)
  dsimp only
  refine mpost_ite (fun _ => mpost_done hn2) fun _ => mpost_onOk hn2 fun _ _ => ?_
  refine mpost_ite (fun _ => mpost_onOk hn2 fun _ _ => mpost_done hn2) fun _ => mpost_onOk hn2 ?_
  rintro ⟨k, c1⟩ -
  refine mpost_ite (fun _ => mpost_done hn2) fun _ => mpost_onOk hn2 fun _ _ => ?_
  refine mpost_ite (fun _ => mpost_done hn2) fun _ => ?_
  exact MPost.from hn2 fun fp1 h1 => arrayLoopAt_sim (fun c => hd c _) h1 (by simp)

/-! ### Maps -/

/-- A decoder applied to a new variable, with what the decoder on trees makes of a new value. -/
def MFresh (S : Nat → List HV → Prop) (z : Val) (d : Loc → Mem → DM) (y : DR) : Prop := ∀ m : Mem, Kept S m →
  (d ⟨m.length, []⟩ (m.new (.var (flat z)))).2 = y.2 ∧ m.length < (d ⟨m.length, []⟩ (m.new (.var (flat z)))).1.length ∧
    (∀ a, a < m.length → (d ⟨m.length, []⟩ (m.new (.var (flat z)))).1[a]? = m[a]?) ∧
    ∃ h c, (d ⟨m.length, []⟩ (m.new (.var (flat z)))).1.read ⟨m.length, []⟩ = some h ∧
      Owns (d ⟨m.length, []⟩ (m.new (.var (flat z)))).1 S h y.1 c ∧ c.Nodup ∧ ∀ a ∈ c, m.length < a

theorem MSim.fresh {d : Loc → Mem → DM} {dt : Val → DR} (hd : MSim S d dt) {z : Val} (hz : RefFree z) : MFresh S z d (dt z) :=
  fun _ hS => run_new hd hS hz

/-- Changes to new objects only. -/
theorem holds_old {m m1 : Mem} {l : Loc} {v : Val} {fp : List Nat} (h : Holds S m l v fp) (hl : m.length ≤ m1.length)
    (hs : ∀ a, a < m.length → m1[a]? = m[a]?) : Holds S m1 l v fp ∧ OnlyAt l fp m m1 fp := by
  refine ⟨h.frame fun a ha _ => hs a ha, hl, fun a ha _ _ => hs a ha, ?_, fun a ha => .inl ha⟩
  intro x hx
  rw [hs _ h.lt]
  exact Spec.OnlyAt.refl (l := l) (fp := []) |>.around x hx

theorem mapLoopAt_sim {kd vd : Nat → Loc → Mem → DM} {kT vT : Nat → DR} {zk zv : Val} (hk : ∀ c, MFresh S zk (kd c) (kT c))
    (hv : ∀ c, MFresh S zv (vd c) (vT c)) {f c : Nat} {l : Loc} {m : Mem} {es : List (Val × Val)} {fp : List Nat} (hh : Holds S m l (.map es) fp) :
    MPost S l m fp (mapLoopAt kd vd (flat zk) (flat zv) b f c l m) (mapLoop kT vT b f c es) := by
  induction f generalizing c m es fp with
  | zero => exact mpost_done hh.now
  | succ f ih =>
    unfold mapLoopAt mapLoop
    refine mpost_ite (fun _ => mpost_done hh.now) fun _ => ?_
    dsimp only
    have hS : Kept S m := hh.kept
    have h1 := hk c m hS
    revert h1
    generalize kd c ⟨m.length, []⟩ _ = x
    generalize kT c = y
    obtain ⟨m1, r⟩ := x
    obtain ⟨k, r'⟩ := y
    rintro ⟨hr, hlen1, hold1, hk', ck, hrk, hok, hndk, hck⟩
    simp only at hr hlen1 hold1 hrk hok
    subst hr
    have hh1 := holds_old hh (Nat.le_of_lt hlen1) hold1
    have hn1 : Now S l m fp m1 (.map es) := ⟨fp, hh1⟩
    refine mpost_onOk hn1 fun c1 _ => mpost_ite (fun _ => mpost_done hn1) fun _ => ?_
    have h2 := hv c1 m1 (hS.mono hold1)
    revert h2
    generalize vd c1 ⟨m1.length, []⟩ _ = x
    generalize vT c1 = y
    obtain ⟨m2, r⟩ := x
    obtain ⟨v, r'⟩ := y
    rintro ⟨hr, hlen2, hold2, hv', cv, hrv, hov, hndv, hcv⟩
    simp only at hr hlen2 hold2 hrv hov
    subst hr
    have hh2 := holds_old hh (m1 := m2) (by omega) fun a ha => (hold2 a (by omega)).trans (hold1 a ha)
    have hn2 : Now S l m fp m2 (.map es) := ⟨fp, hh2⟩
    refine mpost_onOk hn2 fun c2 _ => ?_
    have hrk2 : m2.read ⟨m.length, []⟩ = some hk' := by
      rw [read_congr (hold2 _ hlen1)]
      exact hrk
    have hok2 : Owns m2 S hk' k ck :=
      owns_frame (fun _ _ h => h) hok fun a ha => hold2 a (owns_lt hok a ha)
    obtain ⟨g, hg, ho⟩ := hh2.1.value
    cases ho with
    | @map o hs _ ce hm hen =>
      rw [hrk2, hrv, hg]
      dsimp only
      rw [hm, owns_hashable hok]
      refine mpost_ite (fun _ => mpost_done hn2) fun _ => ?_
      dsimp only
      have hu := List.nodup_cons.1 hh.unshared
      have hu2 := List.nodup_cons.1 hu.2
      have hfp : ∀ a ∈ o :: ce, a < m.length := hh.fp_lt
      have hdis : ∀ x ∈ ce, x ∉ ck := fun x hx hx' => by
        have := hfp x (by simp [hx])
        have := hck x hx'
        omega
      obtain ⟨c', he1, he2⟩ := ownsEntries_insert hok2 hov hen hdis
      have ho_lt : o < m.length := hfp o (by simp)
      have hc' : ∀ x ∈ c', x ∈ ck ∨ x ∈ cv ∨ x ∈ ce := by
        intro x hx
        have h5 := he2 x
        have h6 := List.count_pos_iff.2 hx
        by_cases h7 : x ∈ ck
        · exact .inl h7
        by_cases h8 : x ∈ cv
        · exact .inr (.inl h8)
        have h7' := List.count_eq_zero.2 h7
        have h8' := List.count_eq_zero.2 h8
        exact .inr (.inr (List.count_pos_iff.1 (by omega)))
      have hoc' : o ∉ c' := by
        intro hx
        rcases hc' o hx with h | h | h
        · have := hck o h; omega
        · have := hcv o h; omega
        · exact hu2.1 h
      have hn3 : Now S l m (o :: ce) (m2.set o (.map (hvInsert hk' hv' hs))) (.map (mapInsert k v es)) := by
        have hother : ∀ a, a ≠ o → (m2.set o (.map (hvInsert hk' hv' hs)))[a]? = m2[a]? := fun a ha => List.getElem?_set_ne (Ne.symm ha)
        have hlo : l.obj ≠ o := fun h => hu.1 (by simp [h])
        have hol : o < m2.length := by omega
        refine ⟨o :: c', ⟨⟨.map o, ?_, .map (List.getElem?_set_self hol) ?_⟩, ?_, ?_, ?_⟩, ?_⟩
        · rw [read_congr (hother _ hlo)]
          exact hg
        · exact ownsEntries_frame (fun _ _ h => h) he1 fun a ha => hother a fun h => hoc' (h ▸ ha)
        · refine List.nodup_cons.2 ⟨?_, List.nodup_cons.2 ⟨hoc', ?_⟩⟩
          · intro hm
            have hl := hh.lt
            rcases List.mem_cons.1 hm with hm | hm
            · exact hlo hm
            · rcases hc' _ hm with h | h | h
              · have := hck _ h; omega
              · have := hcv _ h; omega
              · exact hu.1 (by simp [h])
          · rw [List.nodup_iff_count]
            intro x
            have h5 := he2 x
            have e1 := List.nodup_iff_count.1 hndk x
            have e2 := List.nodup_iff_count.1 hndv x
            have e3 := List.nodup_iff_count.1 hu2.2 x
            by_cases h7 : x ∈ ck
            · have h8 : cv.count x = 0 := List.count_eq_zero.2 fun h8 => by
                have := owns_lt hok x h7
                have := hcv x h8
                omega
              have h9 : ce.count x = 0 := List.count_eq_zero.2 fun h8 => hdis x h8 h7
              omega
            · have h7' := List.count_eq_zero.2 h7
              by_cases h8 : x ∈ cv
              · have h9 : ce.count x = 0 := List.count_eq_zero.2 fun h9 => by
                  have := hcv x h8
                  have := hfp x (by simp [h9])
                  omega
                omega
              · have h8' := List.count_eq_zero.2 h8
                omega
        · intro a es' ha
          rw [hother a]
          · exact hh2.1.kept a es' ha
          · rintro rfl
            exact hh.apart _ es' ha (by simp)
        · intro a es' ha hm
          have h5 := hh.apart a es' ha
          have h6 := hS.lt ha
          simp only [List.mem_cons] at hm
          rcases hm with hm | hm | hm
          · exact h5 (by simp [hm])
          · exact h5 (by simp [hm])
          · rcases hc' a hm with h | h | h
            · have := hck a h; omega
            · have := hcv a h; omega
            · exact h5 (by simp [h])
        · refine ⟨by rw [List.length_set]; omega, ?_, ?_, ?_⟩
          · intro a ha hl hf
            rw [hother a fun h => hf (by simp [h])]
            exact hh2.2.same a ha hl hf
          · intro x hx
            rw [hother _ hlo]
            exact hh2.2.around x hx
          · intro a ha
            rcases List.mem_cons.1 ha with rfl | ha
            · exact .inl (by simp)
            · rcases hc' a ha with h | h | h
              · have := hck a h; exact .inr (by omega)
              · have := hcv a h; exact .inr (by omega)
              · exact .inl (by simp [h])
      refine mpost_ite (fun _ => mpost_done hn3) fun _ => mpost_onOk hn3 fun _ _ => mpost_ite (fun _ => mpost_done hn3) fun _ => ?_
      exact MPost.from hn3 fun fp1 h1 => ih h1

theorem mapAt_sim {kd vd : Nat → Nat → Loc → Mem → DM} {kT vT : Nat → Nat → DR} {zk zv : Val} {c depth : Nat}
    (hk : ∀ c d, MFresh S zk (kd c d) (kT c d)) (hv : ∀ c d, MFresh S zv (vd c d) (vT c d)) :
    MSim S (mapAt kd vd (flat zk) (flat zv) b c depth) (mapDecode kT vT b c depth) := by
  intro l m v fp hh
  have hn := hh.now
  unfold mapAt mapDecode
  refine mpost_ite (fun _ => mpost_done hn) fun _ => mpost_ite (fun _ => mpost_done hn) fun _ => mpost_onOk hn fun _ _ => ?_
  refine mpost_ite (fun _ => mpost_onOk hn fun _ _ => mpost_done (hn.write_flat (v2 := .mapNil) trivial)) fun _ => mpost_onOk hn fun _ _ => mpost_onOk hn ?_
  rintro ⟨n, c1⟩ -
  refine mpost_ite (fun _ => mpost_done hn) fun _ => mpost_onOk hn fun _ _ => ?_
  refine mpost_ite (fun _ => mpost_done hn) fun _ => ?_
  have fin : ∀ {m1 : Mem} {es : List (Val × Val)}, Now S l m fp m1 (.map es) →
      MPost S l m fp (if !hasByte b (c1 + 1) then (m1, .err (.unexpectedEnd "map" (c1 + 1))) else
        onOkM m1 (idx b (c1 + 1)) fun b' => if b' = cRBrace then (m1, .ok (c1 + 1 + 1)) else
        mapLoopAt (fun c => kd c (depth + 1)) (fun c => vd c (depth + 1)) (flat zk) (flat zv) b (b.length + 1) (c1 + 1) l m1)
      (if !hasByte b (c1 + 1) then (.map es, .err (.unexpectedEnd "map" (c1 + 1))) else
        onOk (.map es) (idx b (c1 + 1)) fun b' => if b' = cRBrace then (.map es, .ok (c1 + 1 + 1)) else
        mapLoop (fun c => kT c (depth + 1)) (fun c => vT c (depth + 1)) b (b.length + 1) (c1 + 1) es) := by
    intro m1 es h1
    refine mpost_ite (fun _ => mpost_done h1) fun _ => mpost_onOk h1 fun _ _ => mpost_ite (fun _ => mpost_done h1) fun _ => ?_
    exact MPost.from h1 fun fp1 h2 => mapLoopAt_sim (fun c => hk c _) (fun c => hv c _) h2
  obtain ⟨g, hg, ho⟩ := hh.value
  rw [hg]
  cases ho with
  | mapNil =>
    refine fin ?_
    have hS : Kept S m := hh.kept
    have hl := hh.lt
    refine (now_new hh).write (c := [m.length]) (.map new_new .nil) (by simp) ?_
    intro a ha
    rw [List.mem_singleton.1 ha]
    refine ⟨by omega, fun es h => ?_, .inr (Nat.le_refl _)⟩
    have := hS.lt h
    omega
  | map h1 h2 => exact fin hn
  | _ => exact mpost_done hn

/-! ### Interfaces -/

/-- Decoding into a local variable that ends up in an interface. -/
theorem viaLocal_sim {t : Ty} {z : Val} {d : Loc → Mem → DM} {y : DR} (hd : MFresh S z d y) {l : Loc} {m : Mem} {v : Val} {fp : List Nat}
    (hh : Holds S m l v fp) :
    MPost S l m fp (viaLocal t (flat z) d l m) (match y with | (x, r) => onOk v r fun c => (.iface t x, .ok c)) := by
  unfold viaLocal
  have h1 := hd m hh.kept
  dsimp only
  revert h1
  generalize d ⟨m.length, []⟩ _ = x
  obtain ⟨m1, r⟩ := x
  obtain ⟨k, r'⟩ := y
  rintro ⟨hr, hlen1, hold1, hk', ck, hrk, hok, hndk, hck⟩
  simp only at hr hlen1 hold1 hrk hok
  subst hr
  have hh1 := holds_old hh (Nat.le_of_lt hlen1) hold1
  have hn1 : Now S l m fp m1 v := ⟨fp, hh1⟩
  refine mpost_onOk hn1 fun c1 _ => ?_
  rw [hrk]
  refine mpost_done (hn1.write (.iface hok) hndk ?_)
  intro a ha
  have := hck a ha
  have := hh.lt
  exact ⟨by omega, fun es h => by have := hh.kept.lt h; omega, .inr (by omega)⟩

theorem anyKeyAt_sim {c : Nat} : MFresh S .ifaceNil (anyKeyAt b c) (anyKeyDecode b c) := by
  have h : MSim S (anyKeyAt b c) (fun v =>
      onOk v (idx b c) fun b' =>
      if b' = cs then
        match stringDecode b c (.str []) with
        | (x, r) => onOk v r fun c => (.iface .str x, .ok c)
      else if b' = ci then
        match intDecode .i64 b c (.int 0) with
        | (x, r) => onOk v r fun c => (.iface (.int .i64) x, .ok c)
      else (v, .err (.unexpected "array key" c b'))) := by
    intro l m v fp hh
    unfold anyKeyAt
    refine mpost_onOk hh.now fun b' _ => mpost_ite (fun _ => ?_) fun _ => mpost_ite (fun _ => ?_) fun _ => mpost_done hh.now
    · exact viaLocal_sim (z := .str []) ((scalarAt_sim stringDecode_scal).fresh trivial) hh
    · exact viaLocal_sim (z := .int 0) ((scalarAt_sim (intDecode_scal _)).fresh trivial) hh
  exact h.fresh (z := .ifaceNil) trivial

theorem anyAt_sim {W : World} {ad : Nat → Nat → Loc → Mem → DM} {adT : Nat → Nat → DR} {c depth : Nat}
    (ha : ∀ c d, MFresh S .ifaceNil (ad c d) (adT c d)) : MSim S (anyAt W ad b c depth) (anyDecode W adT b c depth) := by
  intro l m v fp hh
  have hn := hh.now
  unfold anyAt anyDecode
  refine mpost_onOk hn fun b' _ => ?_
  refine mpost_ite (fun _ => ?_) fun _ => mpost_ite (fun _ => ?_) fun _ => mpost_ite (fun _ => ?_) fun _ => mpost_ite (fun _ => ?_) fun _ =>
    mpost_ite (fun _ => ?_) fun _ => mpost_ite (fun _ => ?_) fun _ => mpost_ite (fun _ => ?_) fun _ => mpost_done hn
  · exact viaLocal_sim (z := .mapNil) (MSim.fresh (mapAt_sim (zk := .str []) (zv := .ifaceNil)
      (kT := fun c _ => stringDecode b c (.str [])) (fun c _ => (scalarAt_sim stringDecode_scal).fresh (z := .str []) trivial) ha) trivial) hh
  · exact viaLocal_sim (z := .mapNil) (MSim.fresh (mapAt_sim (zk := .ifaceNil) (zv := .ifaceNil)
      (kT := fun c _ => anyKeyDecode b c) (fun c _ => anyKeyAt_sim) ha) trivial) hh
  · exact viaLocal_sim (z := .f64 0) ((scalarAt_sim (floatDecode_scal _)).fresh trivial) hh
  · refine mpost_onOk hn ?_
    rintro ⟨s, e⟩ -
    exact mpost_done (hn.write (.iface .str) List.nodup_nil (by simp))
  · exact viaLocal_sim (z := .int 0) ((scalarAt_sim (intDecode_scal _)).fresh trivial) hh
  · exact mpost_onOk hn fun _ _ => mpost_done (hn.write (.iface .bool) List.nodup_nil (by simp))
  · exact mpost_onOk hn fun _ _ => mpost_done (hn.write .ifaceNil List.nodup_nil (by simp))

theorem dynAt_sim {W : World} {U : Methods} (hU : Agrees W U) {t : Ty} {g : HV} {x : Val} {c depth : Nat} {l : Loc} {m : Mem} {fp : List Nat}
    (hh : Holds S m l (.iface t x) fp) (hg : m.read l = some (.iface t g)) :
    MPost S l m fp (dynAt W U t g b c depth l m) (dynDecode W t x b c depth (.iface t x)) := by
  have hn := hh.now
  simp only [dynAt_eq, dynDecode_eq]
  refine mpost_onOk hn fun e _ => mpost_onOk hn fun src _ => ?_
  refine mpost_ite (fun _ => mpost_done (hn.write .ifaceNil List.nodup_nil (by simp))) fun _ => ?_
  suffices h : ∀ src, MPost S l m fp (match U.held t g src m with | (m, r) => onOkM m r fun _ => (m, .ok e))
      (match W.unmarshalDyn t x src with | (v', r) => onOk (.iface t v') r fun _ => (.iface t v', .ok e)) from h _
  intro src
  obtain ⟨g', hg', ho⟩ := hh.value
  have : g' = .iface t g := by simpa using hg'.symm.trans hg
  subst this
  cases ho with
  | iface ho =>
    have hu := List.nodup_cons.1 hh.unshared
    have h1 := hU.held S t g x fp src m ho hu.2 hh.kept
      fun a es ha hm => hh.apart a es ha (List.mem_cons_of_mem _ hm)
    revert h1
    generalize U.held t g _ m = p
    generalize W.unmarshalDyn t x _ = q
    obtain ⟨m1, r⟩ := p
    obtain ⟨x', r'⟩ := q
    rintro ⟨hr, hlen, hsame, fp', ho', hnd', hparts⟩
    simp only at hr hlen hsame ho'
    subst hr
    have hl := hh.lt
    have hlo : m1[l.obj]? = m[l.obj]? := hsame _ hl hu.1
    have hn1 : Now S l m fp m1 (.iface t x') := by
      refine ⟨fp', ⟨⟨.iface t g, by rw [read_congr hlo]; exact hg, .iface ho'⟩, ?_, ?_, ?_⟩, hlen, ?_, ?_, hparts⟩
      · refine List.nodup_cons.2 ⟨fun hm => ?_, hnd'⟩
        rcases hparts _ hm with h | h
        · exact hu.1 h
        · omega
      · intro a es ha
        rw [hsame a (hh.kept.lt ha) fun hm => hh.apart a es ha (List.mem_cons_of_mem _ hm)]
        exact hh.kept a es ha
      · intro a es ha hm
        rcases List.mem_cons.1 hm with rfl | hm
        · exact hh.apart _ es ha List.mem_cons_self
        · rcases hparts a hm with h | h
          · exact hh.apart a es ha (List.mem_cons_of_mem _ h)
          · have := hh.kept.lt ha
            omega
      · exact fun a ha _ hf => hsame a ha hf
      · intro y hy
        rw [hlo]
        exact Spec.OnlyAt.refl (l := l) (fp := []) |>.around y hy
    exact mpost_onOk hn1 fun _ _ => mpost_done hn1

theorem ifaceAt_sim {W : World} {U : Methods} (hU : Agrees W U) {c depth : Nat} : MSim S (ifaceAt W U b c depth) (ifaceDecode W b c depth) := by
  intro l m v fp hh
  have hn := hh.now
  unfold ifaceAt ifaceDecode
  have hnone : MPost S l m fp (onOkM m (idx b c) fun b' =>
      if b' = cN then onOkM m (validateNull b c) fun _ => (m.write l .ifaceNil, .ok (c + 2)) else (m, .err (.typeError "interface" c)))
      (onOk v (idx b c) fun b' =>
      if b' = cN then onOk v (validateNull b c) fun _ => (.ifaceNil, .ok (c + 2)) else (v, .err (.typeError "interface" c))) := by
    refine mpost_onOk hn fun _ _ => mpost_ite (fun _ => ?_) fun _ => mpost_done hn
    exact mpost_onOk hn fun _ _ => mpost_done (hn.write .ifaceNil List.nodup_nil (by simp))
  obtain ⟨g, hg, ho⟩ := hh.value
  rw [hg]
  cases ho with
  | @iface t g x _ ho =>
    dsimp only
    cases W.dynUnm t with
    | true => exact dynAt_sim hU hh hg
    | false => exact hnone
  | _ => exact hnone

theorem unmarshalerAt_sim {W : World} {U : Methods} (hW : FlatZeros W) (hU : Agrees W U) {id c depth : Nat} :
    MSim S (unmarshalerAt W U id b c depth) (unmarshalDecode W id b c depth) := by
  intro l m v fp hh
  have hn := hh.now
  simp only [unmarshalerAt_eq, unmarshalDecode_eq]
  refine mpost_onOk hn fun e _ => mpost_onOk hn fun src _ => mpost_ite (fun _ => mpost_done hn) fun _ => mpost_ite (fun _ => mpost_done hn) fun _ =>
    mpost_ite (fun _ => mpost_done hn) fun _ => mpost_ite (fun _ => mpost_done (hn.write_flat (hW.named id))) fun _ => ?_
  suffices h : ∀ src, MPost S l m fp (match U.fresh id src m with | (m, r) => onOkM m (r.mapErr (annotate c)) fun v => (m.write l v, .ok e))
      (onOk v ((W.unmarshal id src).mapErr (annotate c)) fun v => (v, .ok e)) from h _
  intro src
  have h1 := hU.fresh S id src m hh.kept
  revert h1
  generalize U.fresh id _ m = p
  generalize W.unmarshal id _ = q
  obtain ⟨m1, r⟩ := p
  rintro ⟨hlen, hsame, hm⟩
  simp only at hlen hsame hm
  have hn1 : Now S l m fp m1 v := ⟨fp, holds_old hh hlen hsame⟩
  revert hm
  cases r <;> cases q <;> intro hm <;> first | exact hm.elim | skip
  · obtain ⟨c1, ho, hnd, hc⟩ := hm
    refine mpost_done (hn1.write ho hnd fun a ha => ?_)
    have := hc a ha
    have := hh.lt
    exact ⟨by omega, fun es h => by have := hh.kept.lt h; omega, .inr (by omega)⟩
  · cases hm
    exact mpost_done hn1
  · cases hm
    exact mpost_done hn1
  · exact mpost_done hn1

/-! ### Structs -/

theorem structLoopAt_sim {sets : List FieldSet} {dec : FieldSet → Nat → Loc → Mem → DM} {decT : FieldSet → Nat → Val → DR} {skip : Nat → Res Nat}
    (hd : ∀ s c, MSim S (dec s c) (decT s c)) {f c : Nat} {l : Loc} {m : Mem} {vs : List Val} {fp : List Nat} (hh : Holds S m l (.struct vs) fp) :
    MPost S l m fp (structLoopAt sets dec skip b f c l m) (structLoop sets decT skip b f c vs) := by
  induction f generalizing c m vs fp with
  | zero => exact mpost_done hh.now
  | succ f ih =>
    unfold structLoopAt structLoop
    refine mpost_ite (fun _ => mpost_done hh.now) fun _ => mpost_onOk hh.now ?_
    rintro ⟨fld, c1⟩ -
    refine mpost_ite (fun _ => mpost_done hh.now) fun _ => ?_
    have fin : ∀ {m1 : Mem} {vs' : List Val} {r : Res Nat}, Now S l m fp m1 (.struct vs') →
        MPost S l m fp (onOkM m1 r fun c =>
          if !hasByte b c then (m1, .err (.unexpectedEnd "object" c)) else
          onOkM m1 (idx b c) fun b' => if b' = cRBrace then (m1, .ok (c + 1)) else structLoopAt sets dec skip b f c l m1)
        (onOk (.struct vs') r fun c =>
          if !hasByte b c then (.struct vs', .err (.unexpectedEnd "object" c)) else
          onOk (.struct vs') (idx b c) fun b' => if b' = cRBrace then (.struct vs', .ok (c + 1)) else structLoop sets decT skip b f c vs') := by
      intro m1 vs' r h1
      refine mpost_onOk h1 fun c2 _ => mpost_ite (fun _ => mpost_done h1) fun _ => mpost_onOk h1 fun _ _ =>
        mpost_ite (fun _ => mpost_done h1) fun _ => ?_
      exact MPost.from h1 fun fp1 h2 => ih h2
    dsimp only
    cases fld with
    | none => exact fin hh.now
    | some s =>
      dsimp only
      cases hv0 : vs[s.idx]? with
      | none =>
        obtain ⟨g, hg, ho⟩ := hh.value
        cases ho with
        | struct ho =>
          have : m.read (l.sub s.idx) = none := by
            obtain ⟨root, hr, hp⟩ := read_eq_some.1 hg
            unfold Mem.read Loc.sub
            simp only [hr, HV.at_append, hp, HV.at, ownsAll_none ho hv0]
          rw [this]
          exact fin hh.now
      | some v0 =>
        dsimp only
        obtain ⟨ci, he1, he2⟩ := hh.field hv0
        obtain ⟨g, hg⟩ := he1.read
        rw [hg]
        dsimp only
        obtain ⟨hr, hnow⟩ := hd s c1 _ _ _ _ he1
        have hwhole := he2 _ _ hnow
        revert hr hwhole
        generalize dec s c1 (l.sub s.idx) _ = x
        generalize decT s c1 v0 = y
        obtain ⟨m1, r⟩ := x
        obtain ⟨v, r'⟩ := y
        intro hr hwhole
        simp only at hr hwhole
        subst hr
        exact fin hwhole

theorem structAt_sim {sets : List FieldSet} {dec : FieldSet → Nat → Nat → Loc → Mem → DM} {decT : FieldSet → Nat → Nat → Val → DR} {c depth : Nat}
    (hd : ∀ s c d, MSim S (dec s c d) (decT s c d)) : MSim S (structAt sets dec b c depth) (structDecode sets decT b c depth) := by
  intro l m v fp hh
  have hn := hh.now
  unfold structAt structDecode
  refine mpost_ite (fun _ => mpost_done hn) fun _ => mpost_ite (fun _ => mpost_done hn) fun _ => mpost_onOk hn fun _ _ => ?_
  refine mpost_ite (fun _ => mpost_onOk hn fun _ _ => mpost_done hn) fun _ => mpost_onOk hn fun _ _ => ?_
  refine mpost_ite (fun _ => mpost_done hn) fun _ => mpost_onOk hn fun _ _ => ?_
  refine mpost_ite (fun _ => mpost_done hn) fun _ => mpost_onOk hn fun _ _ => ?_
  refine mpost_ite (fun _ => mpost_done hn) fun _ => mpost_onOk hn fun _ _ => ?_
  refine mpost_ite (fun _ => mpost_done hn) fun _ => ?_
  refine mpost_ite (fun _ => mpost_done hn) fun _ => mpost_onOk hn fun _ _ => ?_
  refine mpost_ite (fun _ => mpost_done hn) fun _ => ?_
  obtain ⟨g, hg, ho⟩ := hh.value
  rw [hg]
  cases ho with
  | struct ho => exact structLoopAt_sim (fun s c => hd s c _) hh
  | _ => exact mpost_done hn

/-! ### Dispatch -/

theorem invalidAt_sim {c : Nat} : MSim S (fun _ m => invalidAt c m) (invalidDecode c) := fun _ _ _ _ hh => mpost_done hh.now

/-- The memory `m1` differs from `m` in new objects only. -/
def Grown (m m1 : Mem) : Prop := m.length ≤ m1.length ∧ ∀ a, a < m.length → m1[a]? = m[a]?

theorem ptrKeyAt_sim {z : Val} (hz : z = .ptrNil) {scratch : Mem → DM} {y : DR} (hs : ∀ m, Kept S m → (scratch m).2 = y.2 ∧ Grown m (scratch m).1) {c : Nat} :
    MFresh S z (fun _ m => ptrKeyAt (scratch m) b c m) (ptrKeyDecode y b c) := by
  intro m hS
  subst hz
  unfold ptrKeyAt ptrKeyDecode
  have hK : Kept S (m.new (.var (flat .ptrNil))) := hS.mono fun _ => new_old
  obtain ⟨h1, h2, h3⟩ := hs _ hK
  have key : ∀ (x : DM) (y : DR), x.2 = y.2 → Grown (m.new (.var (flat .ptrNil))) x.1 → y.1 = .ptrNil → x.2 = y.2 ∧ m.length < x.1.length ∧
      (∀ a, a < m.length → x.1[a]? = m[a]?) ∧ ∃ h c, x.1.read ⟨m.length, []⟩ = some h ∧ Owns x.1 S h y.1 c ∧ c.Nodup ∧ ∀ a ∈ c, m.length < a := by
    intro x y e1 e2 e3
    have hl := e2.1
    rw [new_length] at hl
    refine ⟨e1, by omega, fun a ha => by rw [e2.2 a (by rw [new_length]; omega), new_old ha], .ptrNil, [], ?_, by rw [e3]; exact .ptrNil, List.nodup_nil, by simp⟩
    rw [read_congr (e2.2 _ (by rw [new_length]; simp))]
    exact read_var.2 new_new
  have hg : Grown (m.new (.var (flat .ptrNil))) (m.new (.var (flat .ptrNil))) := ⟨Nat.le_refl _, fun _ _ => rfl⟩
  cases idx b c with
  | ok x =>
    simp only [onOkM, onOk]
    by_cases hx : x = cN
    · simp only [hx, if_true]
      cases validateNull b c <;> exact key _ _ rfl hg rfl
    · simp only [hx, if_false]
      rw [h1]
      cases y.2 <;> exact key _ _ rfl ⟨h2, h3⟩ rfl
  | err e => exact key _ _ rfl hg rfl
  | panic p => exact key _ _ rfl hg rfl
  | diverge => exact key _ _ rfl hg rfl

theorem zero_refFree {W : World} (hW : FlatZeros W) : ∀ t, RefFree (W.zero t)
  | .bool => trivial
  | .int _ => trivial
  | .uint _ => trivial
  | .f32 => trivial
  | .f64 => trivial
  | .str => trivial
  | .slice _ => trivial
  | .array n e => refFree_replicate (zero_refFree hW e) n
  | .map _ _ => trivial
  | .ptr _ => trivial
  | .struct id => hW.struct id
  | .any => trivial
  | .iface _ => trivial
  | .other => trivial
  | .named id => hW.named id

theorem mapKeyAt_sim {W : World} {U : Methods} (hW : FlatZeros W) (hU : Agrees W U) {ad : Nat → Nat → Loc → Mem → DM} {adT : Nat → Nat → DR}
    (ha : ∀ c d, MFresh S .ifaceNil (ad c d) (adT c d)) {k : Ty} {c depth : Nat} :
    MFresh S (W.zero k) (mapKeyAt W U ad b k c depth) (keyDecode W adT b k c depth) := by
  have hz := zero_refFree hW k
  unfold keyDecode
  have e : mapKeyAt W U ad b k c depth = fun l m => mapKeyAt W U ad b k c depth l m := rfl
  rw [e]
  unfold mapKeyAt
  cases W.unmOf k with
  | some id => exact (unmarshalerAt_sim hW hU).fresh hz
  | none =>
    cases hr : W.resolve k with
    | str => exact (scalarAt_sim stringDecode_scal).fresh hz
    | bool => exact (scalarAt_sim boolDecode_scal).fresh hz
    | int kd => exact (scalarAt_sim (intDecode_scal _)).fresh hz
    | uint kd => exact (scalarAt_sim (uintDecode_scal _)).fresh hz
    | any => exact (anyAt_sim ha).fresh hz
    | iface i => exact (ifaceAt_sim hU).fresh hz
    | ptr e =>
      have hzp : W.zero k = .ptrNil := by
        cases k <;> simp only [World.resolve] at hr <;> first | (cases hr; rfl) | cases hr | skip
        exact hW.ptr _ _ hr
      dsimp only
      cases W.unmOf e with
      | some id => exact invalidAt_sim.fresh hz
      | none =>
        have hsame : ∀ (y : DR) (m : Mem), Kept S m → ((m, y.2) : DM).2 = y.2 ∧ Grown m ((m, y.2) : DM).1 :=
          fun _ _ _ => ⟨rfl, Nat.le_refl _, fun _ _ => rfl⟩
        have hany : ∀ m : Mem, Kept S m → (anyAt W ad b c depth ⟨m.length, []⟩ (m.new (.var .ifaceNil))).2 = (anyDecode W adT b c depth .ifaceNil).2 ∧
            Grown m (anyAt W ad b c depth ⟨m.length, []⟩ (m.new (.var .ifaceNil))).1 := by
          intro m hS
          obtain ⟨h1, h2, h3, -⟩ := (anyAt_sim (b := b) (W := W) (c := c) (depth := depth) ha).fresh (z := .ifaceNil) trivial m hS
          exact ⟨h1, Nat.le_of_lt h2, h3⟩
        dsimp only
        cases W.resolve e with
        | str => exact ptrKeyAt_sim hzp (hsame _)
        | bool => exact ptrKeyAt_sim hzp (hsame _)
        | int _ => exact ptrKeyAt_sim hzp (hsame _)
        | uint _ => exact ptrKeyAt_sim hzp (hsame _)
        | any => exact ptrKeyAt_sim hzp hany
        | iface _ => exact ptrKeyAt_sim hzp hany
        | _ => exact invalidAt_sim.fresh hz
    | _ => exact invalidAt_sim.fresh hz

theorem fieldAt_sim {W : World} (hW : FlatZeros W) {rec : Ty → Nat → Nat → Loc → Mem → DM} {recT : Ty → Nat → Nat → Val → DR}
    (hrec : ∀ t c d, MSim S (rec t c d) (recT t c d)) {s : FieldSet} {c depth : Nat} :
    MSim S (fieldAt W rec b s c depth) (fieldDecode W recT b s c depth) := by
  intro l m v fp hh
  unfold fieldAt fieldDecode
  refine mpost_ite (fun _ => ?_) fun _ => hrec _ _ _ _ _ _ _ hh
  have hdirect : MPost S l m fp (if wrappable W s.ty then scalarAt (wrappedDecode W s.ty b c) l m else (m, .err (.unsupported "string option")))
      (if wrappable W s.ty then wrappedDecode W s.ty b c v else (v, .err (.unsupported "string option"))) :=
    mpost_ite (fun _ => scalarAt_sim (wrappedDecode_scal _) _ _ _ _ hh) fun _ => mpost_done hh.now
  cases W.resolve s.ty with
  | ptr e =>
    refine mpost_ite (fun _ => ?_) fun _ => mpost_done hh.now
    exact ptrAt_sim (inner := fun c _ => scalarAt (wrappedDecode W e b c)) (innerT := fun c _ v => wrappedDecode W e b c v) (zero_refFree hW e)
      (fun c _ => scalarAt_sim (wrappedDecode_scal _)) _ _ _ _ hh
  | _ => exact hdirect

theorem nonPtrAt_sim {W : World} {U : Methods} (hW : FlatZeros W) (hU : Agrees W U) {inp : Nat} (hi : S inp (b.map fun c => .uint c.toNat))
    {rec : Ty → Nat → Nat → Loc → Mem → DM} {recT : Ty → Nat → Nat → Val → DR} (hrec : ∀ t c d, MSim S (rec t c d) (recT t c d))
    {t : Ty} {c depth : Nat} : MSim S (nonPtrAt W U inp rec b t c depth) (decodeNonPtr W recT b t c depth) := by
  have hz := zero_refFree hW
  have hany : ∀ c d, MFresh S .ifaceNil (rec .any c d) (recT .any c d .ifaceNil) := fun c d => (hrec .any c d).fresh (z := .ifaceNil) trivial
  intro l m v fp hh
  unfold nonPtrAt decodeNonPtr
  cases W.unmOf t with
  | some id => exact unmarshalerAt_sim hW hU _ _ _ _ hh
  | none =>
    cases W.resolve t with
    | bool => exact scalarAt_sim boolDecode_scal _ _ _ _ hh
    | int k => exact scalarAt_sim (intDecode_scal _) _ _ _ _ hh
    | uint k => exact scalarAt_sim (uintDecode_scal _) _ _ _ _ hh
    | f32 => exact scalarAt_sim (floatDecode_scal _) _ _ _ _ hh
    | f64 => exact scalarAt_sim (floatDecode_scal _) _ _ _ _ hh
    | str => exact scalarAt_sim stringDecode_scal _ _ _ _ hh
    | slice e =>
      refine mpost_ite (fun _ => ?_) fun _ => ?_
      · exact bytesAt_sim (hz e) hi (hrec e) _ _ _ _ hh
      · exact sliceAt_sim (hz e) (hrec e) _ _ _ _ hh
    | array n e => exact arrayAt_sim (hz e) (hrec e) _ _ _ _ hh
    | map k e =>
      exact mapAt_sim (kT := keyDecode W (fun c d => recT .any c d .ifaceNil) b k) (vT := fun c d => recT e c d (W.zero e))
        (fun c d => mapKeyAt_sim hW hU hany) (fun c d => (hrec e c d).fresh (hz e)) _ _ _ _ hh
    | struct id => exact structAt_sim (fun s c d => fieldAt_sim hW hrec) _ _ _ _ hh
    | any => exact anyAt_sim hany _ _ _ _ hh
    | iface i => exact ifaceAt_sim hU _ _ _ _ hh
    | other => exact mpost_done hh.now
    | ptr e => exact mpost_done hh.now
    | named i => exact mpost_done hh.now

theorem decodeMem_sim {W : World} {U : Methods} (hW : FlatZeros W) (hU : Agrees W U) {inp : Nat} (hi : S inp (b.map fun c => .uint c.toNat))
    {f : Nat} {t : Ty} {c depth : Nat} : MSim S (decodeMem W U inp b f t c depth) (decodeF W b f t c depth) := by
  induction f generalizing t c depth with
  | zero => exact fun _ _ _ _ hh => mpost_done hh.now
  | succ f ih =>
    have hnp : ∀ {t c depth}, MSim S (nonPtrAt W U inp (decodeMem W U inp b f) b t c depth) (decodeNonPtr W (decodeF W b f) b t c depth) :=
      nonPtrAt_sim hW hU hi fun t c d => ih
    intro l m v fp hh
    unfold decodeMem decodeF
    cases W.unmOf t with
    | some id => exact hnp _ _ _ _ hh
    | none =>
      cases W.resolve t with
      | ptr e =>
        refine mpost_ite (fun _ => mpost_done hh.now) fun _ => ?_
        exact ptrAt_sim (innerT := decodeNonPtr W (decodeF W b f) b e) (zero_refFree hW e) (fun c d => hnp) _ _ _ _ hh
      | _ => exact hnp _ _ _ _ hh

end Containers

/-! ### Unmarshal -/

/-- `S` with array `a`, whose elements are `es`. -/
def withArr (S : Nat → List HV → Prop) (a : Nat) (es : List HV) : Nat → List HV → Prop := fun o hs => S o hs ∨ (o = a ∧ hs = es)

/-- A new array nobody writes to. -/
theorem holds_withArr {S : Nat → List HV → Prop} {m : Mem} {l : Loc} {v : Val} {fp : List Nat} (hh : Holds S m l v fp) (es : List HV) :
    Holds (withArr S m.length es) (m.new (.var (.arr es))) l v fp where
  value := by
    obtain ⟨g, h1, h2⟩ := hh.value
    refine ⟨g, by rw [read_congr (new_old (read_lt h1))]; exact h1, ?_⟩
    exact owns_frame (fun _ _ h => .inl h) h2 fun a ha => new_old (owns_lt h2 a ha)
  unshared := hh.unshared
  kept o hs ho := by
    rcases ho with ho | ⟨rfl, rfl⟩
    · rw [new_old (hh.kept.lt ho)]
      exact hh.kept o hs ho
    · exact new_new
  apart a hs ha := by
    rcases ha with ha | ⟨rfl, rfl⟩
    · exact hh.apart a hs ha
    · intro hm
      rcases List.mem_cons.1 hm with h | h
      · have := hh.lt
        omega
      · obtain ⟨g, -, h2⟩ := hh.value
        have := owns_lt h2 _ h
        omega

theorem unmarshalMem_sim {S : Nat → List HV → Prop} {W : World} {U : Methods} (hW : FlatZeros W) (hU : Agrees W U) {fuel : Nat} {data : Bytes}
    {t : Ty} {l : Loc} {m : Mem} {v : Val} {fp : List Nat} (hh : Holds S m l v fp) :
    ∃ S' v' fp', (∀ a hs, S a hs → S' a hs) ∧ (∀ a hs, S' a hs → S a hs ∨ (a = m.length ∧ hs = data.map fun c => .uint c.toNat)) ∧
      unmarshal W fuel data (.ptr t v) = (some v', (unmarshalMem W U fuel data t l m).2) ∧
      Holds S' (unmarshalMem W U fuel data t l m).1 l v' fp' ∧ OnlyAt l fp m (unmarshalMem W U fuel data t l m).1 fp' := by
  unfold unmarshal unmarshalMem
  by_cases hd : data.length = 0
  · simp only [hd, if_true]
    exact ⟨S, v, fp, fun _ _ h => h, fun _ _ h => .inl h, rfl, hh, .refl⟩
  · simp only [hd, if_false, unmarshalInto]
    have none : ∀ {r : Res Unit}, ∃ S' v' fp', (∀ a hs, S a hs → S' a hs) ∧
        (∀ a hs, S' a hs → S a hs ∨ (a = m.length ∧ hs = data.map fun c => HV.uint c.toNat)) ∧
        ((some v, r) : Option Val × Res Unit) = (some v', r) ∧ Holds S' m l v' fp' ∧ OnlyAt l fp m m fp' :=
      ⟨S, v, fp, fun _ _ h => h, fun _ _ h => .inl h, rfl, hh, .refl⟩
    cases compileD W fuel [] t with
    | err e => exact none
    | panic e => exact none
    | diverge => exact none
    | ok u =>
      simp only [onOkM, onOk]
      have h0 := holds_withArr hh (data.map fun c => .uint c.toNat)
      have h1 := decodeMem_sim (b := data) hW hU (.inr ⟨rfl, rfl⟩) (f := data.length + 1) (t := t) (c := 0) (depth := 0) _ _ _ _ h0
      revert h1
      generalize decodeMem W U m.length data (data.length + 1) t 0 0 l _ = x
      generalize decodeF W data (data.length + 1) t 0 0 v = y
      obtain ⟨m1, r⟩ := x
      obtain ⟨v1, r'⟩ := y
      rintro ⟨hr, fp1, h2, h3⟩
      simp only at hr h2 h3
      subst hr
      have h4 : OnlyAt l fp m m1 fp1 := Spec.OnlyAt.trans (holds_old hh (by rw [new_length]; omega) fun a ha => new_old ha).2 h3
      have fin : ∀ {r : Res Unit}, ∃ S' v' fp', (∀ a hs, S a hs → S' a hs) ∧
          (∀ a hs, S' a hs → S a hs ∨ (a = m.length ∧ hs = data.map fun c => HV.uint c.toNat)) ∧
          ((some v1, r) : Option Val × Res Unit) = (some v', r) ∧ Holds S' m1 l v' fp' ∧ OnlyAt l fp m m1 fp' :=
        ⟨withArr S m.length _, v1, fp1, fun _ _ h => .inl h, fun _ _ h => h, rfl, h2, h4⟩
      cases r <;> exact fin

end Verif

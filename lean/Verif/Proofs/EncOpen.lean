import Verif.Proofs.EncEnds
/-
Values with a text are not cyclic: there is no endless way into them over parts that are not left to a method.
-/
set_option linter.unusedVariables false
namespace Verif
open Spec
variable {W : World} {h : Heap}

theorem written_covers {i : Nat} {fs : List Field} {vs : List GV} {ws : List WField} (hw : Written W i fs vs ws) {j : Nat} {f : Field} {v : GV}
    (h1 : fs[j]? = some f) (h2 : vs[j]? = some v) (h3 : f.exported = true) (h4 : ¬ HasKey W f [45]) :
    ZeroGV v ∨ ∃ (k : Nat) (w : WField), ws[k]? = some w ∧ w.ty = f.ty ∧ w.val = v := by
  induction hw generalizing j with
  | nil => simp at h1
  | hidden hh _ ih =>
    cases j with
    | zero =>
      cases h1; cases h2
      rcases hh with hh | hh
      · rw [h3] at hh; cases hh
      · exact absurd hh h4
    | succ j => exact ih (by simpa using h1) (by simpa using h2)
  | omitted _ hz _ ih =>
    cases j with
    | zero => cases h1; cases h2; exact .inl hz
    | succ j => exact ih (by simpa using h1) (by simpa using h2)
  | keep _ _ _ _ _ ih =>
    cases j with
    | zero => cases h1; cases h2; exact .inr ⟨0, _, rfl, rfl, rfl⟩
    | succ j =>
      rcases ih (by simpa using h1) (by simpa using h2) with hz | ⟨k, w, e1, e2⟩
      · exact .inl hz
      · exact .inr ⟨k + 1, w, by simpa using e1, e2⟩

theorem bytesOf_mem {vs : List GV} {s : Bytes} (hb : bytesOf vs = some s) {v : GV} (hv : v ∈ vs) : ∃ n, v = .uint n := by
  induction vs generalizing s with
  | nil => cases hv
  | cons w vs ih =>
    cases w with
    | uint n =>
      unfold bytesOf at hb
      split at hb
      · simp only [Option.map_eq_some_iff] at hb
        obtain ⟨s', hs, _⟩ := hb
        rcases List.mem_cons.1 hv with rfl | hv
        · exact ⟨_, rfl⟩
        · exact ih hs hv
      · cases hb
    | _ => simp [bytesOf] at hb

/-- Parts as a relation on pairs, the part first. -/
def OpenOf (W : World) (h : Heap) (y x : Ty × GV) : Prop := Part W h x.1 x.2 y.1 y.2 ∧ ¬ HasMarshal W x.1

/-- There is no endless way into the value. -/
abbrev DeepOpen (W : World) (h : Heap) (t : Ty) (v : GV) : Prop := Acc (OpenOf W h) (t, v)

theorem deepOpen_of {t : Ty} {v : GV} (hp : ∀ t' v', Part W h t v t' v' → DeepOpen W h t' v') : DeepOpen W h t v := .intro _ fun ⟨t', v'⟩ hq => hp t' v' hq.1

theorem deepOpen_no_parts {t : Ty} {v : GV} (hp : ∀ t' v', ¬ Part W h t v t' v') : DeepOpen W h t v := deepOpen_of fun t' v' hq => absurd hq (hp t' v')

theorem deepOpen_within {t t' : Ty} {v v' : GV} (hd : DeepOpen W h t v) (hw : OpenWithin W h t v t' v') : DeepOpen W h t' v' := by
  induction hw with
  | refl => exact hd
  | step hp hn _ ih => exact ih (hd.inv ⟨hp, hn⟩)

theorem openWithin_snoc {t t' t'' : Ty} {v v' v'' : GV} (hw : OpenWithin W h t v t' v') (hp : Part W h t' v' t'' v'') (hn : ¬ HasMarshal W t') :
    OpenWithin W h t v t'' v'' := by
  induction hw with
  | refl => exact .step hp hn .refl
  | step h1 h2 _ ih => exact .step h1 h2 (ih hp hn)

theorem deepOpen_not_inside {x : Ty × GV} (hd : Acc (OpenOf W h) x) : ¬ OpenInside W h x.1 x.2 x.1 x.2 := by
  induction hd with
  | intro x _ ih =>
    rintro ⟨t, v, hp, hn, hw⟩
    refine ih (t, v) ⟨hp, hn⟩ ?_
    cases hw with
    | refl => exact ⟨_, _, hp, hn, .refl⟩
    | step h1 h2 h3 => exact ⟨_, _, h1, h2, openWithin_snoc h3 hp hn⟩

theorem zero_deepOpen {v : GV} (hz : ZeroGV v) (t : Ty) : DeepOpen W h t v := by
  induction hz generalizing t with
  | arr _ ih =>
    refine deepOpen_of fun t' v' hp => ?_
    cases hp with
    | array _ hm => exact ih _ hm _
  | struct _ ih =>
    refine deepOpen_of fun t' v' hp => ?_
    cases hp with
    | field _ _ hm => exact ih _ (List.mem_of_getElem? hm) _
  | _ => exact deepOpen_no_parts fun t' v' hp => by cases hp

theorem deref_deepOpen {t : Ty} {v : GV} {o : Option (Ty × GV)} (hd : Deref W h t v o) (ho : ∀ t' v', o = some (t', v') → DeepOpen W h t' v') : DeepOpen W h t v := by
  induction hd with
  | ptrNil => exact deepOpen_no_parts fun t' v' hp => by cases hp
  | ifaceNil => exact deepOpen_no_parts fun t' v' hp => by cases hp
  | ptr hr _ ih =>
    refine deepOpen_of fun t' v' hp => ?_
    cases hp with
    | ptr hr' => rw [hr] at hr'; cases hr'; exact ih ho
  | iface _ _ ih =>
    refine deepOpen_of fun t' v' hp => ?_
    cases hp with
    | iface => exact ih ho
  | done => exact ho _ _ rfl

theorem scalar_deepOpen {t : Ty} {v : GV} {d : Doc} (hs : ScalarDoc W t v d) : DeepOpen W h t v := by
  cases hs <;> exact deepOpen_no_parts fun t' v' hp => by cases hp

theorem basicText_deepOpen {t t' : Ty} {v : GV} {tx : Bytes} (hs : BasicText W t v tx) : DeepOpen W h t' v := by
  cases hs <;> exact deepOpen_no_parts fun t' v' hp => by cases hp

theorem strField_deepOpen {t : Ty} {v : GV} {d : Doc} (hs : StrFieldDoc W h t v d) : DeepOpen W h t v := by
  cases hs with
  | str => exact deepOpen_no_parts fun t' v' hp => by cases hp
  | basic hb => exact basicText_deepOpen hb
  | ifaceNil _ hd => exact deref_deepOpen hd fun _ _ ho => by cases ho
  | iface _ hd hb => exact deref_deepOpen hd fun _ _ ho => by cases ho; exact basicText_deepOpen hb

theorem encG_deepOpen {ok : Ty → Prop} {G : Stack → Nat → Bool → Prop} (hs : SteadyMaps h) {m : Mode} {st : Stack} {p : Path} {t : Ty} {v : GV} {tx : Bytes}
    (he : EncG W h ok G m st p t v tx) : DeepOpen W h t v := by
  induction he with
  | marshaler hm => exact .intro _ fun _ hq => absurd (marOf_iff.1 hm) hq.2
  | bytesNil => exact deepOpen_no_parts fun t' v' hq => by cases hq
  | bytes hb =>
    refine deepOpen_of fun t' v' hq => ?_
    cases hq with
    | slice hr hm =>
      cases hr
      obtain ⟨n, rfl⟩ := bytesOf_mem hb hm
      exact deepOpen_no_parts fun t' v' hq => by cases hq
  | plain _ _ _ _ ih => exact ih
  | ptrNil => exact deepOpen_no_parts fun t' v' hq => by cases hq
  | ptrStruct _ hr _ _ _ ih =>
    refine deepOpen_of fun t' v' hq => ?_
    cases hq with
    | ptr hr' => rw [hr] at hr'; cases hr'; exact ih
  | ptrKind _ hr _ _ ih =>
    refine deepOpen_of fun t' v' hq => ?_
    cases hq with
    | ptr hr' => rw [hr] at hr'; cases hr'; exact ih
  | ptrTyped _ hr _ _ _ _ _ ih =>
    refine deepOpen_of fun t' v' hq => ?_
    cases hq with
    | ptr hr' => rw [hr] at hr'; cases hr'; exact ih
  | ptrIface _ _ _ _ ih => exact ih
  | scalar hd => exact scalar_deepOpen hd
  | struct hr hw _ ih =>
    refine deepOpen_of fun t' v' hq => ?_
    cases hq with
    | field hr' h1 h2 h3 h4 =>
      rw [hr] at hr'; cases hr'
      rcases written_covers hw h1 h2 h3 h4 with hz | ⟨k, w, e1, e2, e3⟩
      · exact zero_deepOpen hz _
      · have := ih k w e1
        rw [e2, e3] at this
        exact this
  | array hr _ _ ih =>
    refine deepOpen_of fun t' v' hq => ?_
    cases hq with
    | array hr' hm =>
      rw [hr] at hr'; cases hr'
      obtain ⟨i, hi⟩ := List.getElem?_of_mem hm
      exact ih i _ hi
  | sliceNil => exact deepOpen_no_parts fun t' v' hq => by cases hq
  | slice hr _ hv _ ih =>
    refine deepOpen_of fun t' v' hq => ?_
    cases hq with
    | slice hr' hm =>
      rw [hr] at hr'; cases hr'
      obtain ⟨i, hi⟩ := List.getElem?_of_mem hm
      rw [hv] at hi
      exact ih i _ hi
  | mapNil => exact deepOpen_no_parts fun t' v' hq => by cases hq
  | @map st p t k e a es kd tx hr _ hv _ _ ih =>
    refine deepOpen_of fun t' v' hq => ?_
    cases hq with
    | map hr' hm =>
      rw [hr] at hr'; cases hr'
      have hm := hs _ _ _ p _ _ _ hm
      obtain ⟨i, hi⟩ := List.getElem?_of_mem hm
      rw [hv] at hi
      exact ih i _ _ hi
  | iface _ _ ih => exact ih
  | heldNil hd => exact deref_deepOpen hd fun _ _ ho => by cases ho
  | heldScalar hd hsc => exact deref_deepOpen hd fun _ _ ho => by cases ho; exact scalar_deepOpen hsc
  | heldConcreteSlice hd _ _ _ _ _ ih =>
    refine deref_deepOpen hd fun _ _ ho => ?_
    cases ho
    exact ih
  | heldSliceNil hd => exact deref_deepOpen hd fun _ _ ho => by cases ho; exact deepOpen_no_parts fun t' v' hq => by cases hq
  | heldSlice hd hr _ _ hv _ ih =>
    refine deref_deepOpen hd fun _ _ ho => ?_
    cases ho
    refine deepOpen_of fun t' v' hq => ?_
    cases hq with
    | slice hr' hm =>
      rw [hr] at hr'; cases hr'
      obtain ⟨i, hi⟩ := List.getElem?_of_mem hm
      rw [hv] at hi
      exact ih i _ hi
  | heldMapNil hd => exact deref_deepOpen hd fun _ _ ho => by cases ho; exact deepOpen_no_parts fun t' v' hq => by cases hq
  | @heldMap st p t v t' k e a es kd tx hd hr _ _ _ hv _ _ ih =>
    refine deref_deepOpen hd fun _ _ ho => ?_
    cases ho
    refine deepOpen_of fun t' v' hq => ?_
    cases hq with
    | map hr' hm =>
      rw [hr] at hr'; cases hr'
      have hm := hs _ _ _ p _ _ _ hm
      obtain ⟨i, hi⟩ := List.getElem?_of_mem hm
      rw [hv] at hi
      exact ih i _ _ hi
  | @heldConcreteMap st p t v t' k e a es kd tx hd hr _ _ _ hv _ _ _ ih =>
    refine deref_deepOpen hd fun _ _ ho => ?_
    cases ho
    refine deepOpen_of fun t' v' hq => ?_
    cases hq with
    | map hr' hm =>
      rw [hr] at hr'; cases hr'
      have hm := hs _ _ _ p _ _ _ hm
      obtain ⟨i, hi⟩ := List.getElem?_of_mem hm
      rw [hv] at hi
      exact ih i _ _ hi
  | heldStruct hd _ _ _ ih =>
    refine deref_deepOpen hd fun _ _ ho => ?_
    cases ho
    exact ih
  | fieldPlain _ _ ih => exact ih
  | fieldPtrNil => exact deepOpen_no_parts fun t' v' hq => by cases hq
  | fieldPtrStruct hr _ _ _ ih =>
    refine deepOpen_of fun t' v' hq => ?_
    cases hq with
    | ptr hr' => rw [hr] at hr'; cases hr'; exact ih
  | fieldPtr hr _ _ ih =>
    refine deepOpen_of fun t' v' hq => ?_
    cases hq with
    | ptr hr' => rw [hr] at hr'; cases hr'; exact ih
  | fieldStr _ hd => exact strField_deepOpen hd
  | fieldStrPtr hr hd =>
    refine deepOpen_of fun t' v' hq => ?_
    cases hq with
    | ptr hr' => rw [hr] at hr'; cases hr'; exact strField_deepOpen hd

/-- `Marshal` never returns a text for a value with a cycle that no method interrupts. -/
theorem openCyclic_not_ok {T : Ty} {V : GV} (hs : SteadyMaps h) (hc : OpenCyclic W h T V) (tx : Bytes) : ¬ MarshalGives W h (some (T, V)) (.ok tx) := by
  intro hg
  obtain ⟨-, he⟩ := marshalGives_ok_iff.1 hg
  obtain ⟨t, v, h1, h2⟩ := hc
  exact deepOpen_not_inside (deepOpen_within (encG_deepOpen hs he) h1) h2

/-- Without methods every cycle counts. -/
theorem openCyclic_of {T : Ty} {V : GV} (hn : ∀ t' v', Within W h T V t' v' → ¬ HasMarshal W t') (hc : Cyclic W h T V) : OpenCyclic W h T V := by
  have key : ∀ t v t' v', Within W h T V t v → Within W h t v t' v' → OpenWithin W h t v t' v' := by
    intro t v t' v' h1 h2
    induction h2 with
    | refl => exact .refl
    | step hp _ ih => exact .step hp (hn _ _ h1) (ih (within_trans h1 (.step hp .refl)))
  obtain ⟨t, v, h1, t', v', h2, h3⟩ := hc
  exact ⟨t, v, key _ _ _ _ .refl h1, t', v', h2, hn _ _ h1, key _ _ _ _ (within_trans h1 (.step h2 .refl)) h3⟩

end Verif

import Verif.Proofs.EncVisit
/-
Calls of the encoder model that report recursion, and calls that do not end.
-/
namespace Verif
open Spec

variable {W : World} {h : Heap}

/-! ### Failures that preparing a type cannot have -/

theorem unsupported_err {e : Err} (x : Fail) (hx : x = .err e) (hne : ∀ s, e ≠ .unsupported s) {α : Type} {r : Res α}
    (hr : (∃ a, r = .ok a) ∨ (∃ s, r = .err (.unsupported s)) ∨ r = .diverge) : ¬ Fails x r := by
  subst hx
  rcases hr with ⟨a, rfl⟩ | ⟨s, rfl⟩ | rfl
  · intro h; cases h
  · intro h; cases h; exact hne _ rfl
  · intro h; cases h

/-- Success, an unsupported type, or no end. -/
def CompRes {α : Type} (r : Res α) : Prop := (∃ a, r = .ok a) ∨ (∃ s, r = .err (.unsupported s)) ∨ r = .diverge

theorem compRes_ok {α : Type} {a : α} : CompRes (.ok a) := .inl ⟨a, rfl⟩
theorem compRes_err {α : Type} {s : String} : CompRes (α := α) (.err (.unsupported s)) := .inr (.inl ⟨s, rfl⟩)

theorem compRes_bind {α β : Type} {r : Res α} {k : α → Res β} (h : CompRes r) (hk : ∀ a, CompRes (k a)) : CompRes (r >>= k) := by
  rcases h with ⟨a, rfl⟩ | ⟨s, rfl⟩ | rfl
  · exact hk a
  · exact .inr (.inl ⟨s, rfl⟩)
  · exact .inr (.inr rfl)

theorem compileEFields_res {r : List Ty → Ty → Res (List Ty)} (hr : ∀ s t, CompRes (r s t)) (fs : List Field) (s : List Ty) : CompRes (compileEFields W r s fs) := by
  induction fs generalizing s with
  | nil => exact compRes_ok
  | cons f fs ih =>
    unfold compileEFields
    simp only []
    split
    · exact ih _
    · split
      · exact compRes_err
      · split
        · exact compRes_err
        · split
          · split
            · exact ih _
            · exact compRes_err
          · exact compRes_bind (hr _ _) (fun _ => ih _)

theorem compileEMap_res {r : List Ty → Ty → Res (List Ty)} (hr : ∀ s t, CompRes (r s t)) (s : List Ty) (t k v : Ty) : CompRes (compileEMap W r s t k v) := by
  unfold compileEMap
  split
  · exact compRes_ok
  · split
    · exact compRes_err
    · exact hr _ _

theorem compileEStruct_res {r : List Ty → Ty → Res (List Ty)} (hr : ∀ s t, CompRes (r s t)) (s : List Ty) (t : Ty) (fs : List Field) :
    CompRes (compileEStruct W r s t fs) := by
  unfold compileEStruct
  split
  · exact compRes_ok
  · exact compileEFields_res hr _ _

theorem compileE_res (f : Nat) (s : List Ty) (t : Ty) : CompRes (compileE W f s t) := by
  induction f generalizing s t with
  | zero => exact .inr (.inr rfl)
  | succ f ih =>
    unfold compileE
    split
    · exact compRes_ok
    · split
      · exact compRes_ok
      · split
        all_goals first
        | exact compRes_ok
        | exact compRes_err
        | exact compileEStruct_res ih _ _ _
        | exact compileEMap_res ih _ _ _ _
        | exact compRes_bind (ih _ _) (fun _ => compRes_ok)
        | skip
        · split
          · exact compRes_err
          · exact compRes_ok
        · unfold compileESlice
          split
          · exact compRes_ok
          · exact ih _ _
        · unfold compileEPtr
          split
          all_goals first
          | exact compRes_ok
          | exact compRes_err
          | exact compileEStruct_res ih _ _ _
          | exact compileEMap_res ih _ _ _ _
          | exact ih _ _
          | skip
          · split
            · exact ih _ _
            · exact compRes_ok

theorem compileE_not_recursive {f : Nat} {s : List Ty} {t : Ty} (hf : Fails (.err .recursive) (compileE W f s t)) : False := by
  rcases compileE_res (W := W) f s t with ⟨_, h⟩ | ⟨_, h⟩ | h <;> rw [h] at hf <;> cases hf

theorem derefAll_no_err {f : Nat} {t : Ty} {v : GV} {e : Err} (hf : Fails (.err e) (derefAll W h f t v)) : False := by
  induction f generalizing t v with
  | zero => cases hf
  | succ f ih =>
    unfold derefAll at hf
    split at hf
    · split at hf
      · cases hf
      · exact ih hf
      · cases hf
    · split at hf
      · cases hf
      · exact ih hf
      · cases hf
    · split at hf
      · cases hf
      · exact ih hf
      · cases hf
    · cases hf

/-! ### Recursion errors -/

/-- Somewhere ahead an address is not let through. -/
def Ahead (W : World) (h : Heap) (y : Place) : Prop := ∃ z, Visits W h y z ∧ Blocked W z

theorem ahead_step {y z : Place} (hv : Visit W h y z) : Ahead W h z → Ahead W h y := fun ⟨u, h1, h2⟩ => ⟨u, .step hv h1, h2⟩

theorem cause_recursive {cf f : Nat} {y : Place} (hm : ∀ t v, h.marshal t v ≠ .err .recursive) (hc : Cause W h cf f (.err .recursive) y) : Blocked W y := by
  cases hc with
  | blocked _ h => exact h
  | unsupported _ h _ => cases h
  | misfit _ h => cases h
  | nilCall _ h => cases h
  | method t v _ _ _ h => exact absurd h (hm t v)
  | compile _ _ h => exact (compileE_not_recursive h).elim
  | compileElem _ _ _ _ _ h => exact (compileE_not_recursive h).elim
  | deref _ h => exact (derefAll_no_err h).elim
  | derefStr _ _ h => exact (derefAll_no_err h).elim
  | derefStrPtr _ _ _ _ h => exact (derefAll_no_err h).elim

theorem deref_visits {st : Stack} {p : Path} {t : Ty} {v : GV} {o : Option (Ty × GV)} (hd : Deref W h t v o) {t' : Ty} {v' : GV} (ho : o = some (t', v')) :
    Visits W h ⟨.held, st, p, t, v⟩ ⟨.held, st, p, t', v'⟩ := by
  induction hd with
  | ptrNil => cases ho
  | ifaceNil => cases ho
  | ptr hr _ ih => exact .step (.heldPtr hr) (ih ho)
  | iface hi _ ih => exact .step (.heldIface hi) (ih ho)
  | done => cases ho; exact .refl

theorem visits_trans {x y z : Place} (h1 : Visits W h x y) (h2 : Visits W h y z) : Visits W h x z := by
  induction h1 with
  | refl => exact h2
  | step a _ ih => exact .step a (ih h2)

/-- Somewhere ahead lies the reason of the failure. -/
def CauseAhead (W : World) (h : Heap) (x : Fail) (y : Place) : Prop := ∃ z cf f, Visits W h y z ∧ Cause W h cf f x z

theorem causeAhead_step {x : Fail} {y z : Place} (hv : Visit W h y z) : CauseAhead W h x z → CauseAhead W h x y :=
  fun ⟨u, c, f, h1, h2⟩ => ⟨u, c, f, .step hv h1, h2⟩

/-- The reason why a run fails lies ahead. -/
theorem cause_ahead {x : Fail} (hx : x ≠ .diverge) (cf f : Nat) : ∀ y b, Fails x (runAt W h cf f y b).2 → CauseAhead W h x y := by
  induction f with
  | zero =>
    have typed : ∀ st p t v b, Fails x (runAt W h cf 0 ⟨.typed, st, p, t, v⟩ b).2 → False := by
      intro st p t v b hf; simp only [runAt, encF] at hf; cases x <;> first | exact hx rfl | cases hf
    have held : ∀ st p t v b, Fails x (runAt W h cf 0 ⟨.held, st, p, t, v⟩ b).2 → False := by
      intro st p t v b hf; simp only [runAt, encF] at hf; cases x <;> first | exact hx rfl | cases hf
    have field : ∀ str st p t v b, Fails x (runAt W h cf 0 ⟨.field str, st, p, t, v⟩ b).2 → CauseAhead W h x ⟨.field str, st, p, t, v⟩ := by
      intro str st p t v b hf
      rcases field_fails hf with hc | ⟨z, b', hv, hz⟩
      · exact ⟨_, _, _, .refl, hc⟩
      · cases hv <;> exact (typed _ _ _ _ _ hz).elim
    rintro ⟨m, st, p, t, v⟩ b hf
    cases m with
    | typed => exact (typed _ _ _ _ _ hf).elim
    | held => exact (held _ _ _ _ _ hf).elim
    | field str => exact field _ _ _ _ _ _ hf
    | kind =>
      rcases kind_fails hf with hc | ⟨z, b', hv, hz⟩
      · exact ⟨_, _, _, .refl, hc⟩
      · cases hv with
        | field h1 h2 h3 h4 h5 => exact causeAhead_step (.field h1 h2 h3 h4 h5) (field _ _ _ _ _ _ hz)
        | array => exact (typed _ _ _ _ _ hz).elim
        | slice => exact (typed _ _ _ _ _ hz).elim
        | map => exact (typed _ _ _ _ _ hz).elim
        | iface => exact (held _ _ _ _ _ hz).elim
  | succ f ih =>
    have typed : ∀ st p t v b, Fails x (runAt W h cf (f + 1) ⟨.typed, st, p, t, v⟩ b).2 → CauseAhead W h x ⟨.typed, st, p, t, v⟩ := by
      intro st p t v b hf
      rcases typed_fails hf with hc | ⟨z, b', hv, hz⟩
      · exact ⟨_, _, _, .refl, hc⟩
      · exact causeAhead_step hv (ih _ _ hz)
    have held : ∀ st p t v b, Fails x (runAt W h cf (f + 1) ⟨.held, st, p, t, v⟩ b).2 → CauseAhead W h x ⟨.held, st, p, t, v⟩ := by
      intro st p t v b hf
      rcases held_fails hf with hc | ⟨t', v', hd, hn⟩
      · exact ⟨_, _, _, .refl, hc⟩
      · have hvs := deref_visits (st := st) (p := p) (derefAll_sound hd) rfl
        rcases hn with hc | ⟨z, b', hv, hz⟩
        · exact ⟨_, _, _, hvs, hc⟩
        · obtain ⟨u, c, f, h1, h2⟩ := ih _ _ hz
          exact ⟨u, c, f, visits_trans hvs (.step hv h1), h2⟩
    have field : ∀ str st p t v b, Fails x (runAt W h cf (f + 1) ⟨.field str, st, p, t, v⟩ b).2 → CauseAhead W h x ⟨.field str, st, p, t, v⟩ := by
      intro str st p t v b hf
      rcases field_fails hf with hc | ⟨z, b', hv, hz⟩
      · exact ⟨_, _, _, .refl, hc⟩
      · refine causeAhead_step hv ?_
        cases hv <;> exact typed _ _ _ _ _ hz
    rintro ⟨m, st, p, t, v⟩ b hf
    cases m with
    | typed => exact typed _ _ _ _ _ hf
    | held => exact held _ _ _ _ _ hf
    | field str => exact field _ _ _ _ _ _ hf
    | kind =>
      rcases kind_fails hf with hc | ⟨z, b', hv, hz⟩
      · exact ⟨_, _, _, .refl, hc⟩
      · refine causeAhead_step hv ?_
        cases hv with
        | field => exact field _ _ _ _ _ _ hz
        | array => exact typed _ _ _ _ _ hz
        | slice => exact typed _ _ _ _ _ hz
        | map => exact typed _ _ _ _ _ hz
        | iface => exact held _ _ _ _ _ hz

/-- A run that reports recursion has an address ahead that is not let through. -/
theorem recursive_ahead (hm : ∀ t v, h.marshal t v ≠ .err .recursive) (cf f : Nat) (y : Place) (b : Bytes)
    (hf : Fails (.err .recursive) (runAt W h cf f y b).2) : Ahead W h y := by
  obtain ⟨z, c, g, h1, h2⟩ := cause_ahead (by simp) cf f y b hf
  exact ⟨z, h1, cause_recursive hm h2⟩

/-- A failure of `Marshal` comes from preparing the type or from a place that it visits. -/
theorem marshal_fails_ahead {x : Fail} (hx : x ≠ .diverge) {t : Ty} {v : GV} {cf f : Nat} (hf : Fails x (marshal W h cf f .clean (some (t, v))).2) :
    Fails x (compileE W cf [] t) ∨ CauseAhead W h x ⟨.typed, [], [], t, v⟩ := by
  simp only [marshal] at hf
  rcases fails_then hf with h2 | ⟨s, _, h2⟩
  · exact .inl h2
  · exact .inr (cause_ahead hx _ _ ⟨.typed, [], [], t, v⟩ [] h2)

/-! ### Panics -/

theorem within_part {t t' t'' : Ty} {v v' v'' : GV} (h1 : Within W h t v t' v') (h2 : Part W h t' v' t'' v'') : Within W h t v t'' v'' :=
  within_trans h1 (.step h2 .refl)

theorem shown_part {t : Ty} {id : Nat} {vs : List GV} {f : Field} {v : GV} {i : Nat} (h1 : W.resolve t = .struct id) (h2 : (W.fields id)[i]? = some f)
    (h3 : vs[i]? = some v) (h4 : Shown W f v) : Part W h t (.struct vs) f.ty v := by
  obtain ⟨e1, key, om, str, e2, e3, _⟩ := h4
  refine .field h1 h2 h3 e1 fun hk => ?_
  obtain ⟨om', str', hk⟩ := hk
  exact e3 ((tagMeaning_iff.1 e2).1.trans (tagMeaning_iff.1 hk).1.symm)

theorem visit_within {y z : Place} (hv : Visit W h y z) : Within W h y.t y.v z.t z.v := by
  cases hv with
  | ptrStruct _ hr => exact .step (.ptr hr) .refl
  | ptrKind _ hr => exact .step (.ptr hr) .refl
  | ptrTyped _ hr => exact .step (.ptr hr) .refl
  | field h1 h2 h3 h4 h5 => exact .step (shown_part h1 h2 h3 h4) .refl
  | array hr hi => exact .step (.array hr (List.mem_of_getElem? hi)) .refl
  | slice hr _ hi => exact .step (.slice hr (List.mem_of_getElem? hi)) .refl
  | map hr _ hi => exact .step (.map hr (List.mem_of_getElem? hi)) .refl
  | heldPtr hr => exact .step (.ptr hr) .refl
  | heldIface hr => exact .step (.iface hr) .refl
  | heldSlice hr _ _ hi => exact .step (.slice hr (List.mem_of_getElem? hi)) .refl
  | heldMap hr _ _ hi => exact .step (.map hr (List.mem_of_getElem? hi)) .refl
  | heldConcreteMap hr _ _ hi => exact .step (.map hr (List.mem_of_getElem? hi)) .refl
  | fieldPtrStruct hr => exact .step (.ptr hr) .refl
  | fieldPtr hr => exact .step (.ptr hr) .refl
  | _ => exact .refl

theorem visits_within {y z : Place} (hv : Visits W h y z) : Within W h y.t y.v z.t z.v := by
  induction hv with
  | refl => exact .refl
  | step a _ ih => exact within_trans (visit_within a) ih

theorem cause_panics {cf f : Nat} {y : Place} {p : Panic} (hw : WellFormed W h y.t y.v) (hc : Cause W h cf f (.panic p) y) :
    y.m = .typed ∧ W.marOf y.t = true ∧ (NilCall W y.t y.v ∨ ∃ t v, ((t = y.t ∧ v = y.v) ∨ y.v = .iface t v) ∧ h.marshal t v = .panic p) := by
  have hcomp : ∀ {f : Nat} {s : List Ty} {t : Ty}, Fails (.panic p) (compileE W f s t) → False := by
    intro f s t hf
    rcases compileE_res (W := W) f s t with ⟨_, h⟩ | ⟨_, h⟩ | h <;> rw [h] at hf <;> cases hf
  cases hc with
  | blocked h => cases h
  | unsupported _ h _ => cases h
  | misfit _ _ h => exact absurd hw h
  | nilCall _ _ h1 h2 h3 => exact ⟨h1, h2, .inl h3⟩
  | method t v h1 h2 h3 h4 => exact ⟨h1, h2, .inr ⟨t, v, h3.imp (fun h => ⟨h.1, h.2.1⟩) id, h4⟩⟩
  | compile _ _ h => exact (hcomp h).elim
  | compileElem _ _ _ _ _ h => exact (hcomp h).elim
  | deref _ h => exact absurd hw (derefAll_panics h)
  | derefStr _ _ h => exact absurd hw (derefAll_panics h)
  | derefStrPtr _ h1 h2 _ h => exact absurd (fun t' v' hi => hw t' v' (by rw [h2]; exact .step (.ptr h1) hi)) (derefAll_panics h)

/-- A panic of `Marshal` on well-formed values comes from calling a method. -/
theorem marshal_panics {t : Ty} {v : GV} {cf f : Nat} {p : Panic} (hw : WellFormed W h t v)
    (hf : Fails (.panic p) (marshal W h cf f .clean (some (t, v))).2) :
    ∃ z, Visits W h ⟨.typed, [], [], t, v⟩ z ∧ z.m = .typed ∧ W.marOf z.t = true ∧
      (NilCall W z.t z.v ∨ ∃ t' v', ((t' = z.t ∧ v' = z.v) ∨ z.v = .iface t' v') ∧ h.marshal t' v' = .panic p) := by
  rcases marshal_fails_ahead (by simp) hf with h1 | ⟨z, c, g, h1, h2⟩
  · rcases compileE_res (W := W) cf [] t with ⟨_, h⟩ | ⟨_, h⟩ | h <;> rw [h] at h1 <;> cases h1
  · exact ⟨z, h1, cause_panics (fun t' v' hi => hw t' v' (within_trans (visits_within h1) hi)) h2⟩

/-- `Marshal` reports recursion only if on the way through the value an address is not let through. -/
theorem marshal_recursive_ahead (hm : ∀ t v, h.marshal t v ≠ .err .recursive) {t : Ty} {v : GV}
    (hg : MarshalGives W h (some (t, v)) (.err .recursive)) : Ahead W h ⟨.typed, [], [], t, v⟩ := by
  obtain ⟨-, n, hn⟩ := hg
  have h1 := hn n n (Nat.le_refl _) (Nat.le_refl _)
  simp only [marshal] at h1
  have : Fails (.err .recursive) (andThen (Ctx.clean, compileE W n [] t) fun c _ => (encF W h n n).comp [] t c [] v).2 := h1
  rcases fails_then this with h2 | ⟨s, _, h2⟩
  · exact (compileE_not_recursive h2).elim
  · exact recursive_ahead hm n n ⟨.typed, [], [], t, v⟩ [] h2

end Verif

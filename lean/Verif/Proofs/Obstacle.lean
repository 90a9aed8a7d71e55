import Verif.Proofs.EncRecursive
import Verif.Proofs.Fault
import Verif.Proofs.EncDocs
/-
Errors of `Marshal` have an obstacle in the value.
-/
namespace Verif
open Spec

variable {W : World} {h : Heap} {t : Ty} {v : GV}

/-- What is known of a place that is visited on the way into `v`. -/
def Charted (W : World) (h : Heap) (t : Ty) (v : GV) (y : Place) : Prop :=
  match y.m with
  | .typed => ∃ r, Root W h t v r ∧ (LookedInto W y.t → EncOpens W r y.t)
  | .kind => W.isPtr y.t = false ∧ ((∃ r, Root W h t v r ∧ EncOpens W r y.t) ∨ directKind W y.t = true ∧ ∀ k e, W.resolve y.t ≠ .map k e)
  | .field str => ∃ r u id f, Root W h t v r ∧ EncOpens W r u ∧ W.resolve u = .struct id ∧ f ∈ W.fields id ∧ WrittenField W f ∧
      (str = true ↔ HasString W f) ∧ y.t = f.ty ∧ (str = true → StringField W h t v y.t y.v)
  | .held => W.isIface y.t = true ∨ (∃ e, W.resolve y.t = .ptr e ∧ W.isIface e = true) ∨ HeldIn W h t v y.t y.v

theorem shown_written {f : Field} {w : GV} (h4 : Shown W f w) : WrittenField W f := by
  obtain ⟨e1, key, om, str, e2, e3, _⟩ := h4
  refine ⟨e1, fun hk => ?_⟩
  obtain ⟨om', str', hk⟩ := hk
  exact e3 ((tagMeaning_iff.1 e2).1.trans (tagMeaning_iff.1 hk).1.symm)

theorem leads_ptr {t t' e : Ty} {v : GV} {a : Nat} (hl : Leads W h t v t' (.ptr a)) (hr : W.resolve t' = .ptr e) : Leads W h t v e (h.deref e a) := by
  generalize hv : GV.ptr a = w at hl
  induction hl with
  | refl => subst hv; exact .ptr hr .refl
  | ptr h1 _ ih => exact .ptr h1 (ih hr hv)
  | iface h1 _ ih => exact .iface h1 (ih hr hv)

theorem iface_ptr_absurd {t e : Ty} (hi : W.isIface t = true) (hr : W.resolve t = .ptr e) : False := by simp [World.isIface, hr] at hi
theorem iface_slice_absurd {t e : Ty} (hi : W.isIface t = true) (hr : W.resolve t = .slice e) : False := by simp [World.isIface, hr] at hi
theorem iface_map_absurd {t k e : Ty} (hi : W.isIface t = true) (hr : W.resolve t = .map k e) : False := by simp [World.isIface, hr] at hi

/-- A held place that is no pointer and no interface is held in an interface. -/
theorem charted_held {st : Stack} {p : Path} {u : Ty} {w : GV} (hc : Charted W h t v ⟨.held, st, p, u, w⟩) (hp : W.isPtr u = false) (hi : W.isIface u = false) :
    HeldIn W h t v u w := by
  rcases hc with h1 | ⟨e, h1, _⟩ | h1
  · rw [hi] at h1; cases h1
  · rw [isPtr_iff.2 ⟨e, h1⟩] at hp; cases hp
  · exact h1

theorem charted_kind {st : Stack} {p : Path} {u : Ty} {w : GV} (hc : Charted W h t v ⟨.kind, st, p, u, w⟩) (hn : directKind W u = false ∨ ∃ k e, W.resolve u = .map k e) :
    ∃ r, Root W h t v r ∧ EncOpens W r u := by
  rcases hc with ⟨_, h1 | ⟨h1, h2⟩⟩
  · exact h1
  · rcases hn with hn | ⟨k, e, hn⟩
    · rw [hn] at h1; cases h1
    · exact absurd hn (h2 k e)

theorem charted_step {y z : Place} (hw : Within W h t v y.t y.v) (hc : Charted W h t v y) (hv : Visit W h y z) : Charted W h t v z := by
  cases hv with
  | plain h1 h2 h3 =>
    obtain ⟨r, hr, ho⟩ := hc
    exact ⟨h3, .inl ⟨r, hr, ho ⟨h1, h2⟩⟩⟩
  | @ptrStruct _ _ u e _ h1 h2 h3 =>
    obtain ⟨r, hr, ho⟩ := hc
    obtain ⟨id, hs⟩ := isStruct_iff.1 h3
    exact ⟨by simp [World.isPtr, hs], .inl ⟨r, hr, .ptrStruct (ho ⟨h1, by rintro rfl; cases h2⟩) h2 hs⟩⟩
  | @ptrKind _ _ u e _ h1 h2 h3 =>
    obtain ⟨r, hr, ho⟩ := hc
    have ho := ho ⟨h1, by rintro rfl; cases h2⟩
    by_cases hm : ∃ k e', W.resolve e = .map k e'
    · obtain ⟨k, e', hm⟩ := hm
      exact ⟨by simp [World.isPtr, hm], .inl ⟨r, hr, .ptrMap ho h2 hm⟩⟩
    · refine ⟨?_, .inr ⟨h3, fun k e' hk => hm ⟨k, e', hk⟩⟩⟩
      cases hp : W.isPtr e
      · rfl
      · obtain ⟨x, hx⟩ := isPtr_iff.1 hp; simp [directKind, hx] at h3
  | ptrTyped h1 h2 =>
    obtain ⟨r, hr, ho⟩ := hc
    exact ⟨r, hr, fun hl => .ptr (ho ⟨h1, by rintro rfl; cases h2⟩) h2 hl⟩
  | ptrIface h1 h2 h3 => exact .inr (.inl ⟨_, h2, h3⟩)
  | @field _ _ u id vs f w i str h1 h2 h3 h4 h5 =>
    obtain ⟨r, hr, ho⟩ := charted_kind hc (.inl (by simp [directKind, h1]))
    exact ⟨r, u, id, f, hr, ho, h1, List.mem_of_getElem? h2, shown_written h4, h5, rfl, fun hs => ⟨u, id, vs, f, i, hw, h1, h2, h3, h4, h5.1 hs, rfl⟩⟩
  | array h1 =>
    obtain ⟨r, hr, ho⟩ := charted_kind hc (.inl (by simp [directKind, h1]))
    exact ⟨r, hr, fun hl => .array ho h1 hl⟩
  | slice h1 =>
    obtain ⟨r, hr, ho⟩ := charted_kind hc (.inl (by simp [directKind, h1]))
    exact ⟨r, hr, fun hl => .slice ho h1 hl⟩
  | map h1 =>
    obtain ⟨r, hr, ho⟩ := charted_kind hc (.inr ⟨_, _, h1⟩)
    exact ⟨r, hr, fun hl => .mapVal ho h1 hl⟩
  | iface h1 => exact .inl h1
  | heldPtr h1 =>
    rcases hc with h2 | ⟨e, h2, h3⟩ | ⟨ti, dt, dv, h2, h3, h4⟩
    · exact (iface_ptr_absurd h2 h1).elim
    · rw [h1] at h2; cases h2; exact .inl h3
    · exact .inr (.inr ⟨ti, dt, dv, h2, h3, leads_ptr h4 h1⟩)
  | heldIface h1 => exact .inr (.inr ⟨_, _, _, h1, hw, .refl⟩)
  | heldConcreteSlice h1 h2 =>
    exact ⟨_, .slice (charted_held hc (by simp [World.isPtr, h1]) (by simp [World.isIface, h1])) h1 h2, .self⟩
  | heldSlice h1 h2 => exact .inl h2
  | heldMap h1 h2 => exact .inl h2
  | heldConcreteMap h1 h2 _ h3 =>
    exact ⟨_, .map (charted_held hc (by simp [World.isPtr, h1]) (by simp [World.isIface, h1])) h1 h2 (List.mem_of_getElem? h3), .self⟩
  | heldStruct h1 =>
    obtain ⟨id, hs⟩ := isStruct_iff.1 h1
    exact ⟨_, .struct (charted_held hc (by simp [World.isPtr, hs]) (by simp [World.isIface, hs])) h1, .self⟩
  | fieldPlain h1 =>
    obtain ⟨r, u, id, f, hr, ho, h2, h3, h4, h5, h6, -⟩ := hc
    dsimp only at h6
    subst h6
    exact ⟨r, hr, fun hl => .field ho h2 h3 h4 (by simp [← h5]) (fun e he => by rw [isPtr_iff.2 ⟨e, he⟩] at h1; cases h1) hl⟩
  | fieldPtrStruct h1 _ _ =>
    obtain ⟨r, u, id, f, hr, ho, h2, h3, h4, h5, h6, -⟩ := hc
    dsimp only at h6
    subst h6
    exact ⟨r, hr, fun hl => .fieldPtr ho h2 h3 h4 (by simp [← h5]) h1 hl⟩
  | fieldPtr h1 _ =>
    obtain ⟨r, u, id, f, hr, ho, h2, h3, h4, h5, h6, -⟩ := hc
    dsimp only at h6
    subst h6
    exact ⟨r, hr, fun hl => .fieldPtr ho h2 h3 h4 (by simp [← h5]) h1 hl⟩

theorem charted_visits {y z : Place} (hv : Visits W h y z) (hw : Within W h t v y.t y.v) (hc : Charted W h t v y) : Charted W h t v z := by
  induction hv with
  | refl => exact hc
  | step a _ ih => exact ih (within_trans hw (visit_within a)) (charted_step hw hc a)

/-- What is not supported at a visited place is an obstacle. -/
theorem bad_obstacle {y : Place} {s : String} (hwf : WellFormed W h t v) (hw : Within W h t v y.t y.v) (hc : Charted W h t v y) (hb : Bad W h y s) :
    Obstacle W h t v (.unsupported s) := by
  obtain ⟨m, st, p, u, w⟩ := y
  have fits : ∀ {u' t' : Ty} {w' v' : GV}, Within W h u w u' w' → Deref W h u' w' (some (t', v')) → Fits W h t' v' :=
    fun h1 hd => hwf _ _ (within_trans hw (within_trans h1 (deref_within hd rfl)))
  cases hb with
  | string hm hp hn =>
    dsimp only at hm hp hn; subst hm
    obtain ⟨r, u', id, f, hr, ho, h2, h3, h4, h5, h6, -⟩ := hc
    dsimp only at h6
    subst h6
    refine .type _ hr ho (.string h2 h3 h4 (h5.1 rfl) (fun e he => ?_) fun hk => ?_)
    · rw [isPtr_iff.2 ⟨e, he⟩] at hp; cases hp
    · rw [asStringOk_iff.2 hk] at hn; cases hn
  | stringPtr hm hp hn =>
    dsimp only at hm hp hn; subst hm
    obtain ⟨r, u', id, f, hr, ho, h2, h3, h4, h5, h6, -⟩ := hc
    dsimp only at h6
    subst h6
    refine .type _ hr ho (.stringPtr h2 h3 h4 (h5.1 rfl) hp fun hk => ?_)
    rw [asStringOk_iff.2 hk] at hn; cases hn
  | heldString hm hi hd hn =>
    dsimp only at hm hi hd hn; subst hm
    obtain ⟨_, _, _, _, _, _, _, _, _, _, _, hs⟩ := hc
    exact .string (hs rfl) hi hd fun hp => hn ⟨hp, fits .refl hd⟩
  | heldStringPtr hm hr hv hi hd hn =>
    dsimp only at hm hr hv hi hd hn; subst hm hv
    obtain ⟨_, _, _, _, _, _, _, _, _, _, _, hs⟩ := hc
    exact .stringPtr (hs rfl) hr hi hd fun hp => hn ⟨hp, fits (.step (.ptr hr) .refl) hd⟩
  | key hm hr hn =>
    dsimp only at hm hr; subst hm
    obtain ⟨r, h1, h2⟩ := charted_kind hc (.inr ⟨_, _, hr⟩)
    exact .type _ h1 h2 (.key hr fun hk => by rw [encKeyKind_iff.2 hk] at hn; cases hn)
  | kind hm hk =>
    dsimp only at hm hk; subst hm
    have hp : W.isPtr u = false := hc.1
    obtain ⟨r, h1, h2⟩ := charted_kind hc (.inl (by rcases hk with hk | hk | ⟨_, hk⟩ | ⟨_, hk⟩ <;> simp [directKind, hk]))
    refine .type _ h1 h2 (.kind ?_)
    rcases hk with hk | hk | hk | ⟨e, hk⟩
    · exact .inl hk
    · exact .inr (.inl hk)
    · exact .inr (.inr hk)
    · rw [isPtr_iff.2 ⟨e, hk⟩] at hp; cases hp
  | heldKey hm hr hn =>
    dsimp only at hm hr; subst hm
    exact .key (charted_held hc (by simp [World.isPtr, hr]) (by simp [World.isIface, hr])) hr fun hk => by rw [encKeyKind_iff.2 hk] at hn; cases hn
  | held hm hp hi hk =>
    dsimp only at hm hp hi hk; subst hm
    exact .held (charted_held hc hp hi) hp hi hk
  | nested hm hma hr hr' =>
    dsimp only at hm hma hr hr'; subst hm
    obtain ⟨r, h1, h2⟩ := hc
    exact .type _ h1 (h2 ⟨hma, by rintro rfl; cases hr⟩) (.ptr hr hr')

theorem compile_obstacle {r : Ty} {cf : Nat} {e : Err} (hr : Root W h t v r) (hf : Fails (.err e) (compileE W cf [] r)) : Obstacle W h t v e := by
  have hf : compileE W cf [] r = .err e := hf
  rw [← prepE_plain] at hf
  cases hp : prepE W cf [] r with
  | ok s => rw [hp] at hf; cases hf
  | diverge => rw [hp] at hf; cases hf
  | err x =>
    rw [hp] at hf
    cases hf
    obtain ⟨u, h1, h2⟩ := prepE_blames opens_openSet .self hp
    cases h2 with
    | kind a => exact .type _ hr h1 (.kind a)
    | key a b => exact .type _ hr h1 (.key a b)
    | ptr a b => exact .type _ hr h1 (.ptr a b)
    | fieldPtr a b c d e => exact .type _ hr h1 (.fieldPtr a b c d e)
    | embedded a b c d e => exact .type _ hr h1 (.embedded a b c d e)
    | string a b c d e f => exact .type _ hr h1 (.string a b c d e f)
    | stringPtr a b c d e f => exact .type _ hr h1 (.stringPtr a b c d e f)

/-- Every error of `Marshal` but that about recursion has an obstacle. -/
theorem marshal_obstacle {cf f : Nat} {e : Err} (hwf : WellFormed W h t v) (hf : (marshal W h cf f .clean (some (t, v))).2 = .err e) :
    e = .recursive ∨ Obstacle W h t v e := by
  rcases marshal_fails_ahead (x := .err e) (by simp) hf with h1 | ⟨z, c, g, h1, h2⟩
  · exact .inr (compile_obstacle .top h1)
  · have hw : Within W h t v z.t z.v := visits_within h1
    have hc : Charted W h t v z := charted_visits h1 .refl ⟨t, .top, .self⟩
    cases h2 with
    | blocked h => cases h; exact .inl rfl
    | unsupported s hx hb => cases hx; exact .inr (bad_obstacle hwf hw hc hb)
    | misfit _ h => cases h
    | nilCall _ h => cases h
    | method t' v' _ hm hv he =>
      refine .inr (.method hw (marOf_iff.1 hm) ?_)
      rcases hv with ⟨rfl, rfl, -⟩ | hv
      · exact .inl he
      · exact .inr ⟨t', v', hv, he⟩
    | compile hm hk he =>
      obtain ⟨m, st, p, u, w⟩ := z
      dsimp only at hm hk he; subst hm
      rcases hk with hs | ⟨e', hr, hi⟩
      · obtain ⟨id, hr⟩ := isStruct_iff.1 hs
        exact .inr (compile_obstacle (.struct (charted_held hc (by simp [World.isPtr, hr]) (by simp [World.isIface, hr])) hs) he)
      · exact .inr (compile_obstacle (.slice (charted_held hc (by simp [World.isPtr, hr]) (by simp [World.isIface, hr])) hr hi) he)
    | compileElem hm hr hv hi hn he =>
      obtain ⟨m, st, p, u, w⟩ := z
      dsimp only at hm hr hv hi; subst hm hv
      exact .inr (compile_obstacle (.map (charted_held hc (by simp [World.isPtr, hr]) (by simp [World.isIface, hr])) hr hn hi) he)
    | deref _ h => exact (derefAll_no_err h).elim
    | derefStr _ _ h => exact (derefAll_no_err h).elim
    | derefStrPtr _ _ _ _ h => exact (derefAll_no_err h).elim

end Verif

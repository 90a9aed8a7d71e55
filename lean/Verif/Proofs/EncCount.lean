import Verif.Proofs.EncObj
import Verif.Spec.Compile
/-
How many variables for encoders are made.
-/
namespace Verif
open Spec

/-- One variable for each type met so far. -/
structure OneEach (W : World) (t0 : Ty) (m : EncMem) : Prop where
  nodup : (m.seen.map (·.1)).Nodup
  len : m.seen.length = m.heap.length
  reach : ∀ p ∈ m.seen, EncReach W t0 p.1 ∧ Collected W p.1

theorem OneEach.push {W : World} {t0 : Ty} {m : EncMem} (h : OneEach W t0 m) {t : Ty} (hr : EncReach W t0 t) (hc : Collected W t) (hl : m.seen.lookup t = none)
    (a : Nat) : OneEach W t0 { heap := m.heap ++ [none], seen := (t, a) :: m.seen } := by
  refine ⟨?_, by simp [h.len], fun p hp => ?_⟩
  · rw [List.map_cons, List.nodup_cons]
    refine ⟨fun hm => ?_, h.nodup⟩
    obtain ⟨p, hp, e⟩ := List.mem_map.1 hm
    exact lookup_none hl p hp e
  · rcases List.mem_cons.1 hp with rfl | hp
    · exact ⟨hr, hc⟩
    · exact h.reach p hp

theorem OneEach.set {W : World} {t0 : Ty} {m : EncMem} (h : OneEach W t0 m) (a : Nat) (b : Option EncBody) : OneEach W t0 { m with heap := m.heap.set a b } :=
  ⟨h.nodup, by simp [h.len], h.reach⟩

/-- What is asked of the recursive calls. -/
def KeepsOne (W : World) (t0 : Ty) (rec : EncMem → Ty → Res (Enc × EncMem)) : Prop :=
  ∀ m t d m', EncReach W t0 t → OneEach W t0 m → rec m t = .ok (d, m') → OneEach W t0 m'

theorem makeSlice_one {W : World} {t0 : Ty} {rec} (hr : KeepsOne W t0 rec) {m m' : EncMem} {t e : Ty} {d : Enc} (ht : W.resolve t = .slice e)
    (hreach : EncReach W t0 t) (hm : OneEach W t0 m) (h : makeSlice rec m t e = .ok (d, m')) : OneEach W t0 m' := by
  unfold makeSlice at h
  split at h
  · cases h; exact hm
  · rename_i hl
    obtain ⟨⟨d1, m1⟩, h1, h2⟩ := Res.bind_eq_ok.1 h
    cases h2
    exact (hr _ _ _ _ (.step hreach (.slice ht)) (hm.push hreach (.inr (.inl ⟨e, ht⟩)) hl _) h1).set _ _

theorem makeMap_one {W : World} {t0 : Ty} {rec} (hr : KeepsOne W t0 rec) {m m' : EncMem} {t k v : Ty} {d : Enc} (ht : W.resolve t = .map k v)
    (hreach : EncReach W t0 t) (hm : OneEach W t0 m) (h : makeMap W rec m t k v = .ok (d, m')) : OneEach W t0 m' := by
  unfold makeMap at h
  split at h
  · cases h; exact hm
  · rename_i hl
    split at h
    · cases h
    obtain ⟨⟨d1, m1⟩, h1, h2⟩ := Res.bind_eq_ok.1 h
    cases h2
    exact (hr _ _ _ _ (.step hreach (.mapVal ht)) (hm.push hreach (.inr (.inr ⟨k, v, ht⟩)) hl _) h1).set _ _

theorem makeEFields_one {W : World} {t0 : Ty} {rec} (hr : KeepsOne W t0 rec) : ∀ (fs : List Field) i m fls m', (∀ f ∈ fs, EncReach W t0 f.ty) → OneEach W t0 m →
    makeEFields W rec i m fs = .ok (fls, m') → OneEach W t0 m'
  | [], i, m, fls, m', _, hm, h => by simp only [makeEFields] at h; cases h; exact hm
  | f :: fs, i, m, fls, m', hf, hm, h => by
    have ih := fun i m fls m' => makeEFields_one hr fs i m fls m' (fun f h => hf f (List.mem_cons_of_mem _ h))
    have h0 := hf f List.mem_cons_self
    unfold makeEFields at h
    dsimp only at h
    split at h
    · exact ih _ _ _ _ hm h
    cases hres : W.resolve f.ty <;> simp only [hres, Option.getD_some, Option.getD_none, Bool.false_eq_true, if_false] at h
    case ptr e =>
      split at h
      · cases h
      split at h
      · cases h
      obtain ⟨⟨⟨p, d⟩, m1⟩, h1, h2⟩ := Res.bind_eq_ok.1 h
      obtain ⟨⟨fls', m2⟩, h3, h4⟩ := Res.bind_eq_ok.1 h2
      cases h4
      refine ih _ _ _ _ ?_ h3
      split at h1
      · split at h1
        · cases h1; exact hm
        · cases h1
      · obtain ⟨⟨d1, m3⟩, h5, h6⟩ := Res.bind_eq_ok.1 h1
        have := hr _ _ _ _ (.step h0 (.ptr hres)) hm h5
        dsimp only at h6
        split at h6 <;> cases h6 <;> exact this
    all_goals
      split at h
      · cases h
      obtain ⟨⟨⟨p, d⟩, m1⟩, h1, h2⟩ := Res.bind_eq_ok.1 h
      obtain ⟨⟨fls', m2⟩, h3, h4⟩ := Res.bind_eq_ok.1 h2
      cases h4
      refine ih _ _ _ _ ?_ h3
      split at h1
      · split at h1
        · cases h1; exact hm
        · cases h1
      · obtain ⟨⟨d1, m3⟩, h5, h6⟩ := Res.bind_eq_ok.1 h1
        have := hr _ _ _ _ h0 hm h5
        cases h6
        exact this

theorem makeEStruct_one {W : World} {t0 : Ty} {rec} (hr : KeepsOne W t0 rec) {m m' : EncMem} {t : Ty} {id : Nat} {d : Enc} (ht : W.resolve t = .struct id)
    (hreach : EncReach W t0 t) (hm : OneEach W t0 m) (h : makeEStruct W rec m t (W.fields id) = .ok (d, m')) : OneEach W t0 m' := by
  unfold makeEStruct at h
  split at h
  · cases h; exact hm
  · rename_i hl
    obtain ⟨⟨d1, m1⟩, h1, h2⟩ := Res.bind_eq_ok.1 h
    cases h2
    exact (makeEFields_one hr _ _ _ _ _ (fun f hf => .step hreach (.field ht hf)) (hm.push hreach (.inl ⟨id, ht⟩) hl _) h1).set _ _

theorem makeEPtr_one {W : World} {t0 : Ty} {rec} (hr : KeepsOne W t0 rec) {m m' : EncMem} {t e : Ty} {d : Enc} (ht : W.resolve t = .ptr e)
    (hreach : EncReach W t0 t) (hm : OneEach W t0 m) (h : makeEPtr W rec m t e = .ok (d, m')) : OneEach W t0 m' := by
  have he : EncReach W t0 e := .step hreach (.ptr ht)
  unfold makeEPtr at h
  cases hres : W.resolve e <;> rw [hres] at h <;> dsimp only at h
  case ptr => cases h
  case uint k =>
    split at h
    · obtain ⟨⟨d1, m1⟩, h1, h2⟩ := Res.bind_eq_ok.1 h
      cases h2; exact hr _ _ _ _ he hm h1
    · cases h; exact hm
  case map k v =>
    obtain ⟨⟨d1, m1⟩, h1, h2⟩ := Res.bind_eq_ok.1 h
    cases h2; exact makeMap_one hr hres he hm h1
  case struct id =>
    obtain ⟨⟨d1, m1⟩, h1, h2⟩ := Res.bind_eq_ok.1 h
    cases h2; exact makeEStruct_one hr hres he hm h1
  all_goals first
    | (cases h; exact hm)
    | (obtain ⟨⟨d1, m1⟩, h1, h2⟩ := Res.bind_eq_ok.1 h; cases h2; exact hr _ _ _ _ he hm h1)

theorem makeEnc_one {W : World} {t0 : Ty} (ha : ∀ t n e, EncReach W t0 t → W.resolve t ≠ .array n e) : ∀ f, KeepsOne W t0 (makeEnc W f) := by
  intro f
  induction f with
  | zero => intro m t d m' _ _ h; cases h
  | succ f ih =>
    intro m t d m' hreach hm h
    unfold makeEnc at h
    split at h
    · cases h; exact hm
    split at h
    · cases h; exact hm
    cases hres : W.resolve t <;> rw [hres] at h <;> dsimp only at h
    case uint k =>
      split at h
      · cases h
      · cases h; exact hm
    case struct id => exact makeEStruct_one ih hres hreach hm h
    case array n e => exact absurd hres (ha t n e hreach)
    case slice e => exact makeSlice_one ih hres hreach hm h
    case map k v => exact makeMap_one ih hres hreach hm h
    case ptr e => exact makeEPtr_one ih hres hreach hm h
    all_goals first | (cases h; exact hm) | (cases h; done)

/-- The variables made for a type that contains no arrays. -/
theorem getEncoder_one {W : World} {t : Ty} (ha : ∀ t' n e, EncReach W t t' → W.resolve t' ≠ .array n e) {cf : Nat} {d : Enc} {H : List (Option EncBody)}
    (h : getEncoder W cf t = .ok (d, H)) : ∃ S : List Ty, S.Nodup ∧ S.length = H.length ∧ ∀ u ∈ S, EncReach W t u ∧ Collected W u := by
  unfold getEncoder at h
  obtain ⟨⟨d1, m⟩, h1, h2⟩ := Res.bind_eq_ok.1 h
  cases h2
  have := makeEnc_one ha cf _ _ _ _ .refl ⟨by simp, rfl, by simp⟩ h1
  refine ⟨m.seen.map (·.1), this.nodup, by simp [this.len], fun u hu => ?_⟩
  obtain ⟨p, hp, e⟩ := List.mem_map.1 hu
  subst e
  exact this.reach p hp

end Verif

import Verif.Spec.Compile
import Verif.Proofs.EncMono
import Verif.Proofs.Unmarshal
/-
Preparing types for encoding: when it ends.
-/
namespace Verif
open Spec

/-! ### Types already seen stay seen -/

theorem compileEFields_grows {W : World} {r : List Ty → Ty → Res (List Ty)} (hr : ∀ s t s', r s t = .ok s' → s ⊆ s') {fs : List Field} {s s' : List Ty}
    (h : compileEFields W r s fs = .ok s') : s ⊆ s' := by
  induction fs generalizing s with
  | nil => cases h; exact fun _ h => h
  | cons f fs ih =>
    unfold compileEFields at h
    simp only [] at h
    split at h
    · exact ih h
    · split at h
      · cases h
      · split at h
        · cases h
        · split at h
          · split at h
            · exact ih h
            · cases h
          · obtain ⟨s1, h1, h2⟩ := Res.bind_eq_ok.1 h
            exact fun x hx => ih h2 (hr _ _ _ h1 hx)

theorem compileEMap_grows {W : World} {r : List Ty → Ty → Res (List Ty)} (hr : ∀ s t s', r s t = .ok s' → s ⊆ s') {t k v : Ty} {s s' : List Ty}
    (h : compileEMap W r s t k v = .ok s') : s ⊆ s' := by
  unfold compileEMap at h
  split at h
  · cases h; exact fun _ h => h
  · split at h
    · cases h
    · exact fun x hx => hr _ _ _ h (List.mem_cons_of_mem _ hx)

theorem compileEStruct_grows {W : World} {r : List Ty → Ty → Res (List Ty)} (hr : ∀ s t s', r s t = .ok s' → s ⊆ s') {t : Ty} {fs : List Field} {s s' : List Ty}
    (h : compileEStruct W r s t fs = .ok s') : s ⊆ s' := by
  unfold compileEStruct at h
  split at h
  · cases h; exact fun _ h => h
  · exact fun x hx => compileEFields_grows hr h (List.mem_cons_of_mem _ hx)

theorem compileE_grows {W : World} {f : Nat} {s s' : List Ty} {t : Ty} (h : compileE W f s t = .ok s') : s ⊆ s' := by
  induction f generalizing s t s' with
  | zero => cases h
  | succ f ih =>
    have ih' := fun s t s' (h : compileE W f s t = .ok s') => ih h
    have same : ∀ {x y : List Ty}, Res.ok x = Res.ok y → x ⊆ y := fun h => by cases h; exact fun _ h => h
    unfold compileE at h
    split at h
    · exact same h
    · split at h
      · exact same h
      · split at h
        all_goals first | exact same h | skip
        · split at h
          · cases h
          · exact same h
        · exact compileEStruct_grows ih' h
        · obtain ⟨s1, -, h2⟩ := Res.bind_eq_ok.1 h
          exact same h2
        · unfold compileESlice at h
          split at h
          · exact same h
          · exact fun x hx => ih h (List.mem_cons_of_mem _ hx)
        · exact compileEMap_grows ih' h
        · unfold compileEPtr at h
          split at h
          all_goals first | exact same h | skip
          · cases h
          · split at h
            · exact ih h
            · exact same h
          · exact compileEMap_grows ih' h
          · exact compileEStruct_grows ih' h
          · exact ih h
        all_goals cases h

/-! ### Endings -/

/-- Preparing the type ends. -/
def EEnds (W : World) (seen : List Ty) (t : Ty) : Prop := ∃ f, compileE W f seen t ≠ .diverge

theorem left_le {S seen seen' : List Ty} (h : seen ⊆ seen') : left S seen' ≤ left S seen := by
  unfold left
  induction S with
  | nil => simp
  | cons s S ih =>
    simp only [List.filter_cons]
    by_cases h1 : s ∈ seen
    · have h2 := h h1
      simpa [h1, h2] using ih
    · simp only [List.contains_eq_mem, h1, decide_false, Bool.not_false, if_true, List.length_cons]
      split
      · simp at ih ⊢; exact ih
      · simp at ih ⊢; omega

theorem eends_fields {W : World} {s0 : List Ty} {fs : List Field} {s : List Ty}
    (ih : ∀ s, s0 ⊆ s → ∀ f ∈ fs, EEnds W s (fieldElem W f.ty)) (hs : s0 ⊆ s) : ∃ N, ∀ g, N ≤ g → compileEFields W (compileE W g) s fs ≠ .diverge := by
  induction fs generalizing s with
  | nil => exact ⟨0, fun g _ => by simp [compileEFields]⟩
  | cons f fs ihf =>
    have ihf := fun s hs => ihf (s := s) (fun s h f hf => ih s h f (List.mem_cons_of_mem _ hf)) hs
    obtain ⟨f1, h1⟩ := ih s hs f List.mem_cons_self
    -- what follows after the field
    obtain ⟨N2, hN2⟩ := ihf s hs
    have rest : ∃ N, ∀ g, N ≤ g → (compileE W g s (fieldElem W f.ty) >>= fun s => compileEFields W (compileE W g) s fs) ≠ .diverge := by
      cases hx : compileE W f1 s (fieldElem W f.ty) with
      | ok s1 =>
        obtain ⟨N, hN⟩ := ihf s1 (fun x hx' => compileE_grows hx (hs hx'))
        refine ⟨max f1 N, fun g hg => ?_⟩
        rw [compileE_mono h1 (show f1 ≤ g by omega), hx]
        exact hN g (by omega)
      | err e =>
        refine ⟨f1, fun g hg => ?_⟩
        rw [compileE_mono h1 hg, hx]
        simp [bind, Res.bind]
      | panic p =>
        refine ⟨f1, fun g hg => ?_⟩
        rw [compileE_mono h1 hg, hx]
        simp [bind, Res.bind]
      | diverge => exact absurd hx h1
    obtain ⟨N1, hN1⟩ := rest
    refine ⟨max N1 N2, fun g hg => ?_⟩
    unfold compileEFields
    simp only []
    split
    · exact hN2 g (by omega)
    · split
      · simp
      · split
        · simp
        · split
          · split
            · exact hN2 g (by omega)
            · simp
          · exact hN1 g (by omega)

theorem eends_struct {W : World} {s : List Ty} {t : Ty} {fs : List Field}
    (ih : t ∉ s → ∀ s', t :: s ⊆ s' → ∀ f ∈ fs, EEnds W s' (fieldElem W f.ty)) : ∃ f, compileEStruct W (compileE W f) s t fs ≠ .diverge := by
  unfold compileEStruct
  by_cases h : s.contains t = true
  · exact ⟨0, by simp only [h, if_true]; simp⟩
  · obtain ⟨N, hN⟩ := eends_fields (ih (by simpa using h)) (fun _ h => h)
    exact ⟨N, by simp only [h]; exact hN N (Nat.le_refl _)⟩

theorem eends_map {W : World} {s : List Ty} {t k v : Ty} (ih : t ∉ s → EEnds W (t :: s) v) : ∃ f, compileEMap W (compileE W f) s t k v ≠ .diverge := by
  unfold compileEMap
  by_cases h : s.contains t = true
  · exact ⟨0, by simp only [h, if_true]; simp⟩
  · obtain ⟨N, hN⟩ := ih (by simpa using h)
    refine ⟨N, ?_⟩
    simp only [h, Bool.false_eq_true, if_false]
    split
    · simp
    · exact hN

theorem fieldElem_reach {W : World} {t t' : Ty} {id : Nat} {f : Field} (h : EncReach W t t') (hr : W.resolve t' = .struct id) (hf : f ∈ W.fields id) :
    EncReach W t (fieldElem W f.ty) := by
  have h1 : EncReach W t f.ty := .step h (.field hr hf)
  unfold fieldElem
  split
  · exact .step h1 (.ptr (by assumption))
  · exact h1

/-- Preparing a type ends if no array contains itself. -/
theorem eends_of_guarded {W : World} {t0 : Ty} (h : ArrayGuarded W t0) : EEnds W [] t0 := by
  obtain ⟨S, rank, hS, hle, hlt⟩ := h
  have hrank : ∀ {t id f}, EncReach W t0 t → W.resolve t = .struct id → f ∈ W.fields id → rank (fieldElem W f.ty) ≤ rank t := by
    intro t id f hreach hr hf
    have h1 := hle _ _ hreach (.field hr hf)
    unfold fieldElem
    split
    · have h2 := hle _ _ (.step hreach (.field hr hf)) (.ptr (by assumption))
      omega
    · exact h1
  have key : ∀ r n s, left S s ≤ n → ∀ t, rank t ≤ r → EncReach W t0 t → EEnds W s t := by
    intro r
    induction r using Nat.strongRecOn with
    | ind r ihr =>
      intro n
      induction n using Nat.strongRecOn with
      | ind n ihn =>
        intro s hs
        have ih : ∀ {u}, EncReach W t0 u → Collected W u → u ∉ s → ∀ {s'}, u :: s ⊆ s' → ∀ {t}, rank t ≤ r → EncReach W t0 t → EEnds W s' t := by
          intro u hu hc hn s' hs' t ht hreach
          have h1 := left_cons (hS u hu hc) (by simpa using hn)
          have h2 := left_le (S := S) hs'
          exact ihn (left S s') (by omega) s' (Nat.le_refl _) t ht hreach
        have hstruct : ∀ {t id}, rank t ≤ r → EncReach W t0 t → W.resolve t = .struct id → ∃ f, compileEStruct W (compileE W f) s t (W.fields id) ≠ .diverge := by
          intro t id ht hreach hr
          refine eends_struct fun hn s' hs' f hf => ?_
          have := hrank hreach hr hf
          exact ih hreach (.inl ⟨_, hr⟩) hn hs' (by omega) (fieldElem_reach hreach hr hf)
        have hmap : ∀ {t k v}, rank t ≤ r → EncReach W t0 t → W.resolve t = .map k v → ∃ f, compileEMap W (compileE W f) s t k v ≠ .diverge := by
          intro t k v ht hreach hr
          refine eends_map fun hn => ?_
          have := hle _ _ hreach (.mapVal hr)
          exact ih hreach (.inr (.inr ⟨_, _, hr⟩)) hn (fun _ h => h) (by omega) (.step hreach (.mapVal hr))
        have nonptr : ∀ t, rank t ≤ r → EncReach W t0 t → (∀ e, W.resolve t ≠ .ptr e) → EEnds W s t := by
          intro t ht hreach hnp
          suffices h : ∃ f, compileE W (f + 1) s t ≠ .diverge by obtain ⟨f, hf⟩ := h; exact ⟨_, hf⟩
          unfold compileE
          split
          · exact ⟨0, by simp⟩
          · split
            · exact ⟨0, by simp⟩
            · cases hr : W.resolve t with
              | uint k =>
                refine ⟨0, ?_⟩
                simp only []
                split <;> simp
              | struct id => exact hstruct ht hreach hr
              | array m e =>
                have := hlt _ _ _ hreach hr
                obtain ⟨f, hf⟩ := ihr (rank e) (by omega) _ [] (Nat.le_refl _) e (Nat.le_refl _) (.step hreach (.array hr))
                refine ⟨f, ?_⟩
                simp only []
                cases hx : compileE W f [] e with
                | diverge => exact absurd hx hf
                | _ => simp [bind, Res.bind]
              | slice e =>
                simp only [compileESlice]
                by_cases h : s.contains t = true
                · exact ⟨0, by simp only [h, if_true]; simp⟩
                · have := hle _ _ hreach (.slice hr)
                  obtain ⟨f, hf⟩ := ih hreach (.inr (.inl ⟨_, hr⟩)) (by simpa using h) (fun _ h => h) (t := e) (by omega) (.step hreach (.slice hr))
                  refine ⟨f, ?_⟩
                  simp only [h]
                  simpa using hf
              | map k v => exact hmap ht hreach hr
              | ptr e => exact absurd hr (hnp e)
              | _ => exact ⟨0, by simp⟩
        intro t ht hreach
        by_cases hp : ∃ e, W.resolve t = .ptr e
        · obtain ⟨e, hr⟩ := hp
          have hre := EncReach.step hreach (.ptr hr)
          have hrk := hle _ _ hreach (.ptr hr)
          suffices h : ∃ f, compileE W (f + 1) s t ≠ .diverge by obtain ⟨f, hf⟩ := h; exact ⟨_, hf⟩
          unfold compileE
          split
          · exact ⟨0, by simp⟩
          · split
            · exact ⟨0, by simp⟩
            · rw [hr]
              simp only [compileEPtr]
              have np : (∀ x, W.resolve e ≠ .ptr x) → EEnds W s e := nonptr e (by omega) hre
              cases hre' : W.resolve e with
              | uint k =>
                obtain ⟨f, hf⟩ := np (by simp [hre'])
                refine ⟨f, ?_⟩
                simp only []
                split
                · exact hf
                · simp
              | struct id => exact hstruct (by omega) hre hre'
              | map k v => exact hmap (by omega) hre hre'
              | ptr x => exact ⟨0, by simp⟩
              | slice x => exact np (by simp [hre'])
              | array m x => exact np (by simp [hre'])
              | other => exact np (by simp [hre'])
              | named x => exact np (by simp [hre'])
              | _ => exact ⟨0, by simp⟩
        · exact nonptr t ht hreach fun e he => hp ⟨e, he⟩
  exact key _ _ [] (Nat.le_refl _) t0 (Nat.le_refl _) .refl

/-- Preparing a type never panics. -/
theorem compileE_noPanic {W : World} {f : Nat} {s : List Ty} {t : Ty} (p : Panic) : compileE W f s t ≠ .panic p := by
  induction f generalizing s t p with
  | zero => intro h; cases h
  | succ f ih =>
    have fields : ∀ fs s, compileEFields W (compileE W f) s fs ≠ .panic p := by
      intro fs
      induction fs with
      | nil => intro s h; cases h
      | cons g fs ihf =>
        intro s
        unfold compileEFields
        dsimp only
        repeat' split
        · exact ihf s
        · intro h; cases h
        · intro h; cases h
        · exact ihf s
        · intro h; cases h
        · cases hr : compileE W f s (fieldElem W g.ty) with
          | ok s' => exact ihf s'
          | panic q => exact absurd hr (ih q)
          | err e => intro h; cases h
          | diverge => intro h; cases h
    have struct : ∀ s t fs, compileEStruct W (compileE W f) s t fs ≠ .panic p := by
      intro s t fs
      unfold compileEStruct
      split
      · intro h; cases h
      · exact fields fs _
    have map : ∀ s t k v, compileEMap W (compileE W f) s t k v ≠ .panic p := by
      intro s t k v
      unfold compileEMap
      repeat' split
      · intro h; cases h
      · intro h; cases h
      · exact ih p
    unfold compileE
    repeat' split
    all_goals first
      | exact ih p
      | exact struct _ _ _
      | exact map _ _ _ _
      | (intro h; cases h; done)
      | skip
    · rename_i n e hr
      cases hr : compileE W f [] e with
      | ok s' => intro h; cases h
      | panic q => exact absurd hr (ih q)
      | err e => intro h; cases h
      | diverge => intro h; cases h
    · unfold compileESlice
      split
      · intro h; cases h
      · exact ih p
    · unfold compileEPtr
      split
      all_goals first
        | exact ih p
        | exact struct _ _ _
        | exact map _ _ _ _
        | (intro h; cases h; done)
        | (split; exact ih p; intro h; cases h)

end Verif

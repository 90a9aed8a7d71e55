import Verif.Proofs.EncCompile
import Verif.Proofs.CompileFacts
/-
What a successful preparation of a type for encoding says about the type, and that decoding can then be prepared as well.
-/
namespace Verif
open Spec

/-- The components that are prepared. -/
inductive EStep (W : World) : Ty → Ty → Prop
  | ptr {t e} : W.marOf t = false → W.resolve t = .ptr e → EStep W t e
  | slice {t e} : W.marOf t = false → W.resolve t = .slice e → t ≠ .slice (.uint .u8) → EStep W t e
  | array {t n e} : W.marOf t = false → W.resolve t = .array n e → EStep W t e
  | mapVal {t k v} : W.marOf t = false → W.resolve t = .map k v → EStep W t v
  | field {t id f} : W.marOf t = false → W.resolve t = .struct id → f ∈ W.fields id → f.exported = true → (structTag W f).key ≠ [45] → (structTag W f).isString = false →
      EStep W t (fieldElem W f.ty)

theorem EStep.mar {W : World} {t t' : Ty} (h : EStep W t t') : W.marOf t = false := by cases h <;> assumption

/-- What is checked of a type without MarshalPHP. -/
structure EChecked (W : World) (t : Ty) : Prop where
  ptr : W.marOf t = false → ∀ e, W.resolve t = .ptr e → W.isPtr e = false
  map : W.marOf t = false → ∀ k v, W.resolve t = .map k v → W.mapKeyOk k = true
  field : W.marOf t = false → ∀ id, W.resolve t = .struct id → ∀ f ∈ W.fields id, f.exported = true → (structTag W f).key ≠ [45] →
    (W.isPtr f.ty && W.isPtr (fieldElem W f.ty)) = false ∧ (f.anon && W.isStruct f.ty) = false ∧
    ((structTag W f).isString = true → asStringOk W (fieldElem W f.ty) = true)

/-- A chain of prepared components that avoids the types in `B`. -/
inductive ViaE (W : World) (B : List Ty) : Ty → Ty → Prop
  | refl {t} : t ∉ B → ViaE W B t t
  | step {t t' t''} : t ∉ B → EStep W t t' → ViaE W B t' t'' → ViaE W B t t''

theorem ViaE.start {W : World} {B : List Ty} {u t : Ty} (h : ViaE W B u t) : u ∉ B := by cases h <;> assumption

theorem ViaE.weaken {W : World} {B B' : List Ty} {u t : Ty} (hB : B' ⊆ B) (h : ViaE W B u t) : ViaE W B' u t := by
  induction h with
  | refl h => exact .refl fun hh => h (hB hh)
  | step h h1 _ ih => exact .step (fun hh => h (hB hh)) h1 ih

theorem viaE_cut {W : World} {B : List Ty} (t : Ty) {u t' : Ty} (hv : ViaE W B u t') :
    ViaE W (t :: B) u t' ∨ t' = t ∨ ∃ t1, EStep W t t1 ∧ ViaE W (t :: B) t1 t' := by
  induction hv with
  | @refl u hu =>
    by_cases h : u = t
    · exact .inr (.inl h)
    · exact .inl (.refl (by simp [h, hu]))
  | @step u u' t' hu hn _ ih =>
    rcases ih with ih | ih
    · by_cases h : u = t
      · subst h; exact .inr (.inr ⟨_, hn, ih⟩)
      · exact .inl (.step (by simp [h, hu]) hn ih)
    · exact .inr ih

theorem viaE_split {W : World} {B B1 : List Ty} {u t' : Ty} (hv : ViaE W B u t') : ViaE W B1 u t' ∨ ∃ w ∈ B1, ViaE W B w t' := by
  induction hv with
  | @refl u hu =>
    by_cases h : u ∈ B1
    · exact .inr ⟨u, h, .refl hu⟩
    · exact .inl (.refl h)
  | @step u u' t' hu hn hv ih =>
    by_cases h : u ∈ B1
    · exact .inr ⟨u, h, .step hu hn hv⟩
    · rcases ih with ih | ih
      · exact .inl (.step h hn ih)
      · exact .inr ih

/-- Everything prepared by a call has been checked. -/
def CheckedFrom (W : World) (B B' : List Ty) (t : Ty) : Prop := ∀ u, u = t ∨ u ∈ B' → ∀ t', ViaE W B u t' → EChecked W t'

theorem checkedFrom_leaf {W : World} {B : List Ty} {t : Ty} (hn : ∀ t1, ¬ EStep W t t1) (hc : EChecked W t) : CheckedFrom W B B t := by
  rintro u (rfl | hu) t' hv
  · cases hv with
    | refl => exact hc
    | step _ h _ => exact absurd h (hn _)
  · exact absurd hu hv.start

theorem checkedFrom_seen {W : World} {B : List Ty} {t : Ty} (h : t ∈ B) : CheckedFrom W B B t := by
  rintro u (rfl | hu) t' hv
  · exact absurd h hv.start
  · exact absurd hu hv.start

/-- A type whose components have been dealt with while it counted as seen. -/
theorem checkedFrom_enter {W : World} {B B' : List Ty} {t : Ty} (hc : EChecked W t)
    (h : ∀ u, u ∈ B' ∨ EStep W t u → ∀ t', ViaE W (t :: B) u t' → EChecked W t') : CheckedFrom W B B' t := by
  intro u hu t' hv
  rcases viaE_cut t hv with h1 | rfl | ⟨t1, h1, h2⟩
  · rcases hu with rfl | hu
    · exact absurd List.mem_cons_self h1.start
    · exact h u (.inl hu) t' h1
  · exact hc
  · exact h t1 (.inr h1) t' h2

/-- A pointer or array whose component has been dealt with. -/
theorem checkedFrom_through {W : World} {B B' : List Ty} {t e : Ty} (hc : EChecked W t) (hs : ∀ u, EStep W t u → u = e) (h : CheckedFrom W B B' e) :
    CheckedFrom W B B' t := by
  rintro u (rfl | hu) t' hv
  · cases hv with
    | refl => exact hc
    | step _ h1 h2 => cases hs _ h1; exact h _ (.inl rfl) _ h2
  · exact h u (.inr hu) t' hv

theorem echecked_leaf {W : World} {t : Ty} (h1 : ∀ e, W.resolve t ≠ .ptr e) (h2 : ∀ k v, W.resolve t ≠ .map k v) (h3 : ∀ id, W.resolve t ≠ .struct id) :
    EChecked W t := ⟨fun _ e h => absurd h (h1 e), fun _ k v h => absurd h (h2 k v), fun _ id h => absurd h (h3 id)⟩

theorem fields_checked {W : World} {r : List Ty → Ty → Res (List Ty)}
    (ih : ∀ {s s' t}, r s t = .ok s' → CheckedFrom W s s' t) (hg : ∀ {s t s'}, r s t = .ok s' → s ⊆ s')
    {fs : List Field} {s s' : List Ty} (h : compileEFields W r s fs = .ok s') :
    (∀ f ∈ fs, f.exported = true → (structTag W f).key ≠ [45] →
      (W.isPtr f.ty && W.isPtr (fieldElem W f.ty)) = false ∧ (f.anon && W.isStruct f.ty) = false ∧
      ((structTag W f).isString = true → asStringOk W (fieldElem W f.ty) = true)) ∧
    ∀ u, (u ∈ s' ∨ ∃ f ∈ fs, f.exported = true ∧ (structTag W f).key ≠ [45] ∧ (structTag W f).isString = false ∧ u = fieldElem W f.ty) →
      ∀ t', ViaE W s u t' → EChecked W t' := by
  induction fs generalizing s with
  | nil =>
    cases h
    exact ⟨by simp, fun u hu t' hv => absurd (by simpa using hu) hv.start⟩
  | cons f fs ihf =>
    unfold compileEFields at h
    simp only [] at h
    split at h
    · rename_i hh
      obtain ⟨h1, h2⟩ := ihf h
      have hh : ¬ (f.exported = true ∧ (structTag W f).key ≠ [45]) := by
        rintro ⟨a, b⟩; simp [a, b] at hh
      refine ⟨fun g hg he hk => ?_, fun u hu t' hv => ?_⟩
      · rcases List.mem_cons.1 hg with rfl | hg
        · exact absurd ⟨he, hk⟩ hh
        · exact h1 g hg he hk
      · refine h2 u (hu.imp id ?_) t' hv
        rintro ⟨g, hg, he, hk, hx⟩
        rcases List.mem_cons.1 hg with rfl | hg
        · exact absurd ⟨he, hk⟩ hh
        · exact ⟨g, hg, he, hk, hx⟩
    · split at h
      · cases h
      · rename_i hp
        split at h
        · cases h
        · rename_i ha
          split at h
          · rename_i hs
            split at h
            · rename_i hok
              obtain ⟨h1, h2⟩ := ihf h
              refine ⟨fun g hg he hk => ?_, fun u hu t' hv => ?_⟩
              · rcases List.mem_cons.1 hg with rfl | hg
                · exact ⟨by simpa using hp, by simpa using ha, fun _ => hok⟩
                · exact h1 g hg he hk
              · refine h2 u (hu.imp id ?_) t' hv
                rintro ⟨g, hg, he, hk, hx, hy⟩
                rcases List.mem_cons.1 hg with rfl | hg
                · rw [hs] at hx; cases hx
                · exact ⟨g, hg, he, hk, hx, hy⟩
            · cases h
          · rename_i hs
            obtain ⟨s1, hr, h⟩ := Res.bind_eq_ok.1 h
            have c1 := ih hr
            obtain ⟨h1, h2⟩ := ihf h
            refine ⟨fun g hg he hk => ?_, fun u hu t' hv => ?_⟩
            · rcases List.mem_cons.1 hg with rfl | hg
              · exact ⟨by simpa using hp, by simpa using ha, fun h => absurd h hs⟩
              · exact h1 g hg he hk
            · rcases viaE_split (B1 := s1) hv with hv1 | ⟨w, hw, hv1⟩
              · rcases hu with hu | ⟨g, hg, he, hk, hx, hy⟩
                · exact h2 u (.inl hu) t' hv1
                · rcases List.mem_cons.1 hg with rfl | hg
                  · exact c1 u (.inl hy) t' hv
                  · exact h2 u (.inr ⟨g, hg, he, hk, hx, hy⟩) t' hv1
              · exact c1 w (.inr hw) t' hv1

theorem struct_checked {W : World} {r : List Ty → Ty → Res (List Ty)}
    (ih : ∀ {s s' t}, r s t = .ok s' → CheckedFrom W s s' t) (hg : ∀ {s t s'}, r s t = .ok s' → s ⊆ s')
    {t : Ty} {id : Nat} (hr : W.resolve t = .struct id) {s s' : List Ty} (h : compileEStruct W r s t (W.fields id) = .ok s') : CheckedFrom W s s' t := by
  unfold compileEStruct at h
  split at h
  · rename_i hc; cases h; exact checkedFrom_seen (by simpa using hc)
  · obtain ⟨h1, h2⟩ := fields_checked ih hg h
    refine checkedFrom_enter ⟨fun _ e he => (by rw [hr] at he; cases he), fun _ k v he => (by rw [hr] at he; cases he), fun _ id' he => ?_⟩ fun u hu t' hv => ?_
    · rw [hr] at he; cases he; exact h1
    · rcases hu with hu | hu
      · exact h2 u (.inl hu) t' hv
      · cases hu with
        | field _ he hf a b c => rw [hr] at he; cases he; exact h2 _ (.inr ⟨_, hf, a, b, c, rfl⟩) t' hv
        | ptr _ he => rw [hr] at he; cases he
        | slice _ he => rw [hr] at he; cases he
        | array _ he => rw [hr] at he; cases he
        | mapVal _ he => rw [hr] at he; cases he

theorem map_checked {W : World} {r : List Ty → Ty → Res (List Ty)}
    (ih : ∀ {s s' t}, r s t = .ok s' → CheckedFrom W s s' t)
    {t k v : Ty} (hr : W.resolve t = .map k v) {s s' : List Ty} (h : compileEMap W r s t k v = .ok s') : CheckedFrom W s s' t := by
  unfold compileEMap at h
  split at h
  · rename_i hc; cases h; exact checkedFrom_seen (by simpa using hc)
  · split at h
    · cases h
    · rename_i hk
      have c1 := ih h
      refine checkedFrom_enter ⟨fun _ e he => (by rw [hr] at he; cases he), fun _ k' v' he => ?_, fun _ id' he => (by rw [hr] at he; cases he)⟩ fun u hu t' hv => ?_
      · rw [hr] at he; cases he; simpa using hk
      · rcases hu with hu | hu
        · exact c1 u (.inr hu) t' hv
        · cases hu with
          | mapVal _ he => rw [hr] at he; cases he; exact c1 _ (.inl rfl) t' hv
          | ptr _ he => rw [hr] at he; cases he
          | slice _ he => rw [hr] at he; cases he
          | array _ he => rw [hr] at he; cases he
          | field _ he => rw [hr] at he; cases he

theorem compileE_checked {W : World} {f : Nat} {s s' : List Ty} {t : Ty} (h : compileE W f s t = .ok s') :
    CheckedFrom W s s' t := by
  induction f generalizing s s' t with
  | zero => cases h
  | succ f ih =>
    have leaf : (∀ t1, ¬ EStep W t t1) → (∀ e, W.resolve t ≠ .ptr e) → (∀ k v, W.resolve t ≠ .map k v) → (∀ id, W.resolve t ≠ .struct id) →
        Res.ok s = Res.ok s' → CheckedFrom W s s' t := fun h1 h2 h3 h4 h => by
      cases h; exact checkedFrom_leaf h1 (echecked_leaf h2 h3 h4)
    unfold compileE at h
    cases hmar : W.marOf t with
    | true =>
      rw [hmar, if_pos rfl] at h
      cases h
      exact checkedFrom_leaf (fun t1 hs => by rw [hs.mar] at hmar; cases hmar) ⟨fun h => by simp [h] at hmar, fun h => by simp [h] at hmar, fun h => by simp [h] at hmar⟩
    | false =>
    simp only [hmar, Bool.false_eq_true, if_false] at h
    split at h
    · rename_i hb
      subst hb
      exact leaf (fun t1 hs => by cases hs <;> simp_all [World.resolve]) (by simp [World.resolve]) (by simp [World.resolve]) (by simp [World.resolve]) h
    · rename_i hb
      cases hr : W.resolve t with
      | uint k =>
        rw [hr] at h
        simp only [] at h
        split at h
        · cases h
        · exact leaf (fun t1 hs => by cases hs <;> simp_all) (by simp [hr]) (by simp [hr]) (by simp [hr]) h
      | struct id => rw [hr] at h; exact struct_checked ih compileE_grows hr h
      | map k v => rw [hr] at h; exact map_checked ih hr h
      | array n e =>
        rw [hr] at h
        obtain ⟨s1, h1, h2⟩ := Res.bind_eq_ok.1 h
        cases h2
        have c1 := ih h1
        refine checkedFrom_through (e := e) (echecked_leaf (by simp [hr]) (by simp [hr]) (by simp [hr])) (fun u hu => by cases hu <;> simp_all) ?_
        rintro u (rfl | hu) t' hv
        · exact c1 u (.inl rfl) t' (hv.weaken (by simp))
        · exact absurd hu hv.start
      | slice e =>
        rw [hr] at h
        simp only [compileESlice] at h
        split at h
        · rename_i hc; cases h; exact checkedFrom_seen (by simpa using hc)
        · have c1 := ih h
          refine checkedFrom_enter (echecked_leaf (by simp [hr]) (by simp [hr]) (by simp [hr])) fun u hu t' hv => ?_
          rcases hu with hu | hu
          · exact c1 u (.inr hu) t' hv
          · have : u = e := by cases hu <;> simp_all
            exact c1 u (.inl this) t' hv
      | ptr e =>
        rw [hr] at h
        simp only [compileEPtr] at h
        have hs : ∀ u, EStep W t u → u = e := fun u hu => by cases hu <;> simp_all
        have self : W.isPtr e = false → EChecked W t := fun hp =>
          ⟨fun _ e' he' => (by rw [hr] at he'; cases he'; exact hp), fun _ k v he => (by rw [hr] at he; cases he), fun _ id he => (by rw [hr] at he; cases he)⟩
        cases hre : W.resolve e with
        | ptr x => rw [hre] at h; cases h
        | uint k =>
          rw [hre] at h
          simp only [] at h
          refine checkedFrom_through (self (by simp [World.isPtr, hre])) hs ?_
          split at h
          · exact ih h
          · cases h
            exact checkedFrom_leaf (fun t1 hs => by cases hs <;> simp_all) (echecked_leaf (by simp [hre]) (by simp [hre]) (by simp [hre]))
        | struct id => rw [hre] at h; exact checkedFrom_through (self (by simp [World.isPtr, hre])) hs (struct_checked ih compileE_grows hre h)
        | map k v => rw [hre] at h; exact checkedFrom_through (self (by simp [World.isPtr, hre])) hs (map_checked ih hre h)
        | slice x => rw [hre] at h; exact checkedFrom_through (self (by simp [World.isPtr, hre])) hs (ih h)
        | array m x => rw [hre] at h; exact checkedFrom_through (self (by simp [World.isPtr, hre])) hs (ih h)
        | other => rw [hre] at h; exact checkedFrom_through (self (by simp [World.isPtr, hre])) hs (ih h)
        | named x => rw [hre] at h; exact checkedFrom_through (self (by simp [World.isPtr, hre])) hs (ih h)
        | _ =>
          rw [hre] at h
          cases h
          exact checkedFrom_through (self (by simp [World.isPtr, hre])) hs
            (checkedFrom_leaf (fun t1 hs => by cases hs <;> simp_all) (echecked_leaf (by simp [hre]) (by simp [hre]) (by simp [hre])))
      | other => rw [hr] at h; cases h
      | named x => rw [hr] at h; cases h
      | _ =>
        rw [hr] at h
        exact leaf (fun t1 hs => by cases hs <;> simp_all) (by simp [hr]) (by simp [hr]) (by simp [hr]) h

/-! ### Decoding -/

/-- Kinds without components. -/
def LeafKind (W : World) (t : Ty) : Prop :=
  (∀ e, W.resolve t ≠ .ptr e) ∧ (∀ e, W.resolve t ≠ .slice e) ∧ (∀ n e, W.resolve t ≠ .array n e) ∧ (∀ k v, W.resolve t ≠ .map k v) ∧
  ∀ id, W.resolve t ≠ .struct id

/-- Types that were prepared for encoding, pointers to such, and kinds without components. -/
def Ready (W : World) (V : Ty → Prop) (t : Ty) : Prop :=
  V t ∨ (∃ e, W.resolve t = .ptr e ∧ W.isPtr e = false ∧ (V e ∨ LeafKind W e)) ∨ LeafKind W t

theorem leafKind_asString {W : World} {t : Ty} (h : asStringOk W t = true) : LeafKind W t := by
  unfold asStringOk at h
  unfold LeafKind
  split at h <;> simp_all

theorem leafKind_mapKey {W : World} {t : Ty} (h : W.mapKeyOk t = true) : LeafKind W t := by
  unfold World.mapKeyOk at h
  unfold LeafKind
  split at h <;> simp_all

theorem compileD_leaf {W : World} {f : Nat} {B : List Ty} {t : Ty} (h : LeafKind W t) : compileD W (f + 1) B t = .ok () := by
  obtain ⟨h1, h2, h3, h4, h5⟩ := h
  unfold compileD
  split <;> simp_all

theorem fieldSets_keys {W : World} {fs : List Field} {n : Nat}
    (h : ∀ (i j : Nat) (f g : Field) (k : Bytes), fs[i]? = some f → fs[j]? = some g → Visible f → Visible g → HasKey W f k → HasKey W g k → i = j) :
    ((fieldSets W n fs).map (·.key)).Nodup := by
  induction fs generalizing n with
  | nil => exact List.nodup_nil
  | cons f fs ih =>
    replace ih := ih (n := n + 1) fun i j f g k h1 h2 h3 h4 h5 h6 => by
      have := h (i + 1) (j + 1) f g k (by simpa using h1) (by simpa using h2) h3 h4 h5 h6
      omega
    unfold fieldSets
    split
    · exact ih
    · rename_i hi
      have hv : Visible f := visible_iff.2 (by simpa using hi)
      simp only [List.map_cons, List.nodup_cons]
      refine ⟨fun hm => ?_, ih⟩
      obtain ⟨x, hx, hxk⟩ := List.mem_map.1 hm
      obtain ⟨j, g, hg, hgv, hgk⟩ : ∃ (j : Nat) (g : Field), fs[j]? = some g ∧ Visible g ∧ HasKey W g x.key := by
        clear ih h hm hxk
        revert hx
        generalize n + 1 = m
        intro hx
        induction fs generalizing m with
        | nil => cases hx
        | cons g fs ih2 =>
          unfold fieldSets at hx
          split at hx
          · obtain ⟨j, g', h1, h2, h3⟩ := ih2 _ hx
            exact ⟨j + 1, g', by simpa using h1, h2, h3⟩
          · rename_i hi
            rcases List.mem_cons.1 hx with rfl | hx
            · exact ⟨0, g, rfl, visible_iff.2 (by simpa using hi), hasKey_iff.2 rfl⟩
            · obtain ⟨j, g', h1, h2, h3⟩ := ih2 _ hx
              exact ⟨j + 1, g', by simpa using h1, h2, h3⟩
      have := h 0 (j + 1) f g x.key rfl (by simpa using hg) hv hgv (hasKey_iff.2 hxk.symm) hgk
      omega

theorem canWrap_of_scalar {W : World} {t : Ty} (h : IsScalar W t ∨ ∃ e, Plain W t (.ptr e) ∧ IsScalar W e) : canWrap W t = true := by
  rcases h with h | ⟨e, ⟨h1, h2⟩, h3⟩
  · unfold canWrap
    split
    · rename_i e h1 h2
      unfold IsScalar Plain at h
      rw [h2] at h
      simp at h
    · exact wrappable_iff.2 h
  · simp only [canWrap, h1, h2]; exact wrappable_iff.2 h3

/-- The types prepared for encoding, as far as preparing them for decoding needs to know. -/
structure Visited (W : World) (V : Ty → Prop) : Prop where
  checked : ∀ t, V t → EChecked W t
  step : ∀ t t', V t → W.unmOf t = none → EStep W t t' → V t'
  rules : ∀ t id, V t → W.marOf t = false → Plain W t (.struct id) → DecoderRules W id
  asIs : ∀ t, V t → W.marOf t = true → ReadAsIs W t

theorem compileDFields_noErr {W : World} {r : Ty → Res Unit} {fs : List Field} (h : ∀ f ∈ fs, Visible f →
    embedded W f = false ∧ (∀ e, r f.ty ≠ .err e) ∧ ((structTag W f).isString && stringTagOk W f.ty && !canWrap W f.ty) = false) (e : Err) :
    compileDFields W r fs ≠ .err e := by
  induction fs with
  | nil => simp [compileDFields]
  | cons f fs ih =>
    have ih := ih fun g hg => h g (List.mem_cons_of_mem _ hg)
    unfold compileDFields
    split
    · exact ih
    · rename_i hi
      obtain ⟨h1, h2, h3⟩ := h f List.mem_cons_self (visible_iff.2 (by simpa using hi))
      rw [if_neg (by simp [h1])]
      cases hr : r f.ty with
      | ok u => simp only [Res.bind_ok]; rw [if_neg (by simp [h3])]; exact ih
      | err e => exact absurd hr (h2 e)
      | panic p => intro hh; cases hh
      | diverge => intro hh; cases hh

theorem compileD_noErr {W : World} {V : Ty → Prop} (hV : Visited W V) {f : Nat} {B : List Ty} {t : Ty} (ht : Ready W V t) (er : Err) : compileD W f B t ≠ .err er := by
  induction f generalizing B t er with
  | zero => intro h; cases h
  | succ f ih =>
    have bind : ∀ (x : Res Unit) (g : Unit → Res Unit), (∀ e, x ≠ .err e) → (∀ e, g () ≠ .err e) → (x >>= g) ≠ .err er := by
      intro x g h1 h2
      cases x with
      | ok u => exact h2 er
      | err e => exact absurd rfl (h1 e)
      | panic p => intro h; cases h
      | diverge => intro h; cases h
    by_cases hl : LeafKind W t
    · rw [compileD_leaf hl]; intro h; cases h
    · cases hu : W.unmOf t with
      | some id => unfold compileD; rw [hu]; intro h; cases h
      | none =>
        rcases ht with ht | ⟨e, hr, hp, he⟩ | ht
        · cases hmar : W.marOf t with
          | true =>
            rcases hV.asIs t ht hmar with h | ⟨e, hr, hp, he⟩ | h | ⟨k, h⟩
            · exact absurd hu h
            · have hok : ∀ er, compileD W f B e ≠ .err er := by
                intro er
                cases f with
                | zero => intro h; cases h
                | succ f =>
                  unfold compileD
                  cases hue : W.unmOf e with
                  | none => exact absurd hue he
                  | some id => intro h; cases h
              have hpe : W.isPtr e = false := by
                unfold World.isPtr
                split
                · exact absurd (by assumption) (hp _)
                · rfl
              unfold compileD
              rw [hu, hr]
              refine bind _ _ hok ?_
              simp [hpe]
            · exact absurd ⟨by simp [h], by simp [h], by simp [h], by simp [h], by simp [h]⟩ hl
            · exact absurd ⟨by simp [h], by simp [h], by simp [h], by simp [h], by simp [h]⟩ hl
          | false =>
          have hc := hV.checked t ht
          unfold compileD
          rw [hu]
          cases hr : W.resolve t with
          | ptr e =>
            refine bind _ _ (fun er => ih (.inl (hV.step _ _ ht hu (.ptr hmar hr))) er) ?_
            simp [hc.ptr hmar e hr]
          | slice e =>
            show (if W.isByte e then (.ok () : Res Unit) else compileD W f B e) ≠ .err er
            split
            · intro h; cases h
            · rename_i hb
              refine ih (.inl (hV.step _ _ ht hu (.slice hmar hr ?_))) er
              rintro rfl
              simp only [World.resolve] at hr
              cases hr
              exact hb rfl
          | array n e => exact ih (.inl (hV.step _ _ ht hu (.array hmar hr))) er
          | map k v =>
            refine bind _ _ ?_ fun er => ih (.inl (hV.step _ _ ht hu (.mapVal hmar hr))) er
            have hk := leafKind_mapKey (hc.map hmar k v hr)
            split
            · intro e h; cases h
            · intro e h; cases h
            · exact fun er => ih (.inr (.inr hk)) er
          | struct id =>
            show (if B.contains t then (.ok () : Res Unit) else _) ≠ .err er
            have hrul := hV.rules t id ht hmar ⟨hu, hr⟩
            split
            · intro h; cases h
            · refine bind _ _ (compileDFields_noErr fun g hg hgv => ?_) ?_
              · have hk : (structTag W g).key ≠ [45] := fun h => hrul.dash g hg hgv (hasKey_iff.2 h)
                obtain ⟨h1, h2, h3⟩ := hc.field hmar id hr g hg hgv.1 hk
                refine ⟨?_, fun er => ih ?_ er, ?_⟩
                · unfold embedded
                  cases ha : g.anon with
                  | false => rfl
                  | true =>
                    rw [ha, Bool.true_and] at h2
                    rw [Bool.true_and]
                    cases hr2 : W.resolve g.ty with
                    | struct id => simp [World.isStruct, hr2] at h2
                    | ptr e =>
                      have := hrul.embedded g hg hgv ha e hr2
                      show (match W.resolve e with | .struct _ => true | _ => false) = false
                      split
                      · exact absurd (by assumption) (this _)
                      · rfl
                    | _ => rfl
                · by_cases hs : (structTag W g).isString = true
                  · have hl := leafKind_asString (h3 hs)
                    unfold fieldElem at hl h1
                    split at hl
                    · rename_i e hr2
                      rw [hr2] at h1
                      exact .inr (.inl ⟨e, hr2, by simpa [World.isPtr, hr2] using h1, .inr hl⟩)
                    · exact .inr (.inr hl)
                  · have hv := hV.step _ _ ht hu (.field hmar hr hg hgv.1 hk (by simpa using hs))
                    unfold fieldElem at hv h1
                    split at hv
                    · rename_i e hr2
                      rw [hr2] at h1
                      exact .inr (.inl ⟨e, hr2, by simpa [World.isPtr, hr2] using h1, .inl hv⟩)
                    · exact .inl hv
                · by_cases hs : (structTag W g).isString = true
                  · rcases hrul.str g hg hgv (hasString_iff.2 hs) with h | h
                    · simp [stringTagOk_iff.2 h]
                    · simp [canWrap_of_scalar h]
                  · simp [hs]
              · intro e h
                rw [if_pos (noDupKeys_iff.2 (fieldSets_keys hrul.keys))] at h
                cases h
          | _ => intro h; cases h
        · unfold compileD
          rw [hu, hr]
          refine bind _ _ (fun er => ih (he.imp id .inr) er) ?_
          simp [hp]
        · exact absurd ht hl

theorem bothLook_of {W : World} {t t' : Ty} (h : EStep W t t') : BothLook W t t' := by
  cases h with
  | ptr _ hr => exact .ptr hr
  | slice _ hr => exact .slice hr
  | array _ hr => exact .array hr
  | mapVal _ hr => exact .mapVal hr
  | @field _ f _ hr hf he hk _ =>
    have hv : Visible f := ⟨he, fun hd => hk (by rw [structTag, hd]; rfl)⟩
    unfold fieldElem
    split
    · exact .fieldPtr hr hf hv (by assumption)
    · exact .field hr hf hv (by assumption)

theorem compileE_visited {W : World} {f : Nat} {t0 : Ty} {s : List Ty} (h : compileE W f [] t0 = .ok s)
    (hm : ∀ t, InView W t0 t → W.marOf t = true → ReadAsIs W t)
    (hr : ∀ t id, InView W t0 t → W.marOf t = false → Plain W t (.struct id) → DecoderRules W id) : Visited W (fun t => ViaE W [] t0 t ∧ InView W t0 t) := by
  have hc := compileE_checked h
  have snoc : ∀ {a b c}, ViaE W [] a b → EStep W b c → ViaE W [] a c := by
    intro a b c h1 h2
    induction h1 with
    | refl h => exact .step h h2 (.refl (by simp))
    | step h h1 _ ih => exact .step h h1 (ih h2)
  exact ⟨fun t ht => hc t0 (.inl rfl) t ht.1, fun t t' h1 hu h2 => ⟨snoc h1.1 h2, .step h1.2 h2.mar hu (bothLook_of h2)⟩,
    fun t id h1 h2 h3 => hr t id h1.2 h2 h3, fun t h1 h2 => hm t h1.2 h2⟩

end Verif

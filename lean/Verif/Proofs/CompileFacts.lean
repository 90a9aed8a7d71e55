import Verif.Proofs.Tags
import Verif.Proofs.Unmarshal
import Verif.Spec.Back
/-
What a successful preparation of a type for decoding says about the type.
-/
namespace Verif
open Spec

/-- A chain of components that avoids the types in `B`. -/
inductive Via (W : World) (B : List Ty) : Ty → Ty → Prop
  | refl {t} : t ∉ B → Via W B t t
  | step {t t' t''} : t ∉ B → Needs W t t' → Via W B t' t'' → Via W B t t''

theorem via_cut {W : World} {B : List Ty} (t : Ty) {u t' : Ty} (hv : Via W B u t') :
    Via W (t :: B) u t' ∨ t' = t ∨ ∃ t1, Needs W t t1 ∧ Via W (t :: B) t1 t' := by
  induction hv with
  | @refl u hu =>
    by_cases h : u = t
    · exact .inr (.inl h)
    · exact .inl (.refl (by simp [h, hu]))
  | @step u u' t' hu hn _ ih =>
    rcases ih with ih | ih
    · by_cases h : u = t
      · subst h; exact .inr (.inr ⟨_, hn, ih⟩)
      · exact .inl (.step (by simp [h, hu]) hn ih)
    · exact .inr ih

theorem via_of_uses {W : World} {t t' : Ty} (h : Uses W t t') : Via W [] t t' := by
  have snoc : ∀ {a b c : Ty}, Via W [] a b → Needs W b c → Via W [] a c := by
    intro a b c h hn
    induction h with
    | refl h => exact .step h hn (.refl (by simp))
    | step h1 h2 _ ih => exact .step h1 h2 (ih hn)
  induction h with
  | refl => exact .refl (by simp)
  | step _ hn ih => exact snoc ih hn

theorem noDupKeys_iff {ks : List Bytes} : noDupKeys ks = true ↔ ks.Nodup := by
  induction ks with
  | nil => simp [noDupKeys]
  | cons k ks ih => simp [noDupKeys, ih]

/-- Visible fields have an entry. -/
theorem fieldSets_get {W : World} {fs : List Field} {i j : Nat} {f : Field} (hf : fs[j]? = some f) (hv : Visible f) :
    ∃ s ∈ fieldSets W i fs, s.idx = i + j ∧ s.key = (structTag W f).key := by
  induction fs generalizing i j with
  | nil => simp at hf
  | cons g fs ih =>
    unfold fieldSets
    cases j with
    | zero =>
      simp at hf; subst hf
      rw [visible_iff.1 hv]
      exact ⟨_, List.mem_cons_self, rfl, rfl⟩
    | succ j =>
      obtain ⟨s, h1, h2, h3⟩ := ih (i := i + 1) (by simpa using hf)
      refine ⟨s, ?_, by omega, h3⟩
      split
      · exact h1
      · exact List.mem_cons_of_mem _ h1

theorem nodup_map_inj {α β : Type} {f : α → β} {xs : List α} (h : (xs.map f).Nodup) {a b : α} (ha : a ∈ xs) (hb : b ∈ xs) (he : f a = f b) : a = b := by
  induction xs with
  | nil => cases ha
  | cons x xs ih =>
    simp only [List.map_cons, List.nodup_cons, List.mem_map, not_exists, not_and] at h
    rcases List.mem_cons.1 ha with rfl | ha <;> rcases List.mem_cons.1 hb with rfl | hb
    · rfl
    · exact absurd he.symm (h.1 b hb)
    · exact absurd he (h.1 a (by assumption))
    · exact ih h.2 ha hb

theorem compileDFields_facts {W : World} {rec : Ty → Res Unit} {fs : List Field} (h : compileDFields W rec fs = .ok ()) :
    ∀ f ∈ fs, Visible f → rec f.ty = .ok () ∧ ((structTag W f).isString && stringTagOk W f.ty && !canWrap W f.ty) = false ∧ embedded W f = false := by
  induction fs with
  | nil => simp
  | cons g fs ih =>
    intro f hm hv
    unfold compileDFields at h
    split at h
    · rename_i hi
      rcases List.mem_cons.1 hm with rfl | hm
      · rw [visible_iff.1 hv] at hi; cases hi
      · exact ih h f hm hv
    · split at h
      · cases h
      · rename_i he
        obtain ⟨⟨⟩, h1, h2⟩ := Res.bind_eq_ok.1 h
        split at h2
        · cases h2
        · rename_i hw
          rcases List.mem_cons.1 hm with rfl | hm
          · exact ⟨h1, by simpa using hw, by simpa using he⟩
          · exact ih h2 f hm hv

theorem prepared_of_kind {W : World} {t : Ty} (h1 : ∀ e, ¬ Plain W t (.ptr e)) (h2 : ∀ id, ¬ Plain W t (.struct id)) : Prepared W t :=
  ⟨fun e h => absurd h (h1 e), fun id h => absurd h (h2 id), fun id h => absurd h (h2 id), fun id h => absurd h (h2 id)⟩

theorem canWrap_scalar {W : World} {t : Ty} (h : canWrap W t = true) : IsScalar W t ∨ ∃ e, Plain W t (.ptr e) ∧ IsScalar W e := by
  unfold canWrap at h
  split at h
  · rename_i h1 h2; exact .inr ⟨_, ⟨h1, h2⟩, wrappable_iff.1 h⟩
  · exact .inl (wrappable_iff.1 h)

/-- A type with no components has been dealt with. -/
theorem via_leaf {W : World} {B : List Ty} {t t' : Ty} (hn : ∀ t1, ¬ Needs W t t1) (h : Via W B t t') : t' = t := by
  cases h with
  | refl => rfl
  | step _ h _ => exact absurd h (hn _)

theorem compileD_prepared {W : World} {f : Nat} {B : List Ty} {t t' : Ty} (h : compileD W f B t = .ok ()) (hv : Via W B t t') : Prepared W t' := by
  induction f generalizing B t with
  | zero => simp [compileD] at h
  | succ f ih =>
    cases hu : W.unmOf t with
    | some id =>
      have hp : ∀ k, ¬ Plain W t k := fun k hk => by rw [hk.1] at hu; cases hu
      rw [via_leaf (fun t1 hn => by cases hn <;> exact absurd ‹Plain W t _› (hp _)) hv]
      exact prepared_of_kind (fun _ => hp _) fun _ => hp _
    | none =>
      have pl : ∀ {a b}, W.resolve t = a → Plain W t b → a = b := fun h1 h2 => h1.symm.trans h2.2
      unfold compileD at h
      simp only [hu] at h
      cases hr : W.resolve t with
      | ptr e =>
        simp only [hr] at h
        obtain ⟨⟨⟩, h1, h2⟩ := Res.bind_eq_ok.1 h
        cases hv with
        | refl =>
          refine ⟨fun e' he => ?_, fun id hi => (by cases pl hr hi), fun id hi => (by cases pl hr hi), fun id hi => (by cases pl hr hi)⟩
          cases pl hr he
          split at h2
          · cases h2
          · simpa using ‹¬ W.isPtr e = true›
        | step _ hn hv =>
          cases hn with
          | ptr hp => cases pl hr hp; exact ih h1 hv
          | _ hp => cases pl hr hp
      | struct id =>
        simp only [hr] at h
        have hB : t ∉ B := by cases hv <;> assumption
        have hc : B.contains t = false := by simpa using hB
        simp only [hc, Bool.false_eq_true, if_false] at h
        obtain ⟨⟨⟩, h1, h2⟩ := Res.bind_eq_ok.1 h
        have hfs := compileDFields_facts h1
        have key : Prepared W t := by
          refine ⟨fun e he => (by cases pl hr he), fun id' hi i j f g k hf hg vf vg kf kg => ?_, fun id' hi f hf vf hs => ?_, fun id' hi f hf vf ha id2 => ?_⟩
          · cases pl hr hi
            split at h2
            · rename_i hd
              obtain ⟨s, s1, s2, s3⟩ := fieldSets_get (W := W) (i := 0) hf vf
              obtain ⟨s', s1', s2', s3'⟩ := fieldSets_get (W := W) (i := 0) hg vg
              have := nodup_map_inj (noDupKeys_iff.1 hd) s1 s1' (by show s.key = s'.key; rw [s3, s3', hasKey_iff.1 kf, hasKey_iff.1 kg])
              rw [this] at s2
              omega
            · cases h2
          · cases pl hr hi
            have := (hfs f hf vf).2.1
            rw [hasString_iff.1 hs, Bool.true_and] at this
            cases hst : stringTagOk W f.ty with
            | false => exact .inl (stringTagOk_iff.1 hst)
            | true =>
              rw [hst] at this
              exact .inr (canWrap_scalar (by simpa using this))
          · cases pl hr hi
            have := (hfs f hf vf).2.2
            unfold embedded at this
            rw [ha, Bool.true_and] at this
            refine ⟨fun h => by simp [h] at this, fun e h he => by simp [h, he] at this⟩
        rcases via_cut t hv with hv' | rfl | ⟨t1, hn, hv'⟩
        · cases hv' with
          | refl h => simp at h
          | step h => simp at h
        · exact key
        · cases hn with
          | field hp hf hvis => cases pl hr hp; exact ih (hfs _ hf hvis).1 hv'
          | _ hp => cases pl hr hp
      | slice e =>
        simp only [hr] at h
        cases hv with
        | refl => exact prepared_of_kind (fun _ hp => by cases pl hr hp) fun _ hp => by cases pl hr hp
        | step _ hn hv =>
          cases hn with
          | slice hp =>
            cases pl hr hp
            split at h
            · rename_i hb
              have hb : W.resolve e = .uint .u8 := by simpa [World.isByte] using hb
              have hk : ∀ {a}, Plain W e a → a = .uint .u8 := fun h => h.2.symm.trans hb
              rw [via_leaf (fun t1 hn => by cases hn <;> cases hk ‹Plain W e _›) hv]
              exact prepared_of_kind (fun _ hp => by cases hk hp) fun _ hp => by cases hk hp
            · exact ih h hv
          | _ hp => cases pl hr hp
      | array n e =>
        simp only [hr] at h
        cases hv with
        | refl => exact prepared_of_kind (fun _ hp => by cases pl hr hp) fun _ hp => by cases pl hr hp
        | step _ hn hv =>
          cases hn with
          | array hp => cases pl hr hp; exact ih h hv
          | _ hp => cases pl hr hp
      | map k e =>
        simp only [hr] at h
        obtain ⟨⟨⟩, h1, h2⟩ := Res.bind_eq_ok.1 h
        cases hv with
        | refl => exact prepared_of_kind (fun _ hp => by cases pl hr hp) fun _ hp => by cases pl hr hp
        | step _ hn hv =>
          cases hn with
          | mapVal hp => cases pl hr hp; exact ih h2 hv
          | mapKey hp =>
            cases pl hr hp
            cases hku : W.unmOf k with
            | some id =>
              have hk := hku
              have hp : ∀ a, ¬ Plain W k a := fun a ha => by rw [ha.1] at hk; cases hk
              rw [via_leaf (fun t1 hn => by cases hn <;> exact absurd ‹Plain W k _› (hp _)) hv]
              exact prepared_of_kind (fun _ => hp _) fun _ => hp _
            | none =>
              simp only [hku] at h1
              split at h1
              · cases ‹(none : Option Nat) = some _›
              · rename_i hk
                have hp : ∀ {a}, Plain W k a → a = .str := fun h => h.2.symm.trans hk
                rw [via_leaf (fun t1 hn => by cases hn <;> cases hp ‹Plain W k _›) hv]
                exact prepared_of_kind (fun _ h => by cases hp h) fun _ h => by cases hp h
              · exact ih h1 hv
          | _ hp => cases pl hr hp
      | _ =>
        rw [via_leaf (fun t1 hn => by cases hn <;> cases pl hr ‹Plain W t _›) hv]
        exact prepared_of_kind (fun _ hp => by cases pl hr hp) fun _ hp => by cases pl hr hp

theorem compileD_uses {W : World} {f : Nat} {t t' : Ty} (h : compileD W f [] t = .ok ()) (hu : Uses W t t') : Prepared W t' :=
  compileD_prepared h (via_of_uses hu)

end Verif

import Verif.Proofs.EncCompile
import Verif.Proofs.Pointer
/-
The components of a type that `Marshal` can prepare can be prepared on their own.
-/
namespace Verif
open Spec

/-- Preparing a struct, slice or map type once it is marked as seen. -/
def bodyE (W : World) (r : List Ty → Ty → Res (List Ty)) (seen : List Ty) (t : Ty) : Res (List Ty) :=
  match W.resolve t with
  | .struct id => compileEFields W r seen (W.fields id)
  | .slice e => r seen e
  | .map k v => if !W.mapKeyOk k then .err (.unsupported "map key") else r seen v
  | _ => .ok seen

/-- The same with the check for having been seen. -/
def enterE (W : World) (r : List Ty → Ty → Res (List Ty)) (seen : List Ty) (t : Ty) : Res (List Ty) :=
  if seen.contains t then .ok seen else bodyE W r (t :: seen) t

/-- How preparing a type goes on. -/
inductive Shape1 (W : World) (t : Ty) : Prop
  | leaf : (∀ f s, compileE W (f + 1) s t = .ok s) → Shape1 W t
  | bad : (∀ f s s', compileE W (f + 1) s t ≠ .ok s') → Shape1 W t
  | enter : (∀ f s, compileE W (f + 1) s t = enterE W (compileE W f) s t) → Shape1 W t
  | enterPtr {e} : W.resolve t = .ptr e → (∀ f s, compileE W (f + 1) s t = enterE W (compileE W f) s e) → Shape1 W t
  | fwd {e} : (∀ f s, compileE W (f + 1) s t = compileE W f s e) → Shape1 W t
  | array {n e} : W.resolve t = .array n e → (∀ f s, compileE W (f + 1) s t = (compileE W f [] e >>= fun _ => .ok s)) → Shape1 W t

theorem shape1 (W : World) (t : Ty) : Shape1 W t := by
  by_cases hm : W.marOf t = true
  · exact .leaf fun f s => by simp [compileE, hm]
  by_cases hb : t = .slice (.uint .u8)
  · exact .leaf fun f s => by subst hb; simp [compileE]
  have key : ∀ f s, compileE W (f + 1) s t = match W.resolve t with
      | .bool | .int _ | .f32 | .f64 | .str | .any | .iface _ => .ok s
      | .uint k => if k = .uptr then .err (.unsupported "uintptr") else .ok s
      | .struct id => compileEStruct W (compileE W f) s t (W.fields id)
      | .array _ e => compileE W f [] e >>= fun _ => .ok s
      | .slice e => compileESlice (compileE W f) s t e
      | .map k v => compileEMap W (compileE W f) s t k v
      | .ptr e => compileEPtr W (compileE W f) s e
      | .other | .named _ => .err (.unsupported "type") := fun f s => by simp only [compileE, hm, hb, if_false]; rfl
  cases hr : W.resolve t with
  | uint k =>
    rw [hr] at key
    by_cases hk : k = .uptr
    · exact .bad fun f s s' => by rw [key]; simp [hk]
    · exact .leaf fun f s => by rw [key]; simp [hk]
  | struct id => exact .enter fun f s => by rw [key, hr]; simp only [compileEStruct, enterE, bodyE, hr]
  | slice e => exact .enter fun f s => by rw [key, hr]; simp only [compileESlice, enterE, bodyE, hr]
  | map k v => exact .enter fun f s => by rw [key, hr]; simp only [compileEMap, enterE, bodyE, hr]
  | array n e => exact .array hr fun f s => by rw [key, hr]
  | ptr e =>
    rw [hr] at key
    simp only [compileEPtr] at key
    cases he : W.resolve e with
    | ptr e' => exact .bad fun f s s' => by rw [key]; simp [he]
    | uint k =>
      by_cases hk : k = .uptr
      · exact .fwd (e := e) fun f s => by rw [key, he]; simp [hk]
      · exact .leaf fun f s => by rw [key, he]; simp [hk]
    | map k v => exact .enterPtr hr fun f s => by rw [key, he]; simp only [compileEMap, enterE, bodyE, he]
    | struct id => exact .enterPtr hr fun f s => by rw [key, he]; simp only [compileEStruct, enterE, bodyE, he]
    | slice => exact .fwd (e := e) fun f s => by rw [key, he]
    | array => exact .fwd (e := e) fun f s => by rw [key, he]
    | other => exact .fwd (e := e) fun f s => by rw [key, he]
    | named => exact .fwd (e := e) fun f s => by rw [key, he]
    | _ => exact .leaf fun f s => by rw [key, he]
  | other => exact .bad fun f s s' => by rw [key, hr]; simp
  | named => exact .bad fun f s s' => by rw [key, hr]; simp
  | _ => exact .leaf fun f s => by rw [key, hr]

/-- The seen types other than those of `A` were prepared, within `S`. -/
def Prepped (W : World) (A S : List Ty) : Prop :=
  ∀ w ∈ S, w ∈ A ∨ ∃ g A1 A2, bodyE W (compileE W g) (w :: A1) w = .ok A2 ∧ A2 ⊆ S

theorem Prepped.refl {W : World} {A : List Ty} : Prepped W A A := fun _ h => .inl h

theorem Prepped.trans {W : World} {A B C : List Ty} (h1 : Prepped W A B) (h2 : Prepped W B C) (hs : B ⊆ C) : Prepped W A C := fun w hw => by
  rcases h2 w hw with h | h
  · rcases h1 w h with h | ⟨g, A1, A2, h, h'⟩
    · exact .inl h
    · exact .inr ⟨g, A1, A2, h, fun x hx => hs (h' hx)⟩
  · exact .inr h

theorem prepped_fields {W : World} {r : List Ty → Ty → Res (List Ty)} (hr : ∀ s t s', r s t = .ok s' → Prepped W s s' ∧ s ⊆ s') {fs : List Field}
    {s s' : List Ty} (h : compileEFields W r s fs = .ok s') : Prepped W s s' := by
  induction fs generalizing s with
  | nil => cases h; exact .refl
  | cons f fs ih =>
    unfold compileEFields at h
    simp only [] at h
    split at h
    · exact ih h
    · split at h
      · cases h
      · split at h
        · cases h
        · split at h
          · split at h
            · exact ih h
            · cases h
          · obtain ⟨s1, h1, h2⟩ := Res.bind_eq_ok.1 h
            exact (hr _ _ _ h1).1.trans (ih h2) (compileEFields_grows (fun _ _ _ h => (hr _ _ _ h).2) h2)

theorem prepped_enter {W : World} {f : Nat} (ih : ∀ s t s', compileE W f s t = .ok s' → Prepped W s s') {s s' : List Ty} {t : Ty}
    (h : enterE W (compileE W f) s t = .ok s') : Prepped W s s' := by
  unfold enterE at h
  split at h
  · cases h; exact .refl
  · have hb : Prepped W (t :: s) s' ∧ (t :: s) ⊆ s' := by
      have hh := h
      unfold bodyE at hh
      split at hh
      · exact ⟨prepped_fields (fun _ _ _ h => ⟨ih _ _ _ h, compileE_grows h⟩) hh, compileEFields_grows (fun _ _ _ h => compileE_grows h) hh⟩
      · exact ⟨ih _ _ _ hh, compileE_grows hh⟩
      · split at hh
        · cases hh
        · exact ⟨ih _ _ _ hh, compileE_grows hh⟩
      · cases hh; exact ⟨.refl, fun _ h => h⟩
    intro w hw
    rcases hb.1 w hw with hw' | hw'
    · rcases List.mem_cons.1 hw' with rfl | hw'
      · exact .inr ⟨f, s, s', h, fun _ h => h⟩
      · exact .inl hw'
    · exact .inr hw'

theorem compileE_prepped {W : World} {f : Nat} {s s' : List Ty} {t : Ty} (h : compileE W f s t = .ok s') : Prepped W s s' := by
  induction f generalizing s t s' with
  | zero => cases h
  | succ f ih =>
    cases shape1 W t with
    | leaf k => rw [k] at h; cases h; exact .refl
    | bad k => exact absurd h (k _ _ _)
    | enter k => rw [k] at h; exact prepped_enter (fun _ _ _ h => ih h) h
    | enterPtr _ k => rw [k] at h; exact prepped_enter (fun _ _ _ h => ih h) h
    | fwd k => rw [k] at h; exact ih h
    | array _ k =>
      rw [k] at h
      obtain ⟨_, -, h⟩ := Res.bind_eq_ok.1 h
      cases h; exact .refl

/-- `t` can be prepared from every list of seen types that contains `B`. -/
def FromAll (W : World) (B : List Ty) (t : Ty) : Prop := ∀ B1, B ⊆ B1 → ∃ g B2, compileE W g B1 t = .ok B2

theorem fromAll_fields {W : World} {r : List Ty → Ty → Res (List Ty)} {B S : List Ty} (hg : ∀ s t s', r s t = .ok s' → s ⊆ s')
    (hr : ∀ s t s', r s t = .ok s' → s' ⊆ S → FromAll W B t) {fs : List Field} {s s' : List Ty} (h : compileEFields W r s fs = .ok s') (hS : s' ⊆ S)
    {B1 : List Ty} (hB : B ⊆ B1) : ∃ g B2, compileEFields W (compileE W g) B1 fs = .ok B2 := by
  induction fs generalizing s B1 with
  | nil => exact ⟨0, B1, rfl⟩
  | cons f fs ih =>
    unfold compileEFields at h ⊢
    simp only [] at h ⊢
    split at h
    · rename_i hc; simp only [hc, if_true]; exact ih h hB
    · rename_i hc
      simp only [hc]
      split at h
      · cases h
      · rename_i hc2
        simp only [hc2]
        split at h
        · cases h
        · rename_i hc3
          simp only [hc3]
          split at h
          · rename_i hc4
            simp only [hc4, if_true]
            split at h
            · rename_i hc5; simp only [hc5, if_true]; exact ih h hB
            · cases h
          · rename_i hc4
            simp only [hc4]
            obtain ⟨s1, h1, h2⟩ := Res.bind_eq_ok.1 h
            obtain ⟨g1, B2, h3⟩ := hr _ _ _ h1 (fun x hx => hS (compileEFields_grows hg h2 hx)) B1 hB
            obtain ⟨g2, B3, h4⟩ := ih h2 (B1 := B2) (fun x hx => compileE_grows h3 (hB hx))
            refine ⟨max g1 g2, B3, ?_⟩
            have h3' : compileE W (max g1 g2) B1 (fieldElem W f.ty) = .ok B2 := by
              rw [compileE_mono (by rw [h3]; simp) (show g1 ≤ max g1 g2 by omega), h3]
            have h4' : compileEFields W (compileE W (max g1 g2)) B2 fs = .ok B3 := by
              rcases compileEFields_le (W := W) (fun s t => compileE_le (show g2 ≤ max g1 g2 by omega) s t) fs B2 with hd | hd
              · rw [h4] at hd; cases hd
              · rw [← hd, h4]
            simp only [Bool.false_eq_true, if_false]
            exact Res.bind_eq_ok.2 ⟨B2, h3', h4'⟩

/-- What was prepared within a closed list of types can be prepared from any list of seen types. -/
theorem fromAll_of {W : World} {S : List Ty} (hS : Prepped W [] S) (n : Nat) : ∀ (B : List Ty), left S B ≤ n →
    ∀ f A u A', compileE W f A u = .ok A' → A' ⊆ S → FromAll W B u := by
  induction n with
  | zero =>
    intro B hB f A u A' h hA B1 hB1
    exact go 0 (fun _ hn => absurd hn (Nat.not_lt_zero _)) B hB f A u A' h hA B1 hB1
  | succ n ih =>
    intro B hB f A u A' h hA B1 hB1
    exact go (n + 1) (fun m hm => by
      intro B hB; exact ih B (by omega)) B hB f A u A' h hA B1 hB1
where
  go (n : Nat) (ih : ∀ m, m < n → ∀ (B : List Ty), left S B ≤ m → ∀ f A u A', compileE W f A u = .ok A' → A' ⊆ S → FromAll W B u) :
      ∀ (B : List Ty), left S B ≤ n → ∀ f A u A', compileE W f A u = .ok A' → A' ⊆ S → FromAll W B u := by
    -- entering a type
    have ent : ∀ (B1 : List Ty), left S B1 ≤ n → ∀ f A w A', enterE W (compileE W f) A w = .ok A' → A' ⊆ S → ∃ g B2, enterE W (compileE W g) B1 w = .ok B2 := by
      intro B1 hB1 f A w A' h hA
      by_cases hw : B1.contains w = true
      · exact ⟨0, B1, by simp only [enterE, hw, if_true]⟩
      · -- the body was prepared, now or earlier
        have hAw : ∃ g A1 A2, bodyE W (compileE W g) (w :: A1) w = .ok A2 ∧ A2 ⊆ S ∧ w ∈ S := by
          unfold enterE at h
          split at h
          · rename_i hc
            cases h
            have hwS : w ∈ S := hA (by simpa using hc)
            rcases hS w hwS with h | ⟨g, A1, A2, h1, h2⟩
            · cases h
            · exact ⟨g, A1, A2, h1, h2, hwS⟩
          · refine ⟨f, A, A', h, hA, ?_⟩
            have hh := h
            unfold bodyE at hh
            split at hh
            · exact hA (compileEFields_grows (fun _ _ _ h => compileE_grows h) hh List.mem_cons_self)
            · exact hA (compileE_grows hh List.mem_cons_self)
            · split at hh
              · cases hh
              · exact hA (compileE_grows hh List.mem_cons_self)
            · cases hh; exact hA List.mem_cons_self
        obtain ⟨g, A1, A2, h1, h2, h3⟩ := hAw
        have hlt : left S (w :: B1) < n := Nat.lt_of_lt_of_le (left_cons h3 (by simpa using hw)) hB1
        have sub := ih _ hlt (w :: B1) (Nat.le_refl _)
        simp only [enterE, hw]
        unfold bodyE at h1 ⊢
        split at h1
        · exact fromAll_fields (fun _ _ _ h => compileE_grows h) (fun s t s' h hs => sub g s t s' h hs) h1 h2 (fun _ h => h)
        · exact sub _ _ _ _ h1 h2 _ (fun _ h => h)
        · split at h1
          · cases h1
          · rename_i hk
            simp only [hk]
            exact sub _ _ _ _ h1 h2 _ (fun _ h => h)
        · exact ⟨0, _, rfl⟩
    intro B hB f
    induction f with
    | zero => intro A u A' h; cases h
    | succ f ihf =>
      intro A u A' h hA B1 hB1
      have hB1' : left S B1 ≤ n := Nat.le_trans (left_le hB1) hB
      cases shape1 W u with
      | leaf k => exact ⟨1, B1, k 0 B1⟩
      | bad k => exact absurd h (k _ _ _)
      | enter k =>
        rw [k] at h
        obtain ⟨g, B2, h1⟩ := ent B1 hB1' f A _ A' h hA
        exact ⟨g + 1, B2, by rw [k, h1]⟩
      | enterPtr _ k =>
        rw [k] at h
        obtain ⟨g, B2, h1⟩ := ent B1 hB1' f A _ A' h hA
        exact ⟨g + 1, B2, by rw [k, h1]⟩
      | fwd k =>
        rw [k] at h
        obtain ⟨g, B2, h1⟩ := ihf A _ A' h hA B1 hB1
        exact ⟨g + 1, B2, by rw [k, h1]⟩
      | array _ k =>
        rw [k] at h
        obtain ⟨x, h1, -⟩ := Res.bind_eq_ok.1 h
        exact ⟨f + 1, B1, by rw [k, h1]; rfl⟩

/-- What was prepared on the way can be prepared on its own. -/
theorem supported_of_run {W : World} {S : List Ty} (hS : Prepped W [] S) {f : Nat} {A A' : List Ty} {u : Ty} (h : compileE W f A u = .ok A') (hA : A' ⊆ S) :
    Supported W u := by
  obtain ⟨g, B, h1⟩ := fromAll_of hS _ [] (Nat.le_refl _) f A u A' h hA [] (fun _ h => h)
  exact ⟨g, B, h1⟩

/-- The values of a map type that can be prepared. -/
theorem supported_map {W : World} {t k e : Ty} (hr : W.resolve t = .map k e) (hm : W.marOf t = false) (hs : Supported W t) :
    Supported W e ∧ W.mapKeyOk k = true := by
  obtain ⟨f, S, h⟩ := hs
  have hp := compileE_prepped h
  cases f with
  | zero => cases h
  | succ f =>
    have hb : t ≠ .slice (.uint .u8) := by rintro rfl; simp [World.resolve] at hr
    simp only [compileE, hm, hb, hr, compileEMap, Bool.false_eq_true, if_false, List.contains_nil] at h
    split at h
    · cases h
    · rename_i hk
      exact ⟨supported_of_run hp h (fun _ h => h), by simpa using hk⟩

/-- What a pointer type that can be prepared points to. -/
theorem supported_pointee {W : World} {t e : Ty} (hr : W.resolve t = .ptr e) (hm : W.marOf t = false) (hs : Supported W t) : Supported W e ∧ W.isPtr e = false := by
  by_cases hme : W.marOf e = true
  · obtain ⟨f, S, h⟩ := hs
    cases f with
    | zero => cases h
    | succ f =>
      have hb : t ≠ .slice (.uint .u8) := by rintro rfl; simp [World.resolve] at hr
      refine ⟨⟨1, [], by simp [compileE, hme]⟩, ?_⟩
      cases hp : W.isPtr e with
      | false => rfl
      | true =>
        obtain ⟨e', he'⟩ := isPtr_cases hp
        simp [compileE, hm, hb, hr, compileEPtr, he'] at h
  · exact (supported_ptr hr hm (by simpa using hme)).1 hs

end Verif

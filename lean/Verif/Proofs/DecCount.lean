import Verif.Proofs.DecMake
import Verif.Spec.Compile
import Verif.Proofs.Unmarshal
/-
How many struct decoders are made.
-/
namespace Verif
open Spec

/-- Nothing is made for a type all of whose structs are being worked on. -/
theorem makeDec_none {W : World} : ∀ f n m t d m', (∀ t' id, Reach W t t' → Plain W t' (.struct id) → ∃ a, m.busy.lookup t' = some a) →
    makeDec W f n m t = .ok (d, m') → m' = m := by
  intro f
  induction f with
  | zero => intro n m t d m' _ h; cases h
  | succ f ih =>
    intro n m t d m' hb h
    have sub : ∀ u, Component W t u → ∀ t' id, Reach W u t' → Plain W t' (.struct id) → ∃ a, m.busy.lookup t' = some a := by
      intro u hu t' id hr hp
      refine hb t' id ?_ hp
      have : Reach W t u := .step .refl hu
      clear hp
      induction hr with
      | refl => exact this
      | step _ hc ih => exact .step ih hc
    unfold makeDec at h
    split at h
    · cases h; rfl
    · rename_i e hu hr
      obtain ⟨⟨d1, m1⟩, h1, h2⟩ := Res.bind_eq_ok.1 h
      have := ih _ _ _ _ _ (sub e (.ptr ⟨hu, hr⟩)) h1
      dsimp only at h2
      split at h2
      · cases h2
      · cases h2; exact this
    · rename_i id hu hr
      obtain ⟨a, ha⟩ := hb t id .refl ⟨hu, hr⟩
      rw [ha] at h
      cases h; rfl
    · rename_i e hu hr
      split at h
      · cases h; rfl
      · obtain ⟨⟨d1, m1⟩, h1, h2⟩ := Res.bind_eq_ok.1 h
        have := ih _ _ _ _ _ (sub e (.slice ⟨hu, hr⟩)) h1
        cases h2; exact this
    · rename_i l e hu hr
      obtain ⟨⟨d1, m1⟩, h1, h2⟩ := Res.bind_eq_ok.1 h
      have := ih _ _ _ _ _ (sub e (.array ⟨hu, hr⟩)) h1
      cases h2; exact this
    · rename_i k v hu hr
      obtain ⟨⟨kd, m1⟩, h1, h2⟩ := Res.bind_eq_ok.1 h
      obtain ⟨⟨vd, m2⟩, h3, h4⟩ := Res.bind_eq_ok.1 h2
      have e1 : m1 = m := by
        split at h1
        · cases h1; rfl
        · cases h1; rfl
        · obtain ⟨⟨d1, m3⟩, h5, h6⟩ := Res.bind_eq_ok.1 h1
          have := ih _ _ _ _ _ (sub k (.mapKey ⟨hu, hr⟩)) h5
          cases h6; exact this
      dsimp only at h3 h4
      subst e1
      have := ih _ _ _ _ _ (sub v (.mapVal ⟨hu, hr⟩)) h3
      cases h4; exact this
    all_goals (cases h; rfl)

theorem makeFields_none {W : World} {sn : Bytes} {rec : Names → DecMem → Ty → Res (Dec × DecMem)} {m : DecMem} : ∀ (fs : List Field) i sets m',
    (∀ fd ∈ fs, ∀ n d m', rec n m fd.ty = .ok (d, m') → m' = m) → makeFields W sn rec i m fs = .ok (sets, m') → m' = m
  | [], i, sets, m', _, h => by simp only [makeFields] at h; cases h; rfl
  | fd :: fs, i, sets, m', hr, h => by
    simp only [makeFields] at h
    split at h
    · exact makeFields_none fs _ _ _ (fun x hx => hr x (List.mem_cons_of_mem _ hx)) h
    split at h
    · cases h
    obtain ⟨⟨d, m1⟩, h1, h2⟩ := Res.bind_eq_ok.1 h
    have := hr fd List.mem_cons_self _ d m1 h1
    subst this
    obtain ⟨d', h3, h4⟩ := Res.bind_eq_ok.1 h2
    obtain ⟨⟨sets', m2⟩, h5, h6⟩ := Res.bind_eq_ok.1 h4
    have := makeFields_none fs _ _ _ (fun x hx => hr x (List.mem_cons_of_mem _ hx)) h5
    cases h6; exact this

theorem one_decoder {W : World} {t : Ty} {id : Nat} (hp : Plain W t (.struct id)) (h : ∀ t' id', Reach W t t' → Plain W t' (.struct id') → t' = t)
    {fuel : Nat} {d : Dec} {H : List StructObj} (hg : getDecoder W fuel t = .ok (d, H)) : d = .struct 0 ∧ H.length = 1 := by
  unfold getDecoder at hg
  obtain ⟨⟨d', m⟩, h1, h2⟩ := Res.bind_eq_ok.1 hg
  cases h2
  cases fuel with
  | zero => cases h1
  | succ f =>
    simp only [makeDec, hp.1, hp.2, List.lookup_nil] at h1
    obtain ⟨⟨sets, m1⟩, h3, h4⟩ := Res.bind_eq_ok.1 h1
    have := makeFields_none _ _ _ _ (fun fd hfd n d m' hrec => makeDec_none _ _ _ _ _ _ (fun t' id' hr hp' => by
      have hr' : Reach W t t' := by
        have h0 : Reach W t fd.ty := .step .refl (.field hp hfd)
        clear hp' hrec
        induction hr with
        | refl => exact h0
        | step _ hc ih => exact .step ih hc
      rw [h t' id' hr' hp']
      exact ⟨0, by simp⟩) hrec) h3
    subst this
    dsimp only at h4
    split at h4
    · cases h4
      simp
    · cases h4

/-- Nothing is read from an empty input. -/
theorem unmarshalInto_nil {W : World} {fuel : Nat} {t : Ty} {v v' : Val} : unmarshalInto W fuel [] t v ≠ (v', .ok ()) := by
  intro h
  unfold unmarshalInto at h
  rcases hx : decodeF W [] (([] : Bytes).length + 1) t 0 0 v with ⟨w, r⟩
  rw [hx] at h
  cases hc : compileD W fuel [] t with
  | ok u =>
    rw [hc] at h
    cases r with
    | ok c =>
      obtain ⟨d, h1, -⟩ := (decodeF_ok_iff (by simp) (by simp) (by simp)).1 hx
      have := h1.1
      rw [List.drop_nil] at this
      exact text_ne_nil d (List.append_eq_nil_iff.1 this.symm).1
    | err e => cases h
    | panic p => cases h
    | diverge => cases h
  | err e => rw [hc] at h; cases h
  | panic p => rw [hc] at h; cases h
  | diverge => rw [hc] at h; cases h

end Verif

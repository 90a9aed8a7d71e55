import Verif.Proofs.DecSafe
import Verif.Proofs.Docs
import Verif.Model.Unmarshal
import Verif.Spec.Compile
/-
Facts about preparing a type for decoding, and about `Unmarshal` as a whole.
-/
set_option linter.unusedSimpArgs false
namespace Verif
open Spec

/-! ### Fuel -/

theorem compileDFields_congr {W : World} {rec rec' : Ty → Res Unit} {fs : List Field}
    (h : ∀ f ∈ fs, rec f.ty ≠ .diverge → rec' f.ty = rec f.ty) (hd : compileDFields W rec fs ≠ .diverge) :
    compileDFields W rec' fs = compileDFields W rec fs := by
  induction fs with
  | nil => rfl
  | cons f fs ih =>
    unfold compileDFields at hd ⊢
    split
    · rename_i h1
      rw [if_pos h1] at hd
      exact ih (fun g hg => h g (by simp [hg])) hd
    · rename_i h1
      rw [if_neg h1] at hd
      split
      · rfl
      · rename_i h2
        rw [if_neg h2] at hd
        have hr : rec f.ty ≠ .diverge := by intro hh; rw [hh] at hd; exact hd rfl
        rw [h f (by simp) hr]
        cases hx : rec f.ty with
        | ok u =>
          rw [hx] at hd
          simp only [Res.bind_ok] at hd ⊢
          split
          · rfl
          · rename_i h3
            rw [if_neg h3] at hd
            exact ih (fun g hg => h g (by simp [hg])) hd
        | err e => rfl
        | panic p => rfl
        | diverge => exact absurd hx hr

theorem compileD_succ {W : World} {f : Nat} {busy : List Ty} {t : Ty} (h : compileD W f busy t ≠ .diverge) :
    compileD W (f + 1) busy t = compileD W f busy t := by
  induction f generalizing busy t with
  | zero => exact absurd rfl h
  | succ f ih =>
    have step : ∀ busy t, compileD W f busy t ≠ .diverge → compileD W (f + 1) busy t = compileD W f busy t := fun _ _ => ih
    unfold compileD at h ⊢
    split at h
    · rfl
    · rename_i e hu hr
      have : compileD W f busy e ≠ .diverge := by intro hh; rw [hh] at h; exact h rfl
      rw [step _ _ this]
    · rename_i id hu hr
      split at h
      · rename_i hb
        rw [if_pos hb, if_pos hb]
      · rename_i hb
        rw [if_neg hb, if_neg hb]
        have h1 : compileDFields W (compileD W f (t :: busy)) (W.fields id) ≠ .diverge := by
          intro hh; rw [hh] at h; exact h rfl
        rw [compileDFields_congr (rec := compileD W f (t :: busy)) (fun g _ hg => step _ _ hg) h1]
    · rename_i e hu hr
      split at h
      · rename_i hb
        rw [if_pos hb, if_pos hb]
      · rename_i hb
        rw [if_neg hb, if_neg hb]
        exact step _ _ h
    · exact step _ _ h
    · rename_i k v hu hr
      have aux : ∀ (x : Res Unit), (x >>= fun _ => compileD W f busy v) ≠ .diverge →
          (x >>= fun _ => compileD W (f + 1) busy v) = (x >>= fun _ => compileD W f busy v) := by
        intro x hx
        cases x with
        | ok u => exact step _ _ hx
        | err e => rfl
        | panic p => rfl
        | diverge => rfl
      split at h
      · exact aux _ h
      · exact aux _ h
      · have h1 : compileD W f busy k ≠ .diverge := by intro hh; rw [hh] at h; exact h rfl
        rw [step _ _ h1]
        exact aux _ h
    · rfl

/-- The outcome of preparing a type does not depend on the fuel, once there is enough. -/
theorem compileD_mono {W : World} {f g : Nat} {busy : List Ty} {t : Ty} (h : compileD W f busy t ≠ .diverge) (hg : f ≤ g) :
    compileD W g busy t = compileD W f busy t := by
  obtain ⟨k, rfl⟩ := Nat.le.dest hg
  induction k with
  | zero => rfl
  | succ k ih =>
    have h1 := ih (by omega)
    have h2 : compileD W (f + k) busy t ≠ .diverge := by rw [h1]; exact h
    rw [← Nat.add_assoc, compileD_succ h2, h1]

/-! ### Termination of preparation -/

/-- Preparation ends, given enough fuel. -/
def Ends (W : World) (busy : List Ty) (t : Ty) : Prop := ∃ f, compileD W f busy t ≠ .diverge

theorem ends_fields {W : World} {busy : List Ty} {fs : List Field} (h : ∀ f ∈ fs, Ends W busy f.ty) :
    ∃ n, ∀ g, n ≤ g → compileDFields W (compileD W g busy) fs ≠ .diverge := by
  induction fs with
  | nil => exact ⟨0, fun _ _ => by simp [compileDFields]⟩
  | cons f fs ih =>
    obtain ⟨n1, h1⟩ := h f (by simp)
    obtain ⟨n2, h2⟩ := ih (fun g hg => h g (by simp [hg]))
    refine ⟨max n1 n2, fun g hg => ?_⟩
    have h2 := h2 g (by omega)
    have h1' : compileD W g busy f.ty ≠ .diverge := by rw [compileD_mono h1 (by omega)]; exact h1
    unfold compileDFields
    split
    · exact h2
    · split
      · simp
      · cases hx : compileD W g busy f.ty with
        | ok u =>
          simp only [Res.bind_ok]
          split
          · simp
          · exact h2
        | err e => simp [bind, Res.bind]
        | panic p => simp [bind, Res.bind]
        | diverge => exact absurd hx h1'

/-- Members of `S` not yet in `busy`. -/
def left (S busy : List Ty) : Nat := (S.filter fun t => !busy.contains t).length

theorem left_cons {S busy : List Ty} {t : Ty} (hS : t ∈ S) (hb : busy.contains t = false) : left S (t :: busy) < left S busy := by
  unfold left
  induction S with
  | nil => cases hS
  | cons s S ih =>
    have hle : ∀ S : List Ty, (S.filter fun x => !(t :: busy).contains x).length ≤ (S.filter fun x => !busy.contains x).length := by
      intro S
      induction S with
      | nil => simp
      | cons s S ih =>
        simp only [List.filter_cons]
        by_cases h1 : busy.contains s = true
        · have : (t :: busy).contains s = true := by simp at h1 ⊢; exact .inr h1
          simp only [h1, this]; simpa using ih
        · have h1 : busy.contains s = false := by simpa using h1
          simp only [h1]
          split <;> simp at ih ⊢ <;> omega
    by_cases hst : s = t
    · subst hst
      have := hle S
      simp only [List.filter_cons, hb]
      simp at this ⊢
      omega
    · have ih := ih (by rcases List.mem_cons.1 hS with h | h; exact absurd h.symm hst; exact h)
      simp only [List.filter_cons]
      have h2 : (t :: busy).contains s = busy.contains s := by simp [hst]
      rw [h2]
      split <;> simp at ih ⊢ <;> omega

theorem ends_succ {W : World} {busy : List Ty} {t : Ty} (h : ∃ f, compileD W (f + 1) busy t ≠ .diverge) : Ends W busy t := by
  obtain ⟨f, h⟩ := h
  exact ⟨f + 1, h⟩

theorem ends_struct {W : World} {busy : List Ty} {t : Ty} {id : Nat} (hp : Plain W t (.struct id))
    (h : busy.contains t = false → ∀ f ∈ W.fields id, Ends W (t :: busy) f.ty) : Ends W busy t := by
  apply ends_succ
  by_cases hb : busy.contains t = true
  · exact ⟨0, by unfold compileD; simp only [hp.1, hp.2]; rw [if_pos hb]; simp⟩
  · obtain ⟨n, hn⟩ := ends_fields (h (by simpa using hb))
    refine ⟨n, ?_⟩
    unfold compileD
    simp only [hp.1, hp.2]
    rw [if_neg hb]
    have := hn n (Nat.le_refl n)
    cases hx : compileDFields W (compileD W n (t :: busy)) (W.fields id) with
    | ok u => simp only [Res.bind_ok]; split <;> simp
    | err e => simp [bind, Res.bind]
    | panic p => simp [bind, Res.bind]
    | diverge => exact absurd hx this

theorem bind_ends {x : Res Unit} {k : Unit → Res Unit} (hx : x ≠ .diverge) (hk : k () ≠ .diverge) : (x >>= k) ≠ .diverge := by
  cases x with
  | ok u => exact hk
  | err e => simp [bind, Res.bind]
  | panic p => simp [bind, Res.bind]
  | diverge => exact absurd rfl hx

theorem ends_nonstruct {W : World} {busy : List Ty} {t : Ty} (hn : ¬ ∃ id, Plain W t (.struct id))
    (h : ∀ t', Component W t t' → Ends W busy t') : Ends W busy t := by
  apply ends_succ
  rcases hu : W.unmOf t with _ | u
  · rcases hr : W.resolve t
    case ptr e =>
      obtain ⟨f, hf⟩ := h e (.ptr ⟨hu, hr⟩)
      refine ⟨f, ?_⟩
      unfold compileD
      simp only [hu, hr]
      exact bind_ends hf (by split <;> simp)
    case slice e =>
      obtain ⟨f, hf⟩ := h e (.slice ⟨hu, hr⟩)
      refine ⟨f, ?_⟩
      unfold compileD
      simp only [hu, hr]
      split
      · simp
      · exact hf
    case array n e =>
      obtain ⟨f, hf⟩ := h e (.array ⟨hu, hr⟩)
      refine ⟨f, ?_⟩
      unfold compileD
      simpa only [hu, hr] using hf
    case map k v =>
      obtain ⟨f1, h1⟩ := h k (.mapKey ⟨hu, hr⟩)
      obtain ⟨f2, h2⟩ := h v (.mapVal ⟨hu, hr⟩)
      refine ⟨max f1 f2, ?_⟩
      rw [← compileD_mono h1 (g := max f1 f2) (by omega)] at h1
      rw [← compileD_mono h2 (g := max f1 f2) (by omega)] at h2
      unfold compileD
      simp only [hu, hr]
      refine bind_ends ?_ h2
      split
      · simp
      · simp
      · exact h1
    case struct id => exact absurd ⟨id, hu, hr⟩ hn
    all_goals exact ⟨0, by unfold compileD; simp [hu, hr]⟩
  · exact ⟨0, by unfold compileD; simp [hu]⟩

/-- Preparing a type for decoding ends if recursion passes through structs. -/
theorem ends_of_guarded {W : World} {t0 : Ty} (h : StructGuarded W t0) : Ends W [] t0 := by
  obtain ⟨S, rank, hS, hrank⟩ := h
  have key : ∀ n busy, left S busy = n → ∀ r t, rank t = r → Reach W t0 t → Ends W busy t := by
    intro n
    induction n using Nat.strongRecOn with
    | ind n ihn =>
      intro busy hn r
      induction r using Nat.strongRecOn with
      | ind r ihr =>
        intro t hr hreach
        by_cases hs : ∃ id, Plain W t (.struct id)
        · obtain ⟨id, hp⟩ := hs
          refine ends_struct hp fun hb f hf => ?_
          exact ihn _ (hn ▸ left_cons (hS t id hreach hp) hb) _ rfl _ _ rfl (.step hreach (.field hp hf))
        · refine ends_nonstruct hs fun t' ht' => ?_
          exact ihr _ (hr ▸ hrank t t' hreach ht' hs) _ rfl (.step hreach ht')
  exact key _ [] rfl _ _ rfl .refl

/-! ### `Unmarshal` -/

theorem validateEndBuf_ok {b : Bytes} {c : Nat} : validateEndBuf b c = .ok () ↔ b.length = c := by
  unfold validateEndBuf
  split
  · simpa
  · rename_i h
    simp only [h, iff_false]
    cases idx b c <;> simp [bind, Res.bind]

theorem unmarshal_ptr {W : World} {fuel : Nat} {data : Bytes} {t : Ty} {v : Val} (h : data ≠ []) :
    unmarshal W fuel data (.ptr t v) = (some (unmarshalInto W fuel data t v).1, (unmarshalInto W fuel data t v).2) := by
  unfold unmarshal
  rw [if_neg (by cases data <;> simp_all)]

/-- `Unmarshal` succeeds exactly when the type can be prepared and the whole input is one document that the
specification allows to be stored, with the specified result. -/
theorem unmarshal_ok_iff {W : World} {fuel : Nat} {data : Bytes} {t : Ty} {v : Val} {o : Option Val} (hb : data.length < 2 ^ 63) :
    unmarshal W fuel data (.ptr t v) = (o, .ok ()) ↔
      compileD W fuel [] t = .ok () ∧ ∃ d v', o = some v' ∧ data = d.text ∧ DecDoc W t maxDepth d v v' := by
  by_cases hd : data = []
  · subst hd
    simp only [unmarshal, List.length_nil, if_true, Prod.mk.injEq, reduceCtorEq, and_false, false_iff]
    rintro ⟨-, d, v', -, h, -⟩
    exact text_ne_nil d h.symm
  · rw [unmarshal_ptr hd]
    have key : ∀ v' c, decodeF W data (data.length + 1) t 0 0 v = (v', .ok c) ↔ ∃ d, At data 0 d c ∧ DecDoc W t maxDepth d v v' := by
      intro v' c
      rw [decodeF_ok_iff hb (by omega) (by omega)]; rfl
    unfold unmarshalInto
    rcases hx : decodeF W data (data.length + 1) t 0 0 v with ⟨w, r⟩
    constructor
    · intro h
      rw [Prod.mk.injEq] at h
      obtain ⟨h1, h2⟩ := h
      cases hc : compileD W fuel [] t with
      | ok u =>
        rw [hc] at h1 h2
        simp only [onOk] at h1 h2
        cases r with
        | ok c =>
          simp only at h1 h2
          have hl := validateEndBuf_ok.1 h2
          obtain ⟨d, h3, h4⟩ := (key _ _).1 hx
          refine ⟨rfl, d, w, h1.symm, ?_, h4⟩
          have := h3.1
          rw [List.drop_zero, ← hl, List.drop_length, List.append_nil] at this
          exact this
        | err e => simp at h2
        | panic p => simp at h2
        | diverge => simp at h2
      | err e => rw [hc] at h2; simp [onOk] at h2
      | panic e => rw [hc] at h2; simp [onOk] at h2
      | diverge => rw [hc] at h2; simp [onOk] at h2
    · rintro ⟨hc, d, v', rfl, h2, h3⟩
      have := (key v' data.length).2 ⟨d, ⟨by simp [← h2], by simp [← h2]⟩, h3⟩
      rw [hx] at this
      cases this
      simp [hc, onOk, validateEndBuf_ok.2]

end Verif

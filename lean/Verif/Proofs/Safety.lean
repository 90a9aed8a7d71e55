import Verif.Proofs.ScalarFacts
import Verif.Spec.Safety
/-
Safety of `Unmarshal` as a whole.
-/
namespace Verif
open Spec

theorem compileDFields_noPanic {W : World} {rec : Ty → Res Unit} (hrec : ∀ t p, rec t ≠ .panic p) (fs : List Field) (p : Panic) :
    compileDFields W rec fs ≠ .panic p := by
  induction fs with
  | nil => simp [compileDFields]
  | cons f fs ih =>
    unfold compileDFields
    split
    · exact ih
    split
    · simp
    cases h : rec f.ty with
    | ok u =>
      simp only [bind, Res.bind]
      split
      · simp
      · exact ih
    | err e => simp [bind, Res.bind]
    | panic q => exact absurd h (hrec _ _)
    | diverge => simp [bind, Res.bind]

theorem bind_noPanic {x : Res Unit} {k : Unit → Res Unit} {p : Panic} (hx : x ≠ .panic p) (hk : k () ≠ .panic p) :
    (x >>= k) ≠ .panic p := by
  cases x with
  | ok u => exact hk
  | err e => simp [bind, Res.bind]
  | panic q => simpa [bind, Res.bind] using hx
  | diverge => simp [bind, Res.bind]

theorem compileD_noPanic {W : World} {fuel : Nat} {busy : List Ty} {t : Ty} {p : Panic} : compileD W fuel busy t ≠ .panic p := by
  induction fuel generalizing busy t p with
  | zero => simp [compileD]
  | succ f ih =>
    unfold compileD
    split
    · simp
    · exact bind_noPanic ih (by split <;> simp)
    · split
      · simp
      · exact bind_noPanic (compileDFields_noPanic (fun t p => ih) _ _) (by split <;> simp)
    · split
      · simp
      · exact ih
    · exact ih
    · refine bind_noPanic ?_ ih
      split
      · simp
      · simp
      · exact ih
    · simp

/-- Everything `decodeF_good` says, for the whole of `Unmarshal`. -/
theorem unmarshal_good {W : World} {D : Ty → Prop} (hW : WorldOk W D) (hD : ∀ t, Documented t → D t) {P : Panic → Prop} {T : Ty → Prop}
    {data : Bytes} (hH : Hazards W data P T) (hb : data.length < 2 ^ 63) {t : Ty} {old : Val} {fuel : Nat} (hTt : T t)
    (hrv : HasTy W D t old) :
    ∃ v r, unmarshal W fuel data (.ptr t old) = (some v, r) ∧ HasTy W D t v ∧
      (Safe P r ∨ (r = .diverge ∧ compileD W fuel [] t = .diverge)) := by
  by_cases hd : data = []
  · subst hd
    exact ⟨old, .err .emptyInput, rfl, hrv, .inl trivial⟩
  · rw [unmarshal_ptr hd]
    refine ⟨_, _, rfl, ?_⟩
    unfold unmarshalInto
    have hlen : 0 < data.length := List.length_pos_iff.2 hd
    have hg := decodeF_good hW hD hH hb (f := data.length + 1) (c := 0) (depth := 0) (by omega) hlen (by omega) hTt hrv
    cases hc : compileD W fuel [] t with
    | ok u =>
      simp only [onOk]
      rcases hx : decodeF W data (data.length + 1) t 0 0 old with ⟨w, r⟩
      rw [hx] at hg
      dsimp only
      cases r with
      | ok c =>
        dsimp only
        refine ⟨hg.1, .inl ?_⟩
        obtain ⟨d, hat, -⟩ := decodeF_sound hb (by omega) hx
        have hle := hat.le
        unfold validateEndBuf
        split
        · trivial
        · rename_i hne
          have hlt : c < data.length := by omega
          rcases (idx_returns hlt).cases with ⟨a, ha⟩ | ⟨e, he⟩
          · rw [ha]; trivial
          · simp [idx] at he; split at he <;> simp at he
      | err e => exact ⟨hg.1, .inl trivial⟩
      | panic p => exact ⟨hg.1, .inl hg.2⟩
      | diverge => exact absurd hg.2 (by simp [Safe])
    | err e => exact ⟨hrv, .inl trivial⟩
    | panic p => exact absurd hc compileD_noPanic
    | diverge => exact ⟨hrv, .inr ⟨rfl, rfl⟩⟩

theorem safe_returns' {α : Type} {P : Panic → Prop} {r : Res α} (h : r.Returns) : Safe P r := safe_of_returns h

theorem hazards_cause {W : World} (hU : UserReturns W) (t : Ty) (data : Bytes) :
    Hazards W data (PanicCause W t data) (fun t' => Reach W t t' ∨ t' = .any) where
  ptr := by
    rintro t' e (h | rfl) hu hr
    · exact .inl (.step h (.ptr ⟨hu, hr⟩))
    · simp [World.resolve] at hr
  slice := by
    rintro t' e (h | rfl) hu hr
    · exact ⟨.inl (.step h (.slice ⟨hu, hr⟩)), fun ho => .slice h ⟨hu, hr⟩ ho⟩
    · simp [World.resolve] at hr
  array := by
    rintro t' n e (h | rfl) hu hr
    · exact .inl (.step h (.array ⟨hu, hr⟩))
    · simp [World.resolve] at hr
  mapVal := by
    rintro t' k v (h | rfl) hu hr
    · exact .inl (.step h (.mapVal ⟨hu, hr⟩))
    · simp [World.resolve] at hr
  mapAny := by
    rintro t' k v (h | rfl) hu hr hk
    · refine ⟨.inr rfl, .key h ⟨hu, hr⟩ ?_⟩
      rcases hk with hk | ⟨p, i, hk, -⟩
      · exact .inl hk
      · exact .inr (.inl ⟨p, hk⟩)
    · simp [World.resolve] at hr
  mapUnm := by
    rintro t' k v id (h | rfl) hu hr hk
    · exact ⟨.key h ⟨hu, hr⟩ (.inr (.inr (by simp [hk]))), fun s => safe_of_returns (hU.unmarshal id s)⟩
    · simp [World.resolve] at hr
  mapPtr := by
    rintro t' k v p (h | rfl) hu hr hk
    · exact .ptrKey h ⟨hu, hr⟩ hk
    · simp [World.resolve] at hr
  struct := by
    rintro t' id f (h | rfl) hu hr hf
    · exact .inl (.step h (.field ⟨hu, hr⟩ hf))
    · simp [World.resolve] at hr
  any := fun _ _ _ _ => .inr rfl
  unm := fun _ id _ _ s => safe_of_returns (hU.unmarshal id s)
  iface := fun _ _ _ _ _ dt v s => safe_of_returns (hU.dyn dt v s)

end Verif

import Verif.Proofs.EncCompileFacts
import Verif.Spec.Fault
/-
Types are refused exactly for their faults.
-/
namespace Verif
open Spec

/-! ### The contents of the errors make no difference -/

/-- The outcome without the contents of the error. -/
def Prep.plain {α : Type} (W : World) : Prep α → Res α
  | .ok a => .ok a
  | .err e => .err (e.plain W)
  | .diverge => .diverge

theorem Prep.plain_andThen {α β : Type} {W : World} {r : Prep α} {k : α → Prep β} :
    (r.andThen k).plain W = (r.plain W) >>= fun a => (k a).plain W := by
  cases r <;> rfl

theorem prepEMap_plain {W : World} {r : List Ty → Ty → Prep (List Ty)} {r' : List Ty → Ty → Res (List Ty)} (h : ∀ s t, (r s t).plain W = r' s t)
    (s : List Ty) (t k v : Ty) : (prepEMap W r s t k v).plain W = compileEMap W r' s t k v := by
  unfold prepEMap compileEMap
  split
  · rfl
  · split
    · rfl
    · exact h _ _

theorem prepEFields_plain {W : World} {r : List Ty → Ty → Prep (List Ty)} {r' : List Ty → Ty → Res (List Ty)} (h : ∀ s t, (r s t).plain W = r' s t)
    (fs : List Field) (s : List Ty) : (prepEFields W r s fs).plain W = compileEFields W r' s fs := by
  induction fs generalizing s with
  | nil => rfl
  | cons f fs ih =>
    unfold prepEFields compileEFields
    simp only []
    split
    · exact ih s
    · split
      · rfl
      · split
        · rfl
        · split
          · split
            · exact ih s
            · rfl
          · rw [Prep.plain_andThen, h]
            simp only [ih]

theorem prepEStruct_plain {W : World} {r : List Ty → Ty → Prep (List Ty)} {r' : List Ty → Ty → Res (List Ty)} (h : ∀ s t, (r s t).plain W = r' s t)
    (s : List Ty) (t : Ty) (fs : List Field) : (prepEStruct W r s t fs).plain W = compileEStruct W r' s t fs := by
  unfold prepEStruct compileEStruct
  split
  · rfl
  · exact prepEFields_plain h _ _

theorem prepE_plain {W : World} {f : Nat} {s : List Ty} {t : Ty} : (prepE W f s t).plain W = compileE W f s t := by
  induction f generalizing s t with
  | zero => rfl
  | succ f ih =>
    have ih' : ∀ s t, (prepE W f s t).plain W = compileE W f s t := fun _ _ => ih
    unfold prepE compileE
    split
    · rfl
    · split
      · rfl
      · cases hr : W.resolve t with
        | uint k =>
          simp only []
          split
          · simp [Prep.plain, TypeErr.plain, hr]
          · rfl
        | struct id => exact prepEStruct_plain ih' _ _ _
        | map k v => exact prepEMap_plain ih' _ _ _ _
        | array n e => simp only [Prep.plain_andThen, ih]; rfl
        | slice e =>
          simp only [prepESlice, compileESlice]
          split
          · rfl
          · exact ih
        | ptr e =>
          simp only [prepEPtr, compileEPtr]
          cases hre : W.resolve e with
          | uint k =>
            simp only []
            split
            · exact ih
            · rfl
          | struct id => exact prepEStruct_plain ih' _ _ _
          | map k v => exact prepEMap_plain ih' _ _ _ _
          | slice x => exact ih
          | array m x => exact ih
          | other => exact ih
          | named x => exact ih
          | _ => rfl
        | other => simp [Prep.plain, TypeErr.plain, hr]
        | named x => simp [Prep.plain, TypeErr.plain, hr]
        | _ => rfl

theorem prepDFields_plain {W : World} {r : Ty → Prep Unit} {r' : Ty → Res Unit} (h : ∀ t, (r t).plain W = r' t) (fs : List Field) :
    (prepDFields W r fs).plain W = compileDFields W r' fs := by
  induction fs with
  | nil => rfl
  | cons f fs ih =>
    unfold prepDFields compileDFields
    split
    · exact ih
    · split
      · rfl
      · rw [Prep.plain_andThen, h]
        refine congrArg _ (funext fun _ => ?_)
        split
        · rfl
        · exact ih

theorem firstDup_none {seen ks : List Bytes} : firstDup seen ks = none ↔ ks.Nodup ∧ ∀ k ∈ ks, k ∉ seen := by
  induction ks generalizing seen with
  | nil => simp [firstDup]
  | cons k ks ih =>
    unfold firstDup
    split
    · rename_i h
      simp only [List.contains_eq_mem, decide_eq_true_eq] at h
      simp [h]
    · rename_i h
      simp only [List.contains_eq_mem, decide_eq_true_eq] at h
      rw [ih]
      simp only [List.nodup_cons, List.mem_cons, not_or]
      constructor
      · rintro ⟨h1, h2⟩
        exact ⟨⟨fun hk => (h2 k hk).1 rfl, h1⟩, fun x hx => by
          rcases hx with rfl | hx
          · exact h
          · exact (h2 x hx).2⟩
      · rintro ⟨⟨h1, h2⟩, h3⟩
        exact ⟨h2, fun x hx => ⟨fun e => h1 (e ▸ hx), h3 x (.inr hx)⟩⟩

/-- Where a doubled key was found. -/
theorem firstDup_some {seen ks : List Bytes} {k : Bytes} (h : firstDup seen ks = some k) :
    ∃ j : Nat, ks[j]? = some k ∧ (k ∈ seen ∨ ∃ i : Nat, i < j ∧ ks[i]? = some k) := by
  induction ks generalizing seen with
  | nil => cases h
  | cons x ks ih =>
    unfold firstDup at h
    split at h
    · rename_i hc
      cases h
      exact ⟨0, rfl, .inl (by simpa using hc)⟩
    · obtain ⟨j, h1, h2⟩ := ih h
      refine ⟨j + 1, by simpa using h1, ?_⟩
      rcases h2 with h2 | ⟨i, hi, h2⟩
      · rcases List.mem_cons.1 h2 with rfl | h2
        · exact .inr ⟨0, by omega, rfl⟩
        · exact .inl h2
      · exact .inr ⟨i + 1, by omega, by simpa using h2⟩

theorem dup_plain {W : World} {t : Ty} {ks : List Bytes} :
    (match firstDup [] ks with | some k => Prep.err (.decKeys t k) | none => .ok ()).plain W =
      if noDupKeys ks then .ok () else .err (.unsupported "duplicate keys") := by
  cases h : firstDup [] ks with
  | none =>
    have := (firstDup_none.1 h).1
    rw [if_pos (noDupKeys_iff.2 this)]
    rfl
  | some k =>
    have hn : ¬ noDupKeys ks = true := fun hd => by
      rw [firstDup_none.2 ⟨noDupKeys_iff.1 hd, by simp⟩] at h
      cases h
    rw [if_neg hn]
    rfl

theorem prepD_plain {W : World} {f : Nat} {B : List Ty} {t : Ty} : (prepD W f B t).plain W = compileD W f B t := by
  induction f generalizing B t with
  | zero => rfl
  | succ f ih =>
    unfold prepD compileD
    cases hu : W.unmOf t with
    | some id => rfl
    | none =>
      cases hr : W.resolve t with
      | ptr e =>
        simp only [Prep.plain_andThen, ih]
        refine congrArg _ (funext fun _ => ?_)
        split <;> rfl
      | struct id =>
        simp only []
        split
        · rfl
        · rw [Prep.plain_andThen, prepDFields_plain (fun t => ih)]
          exact congrArg _ (funext fun _ => dup_plain)
      | slice e =>
        simp only []
        split
        · rfl
        · exact ih
      | array n e => exact ih
      | map k v =>
        simp only [Prep.plain_andThen]
        congr 1
        · cases hku : W.unmOf k with
          | some id => rfl
          | none => cases hkr : W.resolve k <;> first | rfl | exact ih
        · exact funext fun _ => ih
      | _ => rfl

/-! ### Errors of the encoder tell of faults -/

theorem Prep.andThen_err {α β : Type} {r : Prep α} {k : α → Prep β} {e : TypeErr} :
    r.andThen k = .err e ↔ r = .err e ∨ ∃ a, r = .ok a ∧ k a = .err e := by
  cases r <;> simp [Prep.andThen]

theorem encKeyKind_iff {W : World} {t : Ty} : W.mapKeyOk t = true ↔ EncKeyKind W t := by
  unfold World.mapKeyOk EncKeyKind
  cases W.resolve t <;> simp

theorem asStringOk_iff {W : World} {t : Ty} : asStringOk W t = true ↔ EncStringKind W t := by
  unfold asStringOk EncStringKind EncKeyKind
  cases W.resolve t <;> simp

theorem isPtr_iff {W : World} {t : Ty} : W.isPtr t = true ↔ ∃ e, W.resolve t = .ptr e := by
  unfold World.isPtr
  cases W.resolve t <;> simp

theorem isStruct_iff {W : World} {t : Ty} : W.isStruct t = true ↔ ∃ id, W.resolve t = .struct id := by
  unfold World.isStruct
  cases W.resolve t <;> simp

theorem written_iff {W : World} {f : Field} : WrittenField W f ↔ (decide ((structTag W f).key = [45]) || !f.exported) = false := by
  unfold WrittenField
  rw [hasKey_iff]
  simp [and_comm]

/-- What an error of a call on `t` is about, where `G` are the types that are looked into. -/
def Blames (W : World) (G : Ty → Prop) (x : TypeErr) : Prop := ∃ u, G u ∧ EncFault W u x

theorem fieldElem_cases {W : World} (t : Ty) : (∃ e, W.resolve t = .ptr e ∧ fieldElem W t = e) ∨ ((∀ e, W.resolve t ≠ .ptr e) ∧ fieldElem W t = t) := by
  unfold fieldElem
  cases W.resolve t <;> simp

theorem prepEFields_blames {W : World} {G : Ty → Prop} {r : List Ty → Ty → Prep (List Ty)} {u : Ty} {id : Nat} (hG : G u) (hu : W.resolve u = .struct id)
    (hr : ∀ s f x, f ∈ W.fields id → WrittenField W f → ¬ HasString W f → r s (fieldElem W f.ty) = .err x → Blames W G x)
    {fs : List Field} (hfs : fs ⊆ W.fields id) {s : List Ty} {x : TypeErr} (h : prepEFields W r s fs = .err x) : Blames W G x := by
  induction fs generalizing s with
  | nil => cases h
  | cons f fs ih =>
    have hf : f ∈ W.fields id := hfs List.mem_cons_self
    have hfs' : fs ⊆ W.fields id := fun g hg => hfs (List.mem_cons_of_mem _ hg)
    unfold prepEFields at h
    simp only [] at h
    split at h
    · exact ih hfs' h
    · rename_i hw
      have hw : WrittenField W f := written_iff.2 (by simpa using hw)
      split at h
      · rename_i hp
        cases h
        simp only [Bool.and_eq_true, isPtr_iff] at hp
        obtain ⟨⟨e, he⟩, y, hy⟩ := hp
        have : fieldElem W f.ty = e := by simp [fieldElem, he]
        rw [this] at hy
        exact ⟨u, hG, .fieldPtr hu hf hw he hy⟩
      · split at h
        · rename_i ha
          cases h
          simp only [Bool.and_eq_true, isStruct_iff] at ha
          obtain ⟨ha, id', hid⟩ := ha
          exact ⟨u, hG, .embedded hu hf hw ha hid⟩
        · split at h
          · rename_i hs
            split at h
            · exact ih hfs' h
            · rename_i ho
              cases h
              rw [asStringOk_iff] at ho
              rcases fieldElem_cases (W := W) f.ty with ⟨e, he, h1⟩ | ⟨he, h1⟩
              · rw [h1] at ho ⊢
                exact ⟨u, hG, .stringPtr hu hf hw (hasString_iff.2 hs) he ho⟩
              · rw [h1] at ho ⊢
                exact ⟨u, hG, .string hu hf hw (hasString_iff.2 hs) he ho⟩
          · rename_i hs
            rcases Prep.andThen_err.1 h with h | ⟨s', -, h⟩
            · exact hr s f x hf hw (fun h => hs (hasString_iff.1 h)) h
            · exact ih hfs' h

/-- A set of types that are looked into, with what they lead to. -/
structure OpenSet (W : World) (G : Ty → Prop) : Prop where
  slice : ∀ {u e}, G u → W.resolve u = .slice e → LookedInto W e → G e
  array : ∀ {u n e}, G u → W.resolve u = .array n e → LookedInto W e → G e
  mapVal : ∀ {u k v}, G u → W.resolve u = .map k v → LookedInto W v → G v
  ptr : ∀ {u e}, G u → W.resolve u = .ptr e → LookedInto W e → G e
  ptrStruct : ∀ {u e id}, G u → W.resolve u = .ptr e → W.resolve e = .struct id → G e
  ptrMap : ∀ {u e k v}, G u → W.resolve u = .ptr e → W.resolve e = .map k v → G e
  field : ∀ {u id f}, G u → W.resolve u = .struct id → f ∈ W.fields id → WrittenField W f → ¬ HasString W f → LookedInto W (fieldElem W f.ty) →
    G (fieldElem W f.ty)

theorem opens_openSet {W : World} {t : Ty} : OpenSet W (EncOpens W t) where
  slice := .slice
  array := .array
  mapVal := .mapVal
  ptr := .ptr
  ptrStruct := .ptrStruct
  ptrMap := .ptrMap
  field := fun {u id f} h1 h2 h3 h4 h5 h6 => by
    rcases fieldElem_cases (W := W) f.ty with ⟨e, he, h⟩ | ⟨he, h⟩
    · rw [h] at h6 ⊢; exact .fieldPtr h1 h2 h3 h4 h5 he h6
    · rw [h] at h6 ⊢; exact .field h1 h2 h3 h4 h5 he h6

theorem prepE_blames {W : World} {G : Ty → Prop} (hS : OpenSet W G) {f : Nat} {s : List Ty} {t : Ty} {x : TypeErr} (hG : LookedInto W t → G t)
    (h : prepE W f s t = .err x) : Blames W G x := by
  induction f generalizing s t x with
  | zero => cases h
  | succ f ih =>
    have struct : ∀ {u id s x}, G u → W.resolve u = .struct id → prepEStruct W (prepE W f) s u (W.fields id) = .err x → Blames W G x := by
      intro u id s x hu hr h
      unfold prepEStruct at h
      split at h
      · cases h
      · exact prepEFields_blames hu hr (fun s g y hg hw hs hy => ih (hS.field hu hr hg hw hs) hy) (fun _ h => h) h
    have map : ∀ {u k v s x}, G u → W.resolve u = .map k v → prepEMap W (prepE W f) s u k v = .err x → Blames W G x := by
      intro u k v s x hu hr h
      unfold prepEMap at h
      split at h
      · cases h
      · split at h
        · rename_i hk
          cases h
          exact ⟨u, hu, .key hr fun hh => by rw [encKeyKind_iff.2 hh] at hk; cases hk⟩
        · exact ih (hS.mapVal hu hr) h
    unfold prepE at h
    split at h
    · cases h
    · rename_i hm
      split at h
      · cases h
      · rename_i hb
        have hu : G t := hG ⟨by simpa using hm, hb⟩
        cases hr : W.resolve t with
        | uint k =>
          simp only [hr] at h
          split at h
          · rename_i hk; cases h; subst hk; exact ⟨t, hu, .kind (.inl hr)⟩
          · cases h
        | struct id => simp only [hr] at h; exact struct hu hr h
        | map k v => simp only [hr] at h; exact map hu hr h
        | array n e =>
          simp only [hr] at h
          rcases Prep.andThen_err.1 h with h | ⟨a, -, h⟩
          · exact ih (hS.array hu hr) h
          · cases h
        | slice e =>
          simp only [hr, prepESlice] at h
          split at h
          · cases h
          · exact ih (hS.slice hu hr) h
        | ptr e =>
          simp only [hr, prepEPtr] at h
          cases hre : W.resolve e with
          | ptr y => simp only [hre] at h; cases h; exact ⟨t, hu, .ptr hr hre⟩
          | uint k =>
            simp only [hre] at h
            split at h
            · exact ih (hS.ptr hu hr) h
            · cases h
          | struct id => simp only [hre] at h; exact struct (hS.ptrStruct hu hr hre) hre h
          | map k v => simp only [hre] at h; exact map (hS.ptrMap hu hr hre) hre h
          | slice y => simp only [hre] at h; exact ih (hS.ptr hu hr) h
          | array m y => simp only [hre] at h; exact ih (hS.ptr hu hr) h
          | other => simp only [hre] at h; exact ih (hS.ptr hu hr) h
          | named y => simp only [hre] at h; exact ih (hS.ptr hu hr) h
          | _ => simp only [hre] at h; cases h
        | other => simp only [hr] at h; cases h; exact ⟨t, hu, .kind (.inr (.inl hr))⟩
        | named y => simp only [hr] at h; cases h; exact ⟨t, hu, .kind (.inr (.inr ⟨y, hr⟩))⟩
        | _ => simp only [hr] at h; cases h

/-! ### Types that the encoder accepts have no faults -/

/-- From a type that is looked into to the next. -/
inductive OStep (W : World) : Ty → Ty → Prop
  | slice {u e} : W.resolve u = .slice e → LookedInto W e → OStep W u e
  | array {u n e} : W.resolve u = .array n e → LookedInto W e → OStep W u e
  | mapVal {u k v} : W.resolve u = .map k v → LookedInto W v → OStep W u v
  | ptr {u e} : W.resolve u = .ptr e → LookedInto W e → OStep W u e
  | ptrStruct {u e id} : W.resolve u = .ptr e → W.resolve e = .struct id → OStep W u e
  | ptrMap {u e k v} : W.resolve u = .ptr e → W.resolve e = .map k v → OStep W u e
  | field {u id f} : W.resolve u = .struct id → f ∈ W.fields id → WrittenField W f → ¬ HasString W f → LookedInto W (fieldElem W f.ty) →
      OStep W u (fieldElem W f.ty)

/-- A chain of types that are looked into, which avoids those in `B`. -/
inductive ViaO (W : World) (B : List Ty) : Ty → Ty → Prop
  | refl {t} : t ∉ B → ViaO W B t t
  | step {t t' t''} : t ∉ B → OStep W t t' → ViaO W B t' t'' → ViaO W B t t''

theorem ViaO.start {W : World} {B : List Ty} {u t : Ty} (h : ViaO W B u t) : u ∉ B := by cases h <;> assumption

theorem ViaO.weaken {W : World} {B B' : List Ty} {u t : Ty} (hB : B' ⊆ B) (h : ViaO W B u t) : ViaO W B' u t := by
  induction h with
  | refl h => exact .refl fun hh => h (hB hh)
  | step h h1 _ ih => exact .step (fun hh => h (hB hh)) h1 ih

theorem ViaO.snoc {W : World} {a b c : Ty} (h : ViaO W [] a b) (hn : OStep W b c) : ViaO W [] a c := by
  induction h with
  | refl h => exact .step h hn (.refl (by simp))
  | step h1 h2 _ ih => exact .step h1 h2 (ih hn)

theorem viaO_cut {W : World} {B : List Ty} (t : Ty) {u t' : Ty} (hv : ViaO W B u t') :
    ViaO W (t :: B) u t' ∨ t' = t ∨ ∃ t1, OStep W t t1 ∧ ViaO W (t :: B) t1 t' := by
  induction hv with
  | @refl u hu =>
    by_cases h : u = t
    · exact .inr (.inl h)
    · exact .inl (.refl (by simp [h, hu]))
  | @step u u' t' hu hn _ ih =>
    rcases ih with ih | ih
    · by_cases h : u = t
      · subst h; exact .inr (.inr ⟨_, hn, ih⟩)
      · exact .inl (.step (by simp [h, hu]) hn ih)
    · exact .inr ih

theorem viaO_split {W : World} {B B1 : List Ty} {u t' : Ty} (hv : ViaO W B u t') : ViaO W B1 u t' ∨ ∃ w ∈ B1, ViaO W B w t' := by
  induction hv with
  | @refl u hu =>
    by_cases h : u ∈ B1
    · exact .inr ⟨u, h, .refl hu⟩
    · exact .inl (.refl h)
  | @step u u' t' hu hn hv ih =>
    by_cases h : u ∈ B1
    · exact .inr ⟨u, h, .step hu hn hv⟩
    · rcases ih with ih | ih
      · exact .inl (.step h hn ih)
      · exact .inr ih

theorem opens_via {W : World} {t u : Ty} (h : EncOpens W t u) : ViaO W [] t u ∧ LookedInto W t := by
  induction h with
  | self h => exact ⟨.refl (by simp), h⟩
  | slice _ h1 h2 ih => exact ⟨ih.1.snoc (.slice h1 h2), ih.2⟩
  | array _ h1 h2 ih => exact ⟨ih.1.snoc (.array h1 h2), ih.2⟩
  | mapVal _ h1 h2 ih => exact ⟨ih.1.snoc (.mapVal h1 h2), ih.2⟩
  | ptr _ h1 h2 ih => exact ⟨ih.1.snoc (.ptr h1 h2), ih.2⟩
  | ptrStruct _ h1 h2 ih => exact ⟨ih.1.snoc (.ptrStruct h1 h2), ih.2⟩
  | ptrMap _ h1 h2 ih => exact ⟨ih.1.snoc (.ptrMap h1 h2), ih.2⟩
  | @field u id f _ h1 h2 h3 h4 h5 h6 ih =>
    rcases fieldElem_cases (W := W) f.ty with ⟨e, he, h⟩ | ⟨he, h⟩
    · exact absurd he (h5 e)
    · have := ih.1.snoc (.field h1 h2 h3 h4 (by rw [h]; exact h6))
      rw [h] at this
      exact ⟨this, ih.2⟩
  | @fieldPtr u id f e _ h1 h2 h3 h4 h5 h6 ih =>
    have h : fieldElem W f.ty = e := by simp [fieldElem, h5]
    have := ih.1.snoc (.field h1 h2 h3 h4 (by rw [h]; exact h6))
    rw [h] at this
    exact ⟨this, ih.2⟩

def Faultless (W : World) (t : Ty) : Prop := ∀ x, ¬ EncFault W t x

/-- Nothing that the types `P` and those in `B'` lead to without passing through `B` has a fault. -/
def Searched (W : World) (B B' : List Ty) (P : Ty → Prop) : Prop := ∀ u, P u ∨ u ∈ B' → ∀ t', ViaO W B u t' → Faultless W t'

theorem searched_leaf {W : World} {B : List Ty} {P : Ty → Prop} (h : ∀ u, P u → (∀ t1, ¬ OStep W u t1) ∧ Faultless W u) : Searched W B B P := by
  rintro u (hu | hu) t' hv
  · cases hv with
    | refl => exact (h u hu).2
    | step _ h1 _ => exact absurd h1 ((h u hu).1 _)
  · exact absurd hu hv.start

theorem searched_seen {W : World} {B : List Ty} {P : Ty → Prop} (h : ∀ u, P u → u ∈ B) : Searched W B B P := by
  rintro u (hu | hu) t' hv
  · exact absurd (h u hu) hv.start
  · exact absurd hu hv.start

theorem searched_enter {W : World} {B B' : List Ty} {t : Ty} (hc : Faultless W t) (h : Searched W (t :: B) B' (OStep W t)) : Searched W B B' (· = t) := by
  intro u hu t' hv
  rcases viaO_cut t hv with h1 | rfl | ⟨t1, h1, h2⟩
  · rcases hu with rfl | hu
    · exact absurd List.mem_cons_self h1.start
    · exact h u (.inr hu) t' h1
  · exact hc
  · exact h t1 (.inl h1) t' h2

theorem searched_through {W : World} {B B' : List Ty} {t : Ty} (hc : Faultless W t) (h : Searched W B B' (OStep W t)) : Searched W B B' (· = t) := by
  rintro u (rfl | hu) t' hv
  · cases hv with
    | refl => exact hc
    | step _ h1 h2 => exact h _ (.inl h1) _ h2
  · exact h u (.inr hu) t' hv

theorem Searched.imp {W : World} {B B' : List Ty} {P Q : Ty → Prop} (h : Searched W B B' P) (hPQ : ∀ u, Q u → P u) : Searched W B B' Q :=
  fun u hu => h u (hu.imp (hPQ u) id)

/-- One call after the other. -/
theorem Searched.seq {W : World} {B B1 B2 : List Ty} {P Q : Ty → Prop} (h1 : Searched W B B1 P) (h2 : Searched W B1 B2 Q) :
    Searched W B B2 (fun u => P u ∨ Q u) := by
  intro u hu t' hv
  have main : ViaO W B1 u t' ∨ (∃ w ∈ B1, ViaO W B w t') → (Q u ∨ u ∈ B2) → Faultless W t' := by
    rintro (h | ⟨w, hw, h⟩) hu
    · exact h2 u hu t' h
    · exact h1 w (.inr hw) t' h
  rcases hu with (hu | hu) | hu
  · exact h1 u (.inl hu) t' hv
  · exact main (viaO_split hv) (.inl hu)
  · exact main (viaO_split hv) (.inr hu)

theorem compileEFields_searched {W : World} {r : List Ty → Ty → Res (List Ty)}
    (ih : ∀ {s s' t}, r s t = .ok s' → Searched W s s' (fun u => u = t ∧ LookedInto W t))
    {fs : List Field} {s s' : List Ty} (h : compileEFields W r s fs = .ok s') :
    (∀ f ∈ fs, WrittenField W f → (W.isPtr f.ty && W.isPtr (fieldElem W f.ty)) = false ∧ (f.anon && W.isStruct f.ty) = false ∧
      (HasString W f → EncStringKind W (fieldElem W f.ty))) ∧
    Searched W s s' (fun u => ∃ f ∈ fs, WrittenField W f ∧ ¬ HasString W f ∧ u = fieldElem W f.ty ∧ LookedInto W u) := by
  induction fs generalizing s with
  | nil =>
    cases h
    exact ⟨by simp, searched_leaf fun u ⟨f, hf, _⟩ => by cases hf⟩
  | cons f fs ihf =>
    unfold compileEFields at h
    simp only [] at h
    split at h
    · rename_i hw
      obtain ⟨h1, h2⟩ := ihf h
      have hw : ¬ WrittenField W f := fun hh => by rw [written_iff.1 hh] at hw; cases hw
      refine ⟨fun g hg hgw => ?_, h2.imp fun u => ?_⟩
      · rcases List.mem_cons.1 hg with rfl | hg
        · exact absurd hgw hw
        · exact h1 g hg hgw
      · rintro ⟨g, hg, hgw, hx⟩
        rcases List.mem_cons.1 hg with rfl | hg
        · exact absurd hgw hw
        · exact ⟨g, hg, hgw, hx⟩
    · split at h
      · cases h
      · rename_i hp
        split at h
        · cases h
        · rename_i ha
          split at h
          · rename_i hs
            split at h
            · rename_i ho
              obtain ⟨h1, h2⟩ := ihf h
              refine ⟨fun g hg hgw => ?_, h2.imp fun u => ?_⟩
              · rcases List.mem_cons.1 hg with rfl | hg
                · exact ⟨by simpa using hp, by simpa using ha, fun _ => asStringOk_iff.1 ho⟩
                · exact h1 g hg hgw
              · rintro ⟨g, hg, hgw, hx, hy⟩
                rcases List.mem_cons.1 hg with rfl | hg
                · exact absurd (hasString_iff.2 hs) hx
                · exact ⟨g, hg, hgw, hx, hy⟩
            · cases h
          · rename_i hs
            obtain ⟨s1, h0, h⟩ := Res.bind_eq_ok.1 h
            obtain ⟨h1, h2⟩ := ihf h
            refine ⟨fun g hg hgw => ?_, ((ih h0).seq h2).imp fun u => ?_⟩
            · rcases List.mem_cons.1 hg with rfl | hg
              · exact ⟨by simpa using hp, by simpa using ha, fun hh => absurd (hasString_iff.1 hh) hs⟩
              · exact h1 g hg hgw
            · rintro ⟨g, hg, hgw, hx, hy, hz⟩
              rcases List.mem_cons.1 hg with rfl | hg
              · exact .inl ⟨hy, hy ▸ hz⟩
              · exact .inr ⟨g, hg, hgw, hx, hy, hz⟩

theorem compileEStruct_searched {W : World} {r : List Ty → Ty → Res (List Ty)}
    (ih : ∀ {s s' t}, r s t = .ok s' → Searched W s s' (fun u => u = t ∧ LookedInto W t)) {t : Ty} {id : Nat} (hr : W.resolve t = .struct id)
    {s s' : List Ty} (h : compileEStruct W r s t (W.fields id) = .ok s') : Searched W s s' (· = t) := by
  unfold compileEStruct at h
  split at h
  · rename_i hc
    cases h
    exact searched_seen (by rintro u rfl; simpa using hc)
  · obtain ⟨h1, h2⟩ := compileEFields_searched ih h
    refine searched_enter (fun x hx => ?_) (h2.imp fun u hu => ?_)
    · cases hx with
      | kind hk => simp [hr] at hk
      | key hk => rw [hr] at hk; cases hk
      | ptr hk => rw [hr] at hk; cases hk
      | @fieldPtr id' f e y hk hf hw he hy =>
        rw [hr] at hk; cases hk
        have := (h1 f hf hw).1
        rw [show fieldElem W f.ty = e by simp [fieldElem, he], isPtr_iff.2 ⟨e, he⟩, isPtr_iff.2 ⟨y, hy⟩] at this
        cases this
      | @embedded id' f id2 hk hf hw ha hs =>
        rw [hr] at hk; cases hk
        have := (h1 f hf hw).2.1
        rw [ha, isStruct_iff.2 ⟨id2, hs⟩] at this
        cases this
      | @string id' f hk hf hw hs hp hn =>
        rw [hr] at hk; cases hk
        have := (h1 f hf hw).2.2 hs
        rcases fieldElem_cases (W := W) f.ty with ⟨e, he, -⟩ | ⟨-, he⟩
        · exact hp e he
        · rw [he] at this; exact hn this
      | @stringPtr id' f e hk hf hw hs hp hn =>
        rw [hr] at hk; cases hk
        have := (h1 f hf hw).2.2 hs
        rw [show fieldElem W f.ty = e by simp [fieldElem, hp]] at this
        exact hn this
    · cases hu with
      | @field id' f hk hf hw hs hl => rw [hr] at hk; cases hk; exact ⟨f, hf, hw, hs, rfl, hl⟩
      | slice hk => rw [hr] at hk; cases hk
      | array hk => rw [hr] at hk; cases hk
      | mapVal hk => rw [hr] at hk; cases hk
      | ptr hk => rw [hr] at hk; cases hk
      | ptrStruct hk => rw [hr] at hk; cases hk
      | ptrMap hk => rw [hr] at hk; cases hk

theorem compileEMap_searched {W : World} {r : List Ty → Ty → Res (List Ty)}
    (ih : ∀ {s s' t}, r s t = .ok s' → Searched W s s' (fun u => u = t ∧ LookedInto W t)) {t k v : Ty} (hr : W.resolve t = .map k v)
    {s s' : List Ty} (h : compileEMap W r s t k v = .ok s') : Searched W s s' (· = t) := by
  unfold compileEMap at h
  split at h
  · rename_i hc
    cases h
    exact searched_seen (by rintro u rfl; simpa using hc)
  · split at h
    · cases h
    · rename_i hk
      have hk : W.mapKeyOk k = true := by simpa using hk
      refine searched_enter (fun x hx => ?_) ((ih h).imp fun u hu => ?_)
      · cases hx with
        | kind hh => simp [hr] at hh
        | key hh hn => rw [hr] at hh; cases hh; exact hn (encKeyKind_iff.1 hk)
        | ptr hh => rw [hr] at hh; cases hh
        | fieldPtr hh => rw [hr] at hh; cases hh
        | embedded hh => rw [hr] at hh; cases hh
        | string hh => rw [hr] at hh; cases hh
        | stringPtr hh => rw [hr] at hh; cases hh
      · cases hu with
        | mapVal hh hl => rw [hr] at hh; cases hh; exact ⟨rfl, hl⟩
        | slice hk => rw [hr] at hk; cases hk
        | array hk => rw [hr] at hk; cases hk
        | ptr hk => rw [hr] at hk; cases hk
        | ptrStruct hk => rw [hr] at hk; cases hk
        | ptrMap hk => rw [hr] at hk; cases hk
        | field hk => rw [hr] at hk; cases hk

theorem ostep_ptr {W : World} {t e u : Ty} (hr : W.resolve t = .ptr e) (h : OStep W t u) :
    u = e ∧ (LookedInto W e ∨ (∃ id, W.resolve e = .struct id) ∨ ∃ k v, W.resolve e = .map k v) := by
  cases h with
  | ptr hh hl => rw [hr] at hh; cases hh; exact ⟨rfl, .inl hl⟩
  | ptrStruct hh hl => rw [hr] at hh; cases hh; exact ⟨rfl, .inr (.inl ⟨_, hl⟩)⟩
  | ptrMap hh hl => rw [hr] at hh; cases hh; exact ⟨rfl, .inr (.inr ⟨_, _, hl⟩)⟩
  | slice hk => rw [hr] at hk; cases hk
  | array hk => rw [hr] at hk; cases hk
  | mapVal hk => rw [hr] at hk; cases hk
  | field hk => rw [hr] at hk; cases hk

/-- Kinds that lead nowhere and have no faults. -/
theorem plain_kind {W : World} {t : Ty} (h : (match W.resolve t with
    | .bool | .int _ | .f32 | .f64 | .str | .any | .iface _ => true | .uint k => decide (k ≠ .uptr) | _ => false) = true) :
    (∀ u, ¬ OStep W t u) ∧ Faultless W t := by
  refine ⟨fun u hu => ?_, fun x hx => ?_⟩
  · cases hu <;> simp_all
  · cases hx <;> simp_all
    all_goals (rename_i hk; rcases hk with hk | hk | ⟨n, hk⟩ <;> simp_all)

theorem compileE_searched {W : World} {f : Nat} {s s' : List Ty} {t : Ty} (h : compileE W f s t = .ok s') :
    Searched W s s' (fun u => u = t ∧ LookedInto W t) := by
  induction f generalizing s s' t with
  | zero => cases h
  | succ f ih =>
    have leaf : (LookedInto W t → (∀ u, ¬ OStep W t u) ∧ Faultless W t) → Res.ok s = Res.ok s' → Searched W s s' (fun u => u = t ∧ LookedInto W t) :=
      fun h1 h => by cases h; exact searched_leaf fun u hu => hu.1 ▸ h1 hu.2
    unfold compileE at h
    split at h
    · rename_i hm
      exact leaf (fun hl => by rw [hl.1] at hm; cases hm) h
    · split at h
      · rename_i hb
        exact leaf (fun hl => absurd hb hl.2) h
      · have only : ∀ {P : Ty → Prop}, Searched W s s' P → P t → Searched W s s' (fun u => u = t ∧ LookedInto W t) :=
          fun h1 h2 => h1.imp fun u hu => hu.1 ▸ h2
        cases hr : W.resolve t with
        | uint k =>
          rw [hr] at h
          simp only [] at h
          split at h
          · cases h
          · rename_i hk; exact leaf (fun _ => plain_kind (by simp [hr, hk])) h
        | struct id => rw [hr] at h; exact only (compileEStruct_searched ih hr h) rfl
        | map k v => rw [hr] at h; exact only (compileEMap_searched ih hr h) rfl
        | array n e =>
          rw [hr] at h
          obtain ⟨s1, h1, h2⟩ := Res.bind_eq_ok.1 h
          cases h2
          have c1 := ih h1
          refine only (searched_through (t := t) (fun x hx => by cases hx <;> simp_all) ?_) rfl
          rintro u (hu | hu) t' hv
          · have : u = e ∧ LookedInto W e := by cases hu <;> simp_all
            exact c1 u (.inl this) t' (hv.weaken (by simp))
          · exact absurd hu hv.start
        | slice e =>
          rw [hr] at h
          simp only [compileESlice] at h
          split at h
          · rename_i hc; cases h; exact searched_seen (by rintro u ⟨rfl, -⟩; simpa using hc)
          · exact only (searched_enter (t := t) (fun x hx => by cases hx <;> simp_all) ((ih h).imp fun u hu => by cases hu <;> simp_all)) rfl
        | ptr e =>
          rw [hr] at h
          simp only [compileEPtr] at h
          have self : (∀ x, W.resolve e ≠ .ptr x) → Faultless W t := fun hp x hx => by
            cases hx with
            | ptr hk hy => rw [hr] at hk; cases hk; exact hp _ hy
            | kind hk => simp [hr] at hk
            | key hk => rw [hr] at hk; cases hk
            | fieldPtr hk => rw [hr] at hk; cases hk
            | embedded hk => rw [hr] at hk; cases hk
            | string hk => rw [hr] at hk; cases hk
            | stringPtr hk => rw [hr] at hk; cases hk
          have go : (∀ x, W.resolve e ≠ .ptr x) → (∀ id, W.resolve e ≠ .struct id) → (∀ k v, W.resolve e ≠ .map k v) →
              Searched W s s' (fun u => u = e ∧ LookedInto W e) → Searched W s s' (fun u => u = t ∧ LookedInto W t) := fun h1 h2 h3 h4 =>
            only (searched_through (t := t) (self h1) (h4.imp fun u hu => by
              obtain ⟨rfl, hl | ⟨id, hl⟩ | ⟨k, v, hl⟩⟩ := ostep_ptr hr hu
              · exact ⟨rfl, hl⟩
              · exact absurd hl (h2 id)
              · exact absurd hl (h3 k v))) rfl
          cases hre : W.resolve e with
          | ptr x => rw [hre] at h; cases h
          | uint k =>
            rw [hre] at h
            simp only [] at h
            split at h
            · exact go (by simp [hre]) (by simp [hre]) (by simp [hre]) (ih h)
            · rename_i hk
              cases h
              exact go (by simp [hre]) (by simp [hre]) (by simp [hre]) (searched_leaf fun u hu => hu.1 ▸ plain_kind (by simp [hre, hk]))
          | struct id =>
            rw [hre] at h
            exact only (searched_through (t := t) (self (by simp [hre])) ((compileEStruct_searched ih hre h).imp fun u hu => (ostep_ptr hr hu).1)) rfl
          | map k v =>
            rw [hre] at h
            exact only (searched_through (t := t) (self (by simp [hre])) ((compileEMap_searched ih hre h).imp fun u hu => (ostep_ptr hr hu).1)) rfl
          | slice x => rw [hre] at h; exact go (by simp [hre]) (by simp [hre]) (by simp [hre]) (ih h)
          | array m x => rw [hre] at h; exact go (by simp [hre]) (by simp [hre]) (by simp [hre]) (ih h)
          | other => rw [hre] at h; exact go (by simp [hre]) (by simp [hre]) (by simp [hre]) (ih h)
          | named x => rw [hre] at h; exact go (by simp [hre]) (by simp [hre]) (by simp [hre]) (ih h)
          | _ =>
            rw [hre] at h
            cases h
            exact go (by simp [hre]) (by simp [hre]) (by simp [hre]) (searched_leaf fun u hu => hu.1 ▸ plain_kind (by simp [hre]))
        | other => rw [hr] at h; cases h
        | named x => rw [hr] at h; cases h
        | _ =>
          rw [hr] at h
          exact leaf (fun _ => plain_kind (by simp [hr])) h

/-- Types that are accepted have no faults. -/
theorem compileE_faultless {W : World} {f : Nat} {s : List Ty} {t u : Ty} (h : compileE W f [] t = .ok s) (hu : EncOpens W t u) : Faultless W u := by
  obtain ⟨h1, h2⟩ := opens_via hu
  exact compileE_searched h t (.inl ⟨rfl, h2⟩) u h1

/-! ### Decoder -/

/-- What an error is about, where `G` are the types that are prepared. -/
def DecBlames (W : World) (G : Ty → Prop) (x : TypeErr) : Prop := ∃ u, G u ∧ DecFault W u x

theorem embedded_iff {W : World} {f : Field} : embedded W f = true ↔
    f.anon = true ∧ ∃ id, W.resolve f.ty = .struct id ∨ ∃ e, W.resolve f.ty = .ptr e ∧ W.resolve e = .struct id := by
  unfold embedded
  rw [Bool.and_eq_true]
  refine and_congr_right fun _ => ?_
  cases hr : W.resolve f.ty with
  | ptr e => simp only []; cases hre : W.resolve e <;> simp [hre]
  | _ => simp

theorem fieldSets_field {W : World} {fs : List Field} {n j : Nat} {k : Bytes} (h : ((fieldSets W n fs).map (·.key))[j]? = some k) :
    ∃ (i : Nat) (f : Field), fs[i]? = some f ∧ Visible f ∧ HasKey W f k ∧ ((fieldSets W n fs)[j]?.map (·.idx)) = some (n + i) := by
  induction fs generalizing n j with
  | nil => simp [fieldSets] at h
  | cons f fs ih =>
    unfold fieldSets at h ⊢
    split at h
    · rename_i hi
      obtain ⟨i, g, h1, h2, h3, h4⟩ := ih h
      exact ⟨i + 1, g, by simpa using h1, h2, h3, by rw [if_pos hi, h4]; congr 1; omega⟩
    · rename_i hi
      rw [if_neg hi]
      cases j with
      | zero =>
        simp only [List.map_cons, List.getElem?_cons_zero, Option.some.injEq] at h
        exact ⟨0, f, rfl, visible_iff.2 (by simpa using hi), hasKey_iff.2 h, by simp⟩
      | succ j =>
        obtain ⟨i, g, h1, h2, h3, h4⟩ := ih (n := n + 1) (j := j) (by simpa using h)
        exact ⟨i + 1, g, by simpa using h1, h2, h3, by simpa [Nat.add_assoc, Nat.add_comm 1 i] using h4⟩

theorem fieldSets_sorted {W : World} {fs : List Field} {n : Nat} : (fieldSets W n fs).Pairwise (fun a b => a.idx < b.idx) ∧ ∀ a ∈ fieldSets W n fs, n ≤ a.idx := by
  induction fs generalizing n with
  | nil => simp [fieldSets]
  | cons f fs ih =>
    obtain ⟨h1, h2⟩ := ih (n := n + 1)
    unfold fieldSets
    split
    · exact ⟨h1, fun a ha => by have := h2 a ha; omega⟩
    · refine ⟨List.pairwise_cons.2 ⟨fun a ha => ?_, h1⟩, fun a ha => ?_⟩
      · have := h2 a ha; show n < a.idx; omega
      · rcases List.mem_cons.1 ha with rfl | ha
        · exact Nat.le_refl _
        · have := h2 a ha; omega

theorem prepDFields_blames {W : World} {G : Ty → Prop} {r : Ty → Prep Unit} {u : Ty} {id : Nat} (hG : G u) (hu : Plain W u (.struct id))
    (hr : ∀ f x, f ∈ W.fields id → Visible f → r f.ty = .err x → DecBlames W G x)
    {fs : List Field} (hfs : fs ⊆ W.fields id) {x : TypeErr} (h : prepDFields W r fs = .err x) : DecBlames W G x := by
  induction fs with
  | nil => cases h
  | cons f fs ih =>
    have hf : f ∈ W.fields id := hfs List.mem_cons_self
    have hfs' : fs ⊆ W.fields id := fun g hg => hfs (List.mem_cons_of_mem _ hg)
    unfold prepDFields at h
    split at h
    · exact ih hfs' h
    · rename_i hi
      have hv : Visible f := visible_iff.2 (by simpa using hi)
      split at h
      · rename_i he
        cases h
        obtain ⟨ha, id', h1⟩ := embedded_iff.1 he
        exact ⟨u, hG, .embedded hu hf hv ha h1⟩
      · rcases Prep.andThen_err.1 h with h | ⟨_, -, h⟩
        · exact hr f x hf hv h
        · split at h
          · rename_i hw
            cases h
            simp only [Bool.and_eq_true, Bool.not_eq_true'] at hw
            obtain ⟨⟨h1, h2⟩, h3⟩ := hw
            have h1 := hasString_iff.2 h1
            have h2 : ¬ StringIgnored W f.ty := fun hh => by rw [stringTagOk_iff.2 hh] at h2; cases h2
            have h3 : ¬ (IsScalar W f.ty ∨ ∃ e, Plain W f.ty (.ptr e) ∧ IsScalar W e) := fun hh => by rw [canWrap_of_scalar hh] at h3; cases h3
            have hm : W.unmOf f.ty = none := by
              cases hm : W.unmOf f.ty with
              | none => rfl
              | some y => exact absurd (.inl (by simp [hm])) h2
            refine ⟨u, hG, ?_⟩
            unfold wrapType
            rw [hm]
            cases hr : W.resolve f.ty with
            | ptr e => exact .stringPtr hu hf hv h1 ⟨hm, hr⟩ fun hh => h3 (.inr ⟨e, ⟨hm, hr⟩, hh⟩)
            | _ => exact .string hu hf hv h1 h2 (fun hh => h3 (.inl hh)) (by simp [hr])
          · exact ih hfs' h

theorem prepD_blames {W : World} {G : Ty → Prop} (hS : ∀ {u e}, G u → Needs W u e → G e) {f : Nat} {B : List Ty} {t : Ty} {x : TypeErr} (hG : G t)
    (h : prepD W f B t = .err x) : DecBlames W G x := by
  induction f generalizing B t x with
  | zero => cases h
  | succ f ih =>
    unfold prepD at h
    cases hu : W.unmOf t with
    | some id => simp only [hu] at h; cases h
    | none =>
      cases hr : W.resolve t with
      | ptr e =>
        simp only [hu, hr] at h
        rcases Prep.andThen_err.1 h with h | ⟨_, -, h⟩
        · exact ih (hS hG (.ptr ⟨hu, hr⟩)) h
        · split at h
          · rename_i hp
            cases h
            obtain ⟨y, hy⟩ := isPtr_iff.1 hp
            exact ⟨t, hG, .ptr ⟨hu, hr⟩ hy⟩
          · cases h
      | struct id =>
        simp only [hu, hr] at h
        split at h
        · cases h
        · rcases Prep.andThen_err.1 h with h | ⟨_, -, h⟩
          · exact prepDFields_blames hG ⟨hu, hr⟩ (fun g y hg hv hy => ih (hS hG (.field ⟨hu, hr⟩ hg hv)) hy) (fun _ h => h) h
          · split at h
            · rename_i k hk
              cases h
              obtain ⟨j, h1, h2⟩ := firstDup_some hk
              rcases h2 with h2 | ⟨i, hij, h2⟩
              · cases h2
              · obtain ⟨i', a, a1, a2, a3, a4⟩ := fieldSets_field h2
                obtain ⟨j', b, b1, b2, b3, b4⟩ := fieldSets_field h1
                obtain ⟨x1, x2, x3⟩ := Option.map_eq_some_iff.1 a4
                obtain ⟨y1, y2, y3⟩ := Option.map_eq_some_iff.1 b4
                have hlt : x1.idx < y1.idx := by
                  have hp := List.pairwise_iff_getElem.1 (fieldSets_sorted (W := W) (fs := W.fields id) (n := 0)).1
                  obtain ⟨l1, e1⟩ := List.getElem?_eq_some_iff.1 x2
                  obtain ⟨l2, e2⟩ := List.getElem?_eq_some_iff.1 y2
                  have := hp i j l1 l2 hij
                  rw [e1, e2] at this
                  exact this
                exact ⟨t, hG, .keys ⟨hu, hr⟩ (by omega) a1 b1 a2 b2 a3 b3⟩
            · cases h
      | slice e =>
        simp only [hu, hr] at h
        split at h
        · cases h
        · exact ih (hS hG (.slice ⟨hu, hr⟩)) h
      | array n e => simp only [hu, hr] at h; exact ih (hS hG (.array ⟨hu, hr⟩)) h
      | map k v =>
        simp only [hu, hr] at h
        rcases Prep.andThen_err.1 h with h | ⟨_, -, h⟩
        · split at h
          · cases h
          · cases h
          · exact ih (hS hG (.mapKey ⟨hu, hr⟩)) h
        · exact ih (hS hG (.mapVal ⟨hu, hr⟩)) h
      | _ => simp only [hu, hr] at h; cases h

/-- A type that meets the rules has no fault. -/
theorem prepared_faultless {W : World} {t : Ty} (h : Prepared W t) (x : TypeErr) : ¬ DecFault W t x := by
  intro hx
  cases hx with
  | @ptr e y hp hy => have := h.ptr e hp; rw [isPtr_iff.2 ⟨y, hy⟩] at this; cases this
  | @embedded id f id' hp hf hv ha hs =>
    rcases hs with hs | ⟨e, he, hs⟩
    · exact (h.anon id hp f hf hv ha id').1 hs
    · exact (h.anon id hp f hf hv ha id').2 e he hs
  | @string id f hp hf hv hs hi hn hq =>
    rcases h.str id hp f hf hv hs with h1 | h1 | ⟨e, h1, -⟩
    · exact hi h1
    · exact hn h1
    · exact hq e h1.2
  | @stringPtr id f e hp hf hv hs hq hn =>
    rcases h.str id hp f hf hv hs with h1 | h1 | ⟨e', h1, h2⟩
    · rcases h1 with h1 | ⟨_, h1⟩ | ⟨_, _, h1⟩ | ⟨_, _, h1⟩ | ⟨_, h1⟩ | h1 | ⟨_, h1⟩
      · exact h1 hq.1
      all_goals (rw [hq.2] at h1; cases h1)
    · rcases h1 with h1 | ⟨_, h1⟩ | ⟨_, h1⟩ | h1 | h1 <;> (have := h1.2; rw [hq.2] at this; cases this)
    · have := h1.2; rw [hq.2] at this; cases this; exact hn h2
  | keys hp hij h1 h2 v1 v2 k1 k2 => have := h.keys _ hp _ _ _ _ _ h1 h2 v1 v2 k1 k2; omega

end Verif

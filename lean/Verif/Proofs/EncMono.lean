import Verif.Proofs.EncComplete
/-
The outcome of the encoder model does not depend on the fuel, once there is enough.
-/
namespace Verif
open Spec

/-- `r` is unfinished or equal to `r'`. -/
def RLe {α : Type} (r r' : Res α) : Prop := r = .diverge ∨ r = r'

/-- `r` is unfinished or equal to `r'`. -/
def ELe {α : Type} (r r' : ER α) : Prop := (∃ c, r = (c, .diverge)) ∨ r = r'

theorem RLe.refl {α : Type} (r : Res α) : RLe r r := .inr rfl
theorem ELe.refl {α : Type} (r : ER α) : ELe r r := .inr rfl

theorem RLe.bind {α β : Type} {r r' : Res α} {k k' : α → Res β} (h : RLe r r') (hk : ∀ a, RLe (k a) (k' a)) : RLe (r >>= k) (r' >>= k') := by
  rcases h with rfl | rfl
  · exact .inl rfl
  · cases r with
    | ok a => exact hk a
    | err e => exact .inr rfl
    | panic p => exact .inr rfl
    | diverge => exact .inr rfl

theorem ELe.andThen {α β : Type} {r r' : ER α} {k k' : Ctx → α → ER β} (h : ELe r r') (hk : ∀ c a, ELe (k c a) (k' c a)) :
    ELe (andThen r k) (andThen r' k') := by
  rcases h with ⟨c, rfl⟩ | rfl
  · exact .inl ⟨c, rfl⟩
  · obtain ⟨c, r⟩ := r
    cases r with
    | ok a => exact hk c a
    | err e => exact .inr rfl
    | panic p => exact .inr rfl
    | diverge => exact .inr rfl

theorem ELe.ofRes {α : Type} {c : Ctx} {r r' : Res α} (h : RLe r r') : ELe (c, r) (c, r') := by
  rcases h with rfl | rfl
  · exact .inl ⟨c, rfl⟩
  · exact .inr rfl

/-- Encoders in order. -/
def EncLe (e e' : Ctx → Bytes → GV → ER Bytes) : Prop := ∀ c b v, ELe (e c b v) (e' c b v)

theorem checkRecursive_le {e e' : Ctx → Bytes → ER Bytes} (h : ∀ c b, ELe (e c b) (e' c b)) (a : Nat) (c : Ctx) (b : Bytes) :
    ELe (checkRecursive e a c b) (checkRecursive e' a c b) := by
  unfold checkRecursive
  simp only []
  split
  · exact .refl _
  · generalize (⟨if decide (c.depth + 1 > 1000) = true then a :: c.seen else c.seen, c.depth + 1⟩ : Ctx) = c1
    rcases h c1 b with ⟨c', hd⟩ | hd
    · left; exact ⟨c', by rw [hd]⟩
    · rw [hd]; exact .refl _

theorem reflectRecursive_le {e e' : Ctx → Bytes → ER Bytes} (h : ∀ c b, ELe (e c b) (e' c b)) (a : Nat) (c : Ctx) (b : Bytes) :
    ELe (reflectRecursive e a c b) (reflectRecursive e' a c b) := by
  unfold reflectRecursive
  split
  · exact .refl _
  · rcases h { c with seen := a :: c.seen } b with ⟨c', hd⟩ | hd
    · left; exact ⟨c', by rw [hd]⟩
    · rw [hd]; exact .refl _

theorem deRefNil_le {h : Heap} {t : Ty} {e e' : Ctx → Bytes → GV → ER Bytes} (he : EncLe e e') : EncLe (deRefNil h t e) (deRefNil h t e') := by
  intro c b v
  cases v <;> first | exact .refl _ | exact he _ _ _

theorem checkStruct_le {h : Heap} {t : Ty} {e e' : Ctx → Bytes → GV → ER Bytes} (he : EncLe e e') : EncLe (checkStruct h t e) (checkStruct h t e') := by
  intro c b v
  cases v <;> first | exact .refl _ | exact checkRecursive_le (fun c b => he c b _) _ _ _

theorem elemsLoop_le {e e' : Nat → Ctx → Bytes → GV → ER Bytes} (he : ∀ i, EncLe (e i) (e' i)) (i : Nat) (vs : List GV) (c : Ctx) (b : Bytes) :
    ELe (elemsLoop e i vs c b) (elemsLoop e' i vs c b) := by
  induction vs generalizing i c b with
  | nil => exact .refl _
  | cons v vs ih => exact ELe.andThen (he _ _ _ _) (fun c b => ih _ _ _)

theorem encodeElems_le {e e' : Nat → Ctx → Bytes → GV → ER Bytes} (he : ∀ i, EncLe (e i) (e' i)) (vs : List GV) (c : Ctx) (b : Bytes) :
    ELe (encodeElems e vs c b) (encodeElems e' vs c b) := ELe.andThen (elemsLoop_le he _ _ _ _) (fun _ _ => .refl _)

theorem entriesLoop_le {key : Bytes → GV → Res Bytes} {e e' : Nat → Ctx → Bytes → GV → ER Bytes} (he : ∀ i, EncLe (e i) (e' i)) (i : Nat)
    (es : List (GV × GV)) (c : Ctx) (b : Bytes) : ELe (entriesLoop key e i es c b) (entriesLoop key e' i es c b) := by
  induction es generalizing i c b with
  | nil => exact .refl _
  | cons p es ih => exact ELe.andThen (.refl _) (fun c b => ELe.andThen (he _ _ _ _) (fun c b => ih _ _ _))

theorem encodeEntries_le {key : Bytes → GV → Res Bytes} {e e' : Nat → Ctx → Bytes → GV → ER Bytes} (he : ∀ i, EncLe (e i) (e' i))
    (es : List (GV × GV)) (c : Ctx) (b : Bytes) : ELe (encodeEntries key e es c b) (encodeEntries key e' es c b) :=
  ELe.andThen (entriesLoop_le he _ _ _ _) (fun _ _ => .refl _)

theorem fieldsLoop_le {e e' : EField → Ctx → Bytes → GV → ER Bytes} (he : ∀ fl, EncLe (e fl) (e' fl)) (vs : List GV) (fls : List EField) (c : Ctx) (b : Bytes) (n : Nat) :
    ELe (fieldsLoop e vs fls c b n) (fieldsLoop e' vs fls c b n) := by
  induction fls generalizing c b n with
  | nil => exact .refl _
  | cons fl fls ih =>
    unfold fieldsLoop
    split
    · exact .refl _
    · split
      · exact ih _ _ _
      · exact ELe.andThen (he _ _ _ _) (fun c b => ih _ _ _)

theorem encodeStruct_le {e e' : EField → Ctx → Bytes → GV → ER Bytes} (he : ∀ fl, EncLe (e fl) (e' fl)) (nf : Nat) (fls : List EField) :
    EncLe (encodeStruct e nf fls) (encodeStruct e' nf fls) := by
  intro c b v
  unfold encodeStruct
  split
  · split
    · exact .refl _
    · exact ELe.andThen (fieldsLoop_le he _ _ _ _ _) (fun _ _ => .refl _)
  · exact .refl _

theorem derefAll_le {W : World} {h : Heap} {f g : Nat} (hg : f ≤ g) (t : Ty) (v : GV) : RLe (derefAll W h f t v) (derefAll W h g t v) := by
  induction f generalizing g t v with
  | zero => exact .inl rfl
  | succ f ih =>
    obtain ⟨k, rfl⟩ : ∃ k, g = k + 1 := ⟨g - 1, by omega⟩
    have ih' := fun t v => ih (g := k) (by omega) t v
    unfold derefAll
    split
    · split <;> first | exact .refl _ | exact ih' _ _
    · split <;> first | exact .refl _ | exact ih' _ _
    · split <;> first | exact .refl _ | exact ih' _ _
    · exact .refl _

theorem ifaceAsString_le {W : World} {h : Heap} {f g : Nat} (hg : f ≤ g) (t : Ty) (b : Bytes) (v : GV) :
    RLe (ifaceAsString W h f t b v) (ifaceAsString W h g t b v) := RLe.bind (derefAll_le hg t v) (fun _ => .refl _)

theorem encodeAsString_le {W : World} {h : Heap} {f g : Nat} (hg : f ≤ g) (t : Ty) (b : Bytes) (v : GV) :
    RLe (encodeAsString W h f t b v) (encodeAsString W h g t b v) := by
  unfold encodeAsString
  split <;> first | exact .refl _ | exact ifaceAsString_le hg _ _ _

theorem encodeField_le {W : World} {h : Heap} {f g : Nat} (hg : f ≤ g) {r r' : Ty → Ctx → Bytes → GV → ER Bytes} (hr : ∀ t, EncLe (r t) (r' t)) (fl : EField) :
    EncLe (encodeField W h f r fl) (encodeField W h g r' fl) := by
  intro c b v
  unfold encodeField
  split
  · split
    · exact checkStruct_le (hr _) _ _ _
    · refine deRefNil_le ?_ _ _ _
      split
      · exact fun c b v => ELe.ofRes (encodeAsString_le hg _ _ _)
      · exact hr _
  · split
    · exact ELe.ofRes (encodeAsString_le hg _ _ _)
    · exact hr _ _ _ _

/-! ### Compilation -/

theorem compileEFields_le {W : World} {r r' : List Ty → Ty → Res (List Ty)} (h : ∀ s t, RLe (r s t) (r' s t)) (fs : List Field) (s : List Ty) :
    RLe (compileEFields W r s fs) (compileEFields W r' s fs) := by
  induction fs generalizing s with
  | nil => exact .refl _
  | cons f fs ih =>
    unfold compileEFields
    simp only []
    split
    · exact ih _
    · split
      · exact .refl _
      · split
        · exact .refl _
        · split
          · split
            · exact ih _
            · exact .refl _
          · exact RLe.bind (h _ _) (fun s => ih s)

theorem compileEMap_le {W : World} {r r' : List Ty → Ty → Res (List Ty)} (h : ∀ s t, RLe (r s t) (r' s t)) (s : List Ty) (t k v : Ty) :
    RLe (compileEMap W r s t k v) (compileEMap W r' s t k v) := by
  unfold compileEMap
  split
  · exact .refl _
  · split
    · exact .refl _
    · exact h _ _

theorem compileEStruct_le {W : World} {r r' : List Ty → Ty → Res (List Ty)} (h : ∀ s t, RLe (r s t) (r' s t)) (s : List Ty) (t : Ty) (fs : List Field) :
    RLe (compileEStruct W r s t fs) (compileEStruct W r' s t fs) := by
  unfold compileEStruct
  split
  · exact .refl _
  · exact compileEFields_le h _ _

theorem compileEPtr_le {W : World} {r r' : List Ty → Ty → Res (List Ty)} (h : ∀ s t, RLe (r s t) (r' s t)) (s : List Ty) (e : Ty) :
    RLe (compileEPtr W r s e) (compileEPtr W r' s e) := by
  unfold compileEPtr
  split
  any_goals exact .refl _
  · split
    · exact h _ _
    · exact .refl _
  · exact compileEMap_le h _ _ _ _
  · exact compileEStruct_le h _ _ _
  · exact h _ _

theorem compileE_le {W : World} {f g : Nat} (hg : f ≤ g) (s : List Ty) (t : Ty) : RLe (compileE W f s t) (compileE W g s t) := by
  induction f generalizing g s t with
  | zero => exact .inl rfl
  | succ f ih =>
    obtain ⟨k, rfl⟩ : ∃ k, g = k + 1 := ⟨g - 1, by omega⟩
    have ih' := fun s t => ih (g := k) (by omega) s t
    unfold compileE
    split
    · exact .refl _
    · split
      · exact .refl _
      · split
        any_goals exact .refl _
        · exact compileEStruct_le ih' _ _ _
        · exact RLe.bind (ih' _ _) (fun _ => .refl _)
        · unfold compileESlice
          split
          · exact .refl _
          · exact ih' _ _
        · exact compileEMap_le ih' _ _ _ _
        · exact compileEPtr_le ih' _ _

/-- The outcome of preparing a type does not depend on the fuel, once there is enough. -/
theorem compileE_mono {W : World} {f g : Nat} {s : List Ty} {t : Ty} (h : compileE W f s t ≠ .diverge) (hg : f ≤ g) :
    compileE W g s t = compileE W f s t := by
  rcases compileE_le hg s t with hd | hd
  · exact absurd hd h
  · exact hd.symm

theorem Accepted.mono {W : World} {cf cg : Nat} {t : Ty} (h : Accepted W cf t) (hg : cf ≤ cg) : Accepted W cg t := by
  obtain ⟨s, hs⟩ := h
  exact ⟨s, by rw [compileE_mono (by rw [hs]; simp) hg]; exact hs⟩

/-! ### Encoding -/

/-- Recursive calls in order. -/
structure RecLe (r r' : Rec) : Prop where
  comp : ∀ p t, EncLe (r.comp p t) (r'.comp p t)
  held : ∀ p t, EncLe (r.held p t) (r'.held p t)

theorem encodeKind_le {W : World} {h : Heap} {f g : Nat} (hg : f ≤ g) {r r' : Rec} (hr : RecLe r r') (p : Path) (t : Ty) :
    EncLe (encodeKind W h f r p t) (encodeKind W h g r' p t) := by
  intro c b v
  unfold encodeKind
  split
  · exact .refl _
  · split
    · exact encodeStruct_le (fun fl => encodeField_le hg (fun t => hr.comp _ t) fl) _ _ _ _ _
    · split
      · split
        · exact encodeElems_le (fun i => hr.comp _ _) _ _ _
        · exact .refl _
      · exact .refl _
    · split
      · exact .refl _
      · exact checkRecursive_le (fun c b => encodeElems_le (fun i => hr.comp _ _) _ _ _) _ _ _
      · exact .refl _
    · split
      · exact .refl _
      · exact checkRecursive_le (fun c b => encodeEntries_le (fun i => hr.comp _ _) _ _ _) _ _ _
      · exact .refl _
    · exact hr.held _ _ _ _ _
    · exact hr.held _ _ _ _ _
    · exact .refl _

theorem reflectValue_le {W : World} {h : Heap} {cf cg f g : Nat} (hc : cf ≤ cg) (hg : f ≤ g) {r r' : Rec} (hr : RecLe r r') (p : Path) (t : Ty) :
    EncLe (reflectValue W h cf f r p t) (reflectValue W h cg g r' p t) := by
  intro c b v
  unfold reflectValue
  refine ELe.andThen (ELe.ofRes (derefAll_le hg _ _)) (fun c o => ?_)
  split
  · exact .refl _
  · split
    · exact .refl _
    · split
      · refine reflectRecursive_le (fun c b => ?_) _ _ _
        unfold reflectSlice
        split
        · exact ELe.andThen (ELe.ofRes (compileE_le hc _ _)) (fun _ _ => hr.comp _ _ _ _ _)
        · split
          · exact .refl _
          · exact encodeElems_le (fun i => hr.held _ _) _ _ _
          · exact .refl _
      · refine reflectRecursive_le (fun c b => ?_) _ _ _
        unfold reflectMap
        split
        · exact .refl _
        · split
          · exact .refl _
          · simp only []
            split
            · exact .refl _
            · split
              · exact encodeEntries_le (fun i => hr.held _ _) _ _ _
              · exact ELe.andThen (ELe.ofRes (compileE_le hc _ _)) (fun _ _ => encodeEntries_le (fun i => hr.comp _ _) _ _ _)
          · exact .refl _
      · exact ELe.andThen (ELe.ofRes (compileE_le hc _ _)) (fun _ _ => hr.comp _ _ _ _ _)
      · exact .refl _

theorem encF_le {W : World} {h : Heap} {cf cg : Nat} (hc : cf ≤ cg) {f g : Nat} (hg : f ≤ g) : RecLe (encF W h cf f) (encF W h cg g) := by
  induction f generalizing g with
  | zero => exact ⟨fun _ _ c _ _ => .inl ⟨c, rfl⟩, fun _ _ c _ _ => .inl ⟨c, rfl⟩⟩
  | succ f ih =>
    obtain ⟨k, rfl⟩ : ∃ k, g = k + 1 := ⟨g - 1, by omega⟩
    have hr := ih (g := k) (by omega)
    refine ⟨fun p t c b v => ?_, fun p t c b v => reflectValue_le hc hg hr p t c b v⟩
    have hk := encodeKind_le (W := W) (h := h) (f := f) (g := k) (by omega) hr
    simp only [encF]
    split
    · exact .refl _
    · split
      · exact .refl _
      · split
        · split
          any_goals exact .refl _
          any_goals exact hr.held _ _ _ _ _
          any_goals exact checkStruct_le (hk _ _) _ _ _
          any_goals exact deRefNil_le (hk _ _) _ _ _
          any_goals exact deRefNil_le (hr.comp _ _) _ _ _
        · exact hk _ _ _ _ _

theorem marshal_le {W : World} {h : Heap} {cf cg : Nat} (hc : cf ≤ cg) {f g : Nat} (hg : f ≤ g) (c : Ctx) (x : Option (Ty × GV)) :
    ELe (marshal W h cf f c x) (marshal W h cg g c x) := by
  unfold marshal
  split
  · exact .refl _
  · exact ELe.andThen (ELe.ofRes (compileE_le hc _ _)) (fun _ _ => (encF_le hc hg).comp _ _ _ _ _)

/-- The outcome of `Marshal` does not depend on the fuel, once there is enough. -/
theorem marshal_mono {W : World} {h : Heap} {cf cg f g : Nat} {c c' : Ctx} {x : Option (Ty × GV)} {r : Res Bytes}
    (hm : marshal W h cf f c x = (c', r)) (hr : r ≠ .diverge) (hc : cf ≤ cg) (hg : f ≤ g) : marshal W h cg g c x = (c', r) := by
  rcases marshal_le hc hg c x with ⟨c1, hd⟩ | hd
  · rw [hd] at hm; cases hm; exact absurd rfl hr
  · rw [← hd]; exact hm

end Verif

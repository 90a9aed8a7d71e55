import Verif.Proofs.Marshal
/-
An error returned by a MarshalPHP method is the outcome of the whole call.
-/
namespace Verif
open Spec

variable {x : Err}

/-- `r` is the error `x` or equal to `r'`. -/
def RFl {α : Type} (x : Err) (r r' : Res α) : Prop := r = .err x ∨ r = r'

/-- `r` is the error `x` or equal to `r'`. -/
def EFl {α : Type} (x : Err) (r r' : ER α) : Prop := (∃ c, r = (c, .err x)) ∨ r = r'

theorem RFl.refl {α : Type} (r : Res α) : RFl x r r := .inr rfl
theorem EFl.refl {α : Type} (r : ER α) : EFl x r r := .inr rfl

theorem RFl.bind {α β : Type} {r r' : Res α} {k k' : α → Res β} (h : RFl x r r') (hk : ∀ a, RFl x (k a) (k' a)) : RFl x (r >>= k) (r' >>= k') := by
  rcases h with rfl | rfl
  · exact .inl rfl
  · cases r with
    | ok a => exact hk a
    | err e => exact .inr rfl
    | panic p => exact .inr rfl
    | diverge => exact .inr rfl

theorem EFl.andThen {α β : Type} {r r' : ER α} {k k' : Ctx → α → ER β} (h : EFl x r r') (hk : ∀ c a, EFl x (k c a) (k' c a)) :
    EFl x (andThen r k) (andThen r' k') := by
  rcases h with ⟨c, rfl⟩ | rfl
  · exact .inl ⟨c, rfl⟩
  · obtain ⟨c, r⟩ := r
    cases r with
    | ok a => exact hk c a
    | err e => exact .inr rfl
    | panic p => exact .inr rfl
    | diverge => exact .inr rfl

theorem EFl.ofRes {α : Type} {c : Ctx} {r r' : Res α} (h : RFl x r r') : EFl x (c, r) (c, r') := by
  rcases h with rfl | rfl
  · exact .inl ⟨c, rfl⟩
  · exact .inr rfl

/-- Encoders in order. -/
def EncFl (x : Err) (e e' : Ctx → Bytes → GV → ER Bytes) : Prop := ∀ c b v, EFl x (e c b v) (e' c b v)

theorem checkRecursive_fl {e e' : Ctx → Bytes → ER Bytes} (h : ∀ c b, EFl x (e c b) (e' c b)) (a : Nat) (c : Ctx) (b : Bytes) :
    EFl x (checkRecursive e a c b) (checkRecursive e' a c b) := by
  unfold checkRecursive
  simp only []
  split
  · exact .refl _
  · generalize (⟨if decide (c.depth + 1 > 1000) = true then a :: c.seen else c.seen, c.depth + 1⟩ : Ctx) = c1
    rcases h c1 b with ⟨c', hd⟩ | hd
    · left; rw [hd]; exact ⟨_, rfl⟩
    · rw [hd]; exact .refl _

theorem reflectRecursive_fl {e e' : Ctx → Bytes → ER Bytes} (h : ∀ c b, EFl x (e c b) (e' c b)) (a : Nat) (c : Ctx) (b : Bytes) :
    EFl x (reflectRecursive e a c b) (reflectRecursive e' a c b) := by
  unfold reflectRecursive
  split
  · exact .refl _
  · rcases h { c with seen := a :: c.seen } b with ⟨c', hd⟩ | hd
    · left; rw [hd]; exact ⟨_, rfl⟩
    · rw [hd]; exact .refl _

theorem deRefNil_fl {h : Heap} {t : Ty} {e e' : Ctx → Bytes → GV → ER Bytes} (he : EncFl x e e') : EncFl x (deRefNil h t e) (deRefNil h t e') := by
  intro c b v
  cases v <;> first | exact .refl _ | exact he _ _ _

theorem checkStruct_fl {h : Heap} {t : Ty} {e e' : Ctx → Bytes → GV → ER Bytes} (he : EncFl x e e') : EncFl x (checkStruct h t e) (checkStruct h t e') := by
  intro c b v
  cases v <;> first | exact .refl _ | exact checkRecursive_fl (fun c b => he c b _) _ _ _

theorem elemsLoop_fl {e e' : Nat → Ctx → Bytes → GV → ER Bytes} (he : ∀ i, EncFl x (e i) (e' i)) (i : Nat) (vs : List GV) (c : Ctx) (b : Bytes) :
    EFl x (elemsLoop e i vs c b) (elemsLoop e' i vs c b) := by
  induction vs generalizing i c b with
  | nil => exact .refl _
  | cons v vs ih => exact EFl.andThen (he _ _ _ _) (fun c b => ih _ _ _)

theorem encodeElems_fl {e e' : Nat → Ctx → Bytes → GV → ER Bytes} (he : ∀ i, EncFl x (e i) (e' i)) (vs : List GV) (c : Ctx) (b : Bytes) :
    EFl x (encodeElems e vs c b) (encodeElems e' vs c b) := EFl.andThen (elemsLoop_fl he _ _ _ _) (fun _ _ => .refl _)

theorem entriesLoop_fl {key : Bytes → GV → Res Bytes} {e e' : Nat → Ctx → Bytes → GV → ER Bytes} (he : ∀ i, EncFl x (e i) (e' i)) (i : Nat)
    (es : List (GV × GV)) (c : Ctx) (b : Bytes) : EFl x (entriesLoop key e i es c b) (entriesLoop key e' i es c b) := by
  induction es generalizing i c b with
  | nil => exact .refl _
  | cons p es ih => exact EFl.andThen (.refl _) (fun c b => EFl.andThen (he _ _ _ _) (fun c b => ih _ _ _))

theorem encodeEntries_fl {key : Bytes → GV → Res Bytes} {e e' : Nat → Ctx → Bytes → GV → ER Bytes} (he : ∀ i, EncFl x (e i) (e' i))
    (es : List (GV × GV)) (c : Ctx) (b : Bytes) : EFl x (encodeEntries key e es c b) (encodeEntries key e' es c b) :=
  EFl.andThen (entriesLoop_fl he _ _ _ _) (fun _ _ => .refl _)

theorem fieldsLoop_fl {e e' : EField → Ctx → Bytes → GV → ER Bytes} (he : ∀ fl, EncFl x (e fl) (e' fl)) (vs : List GV) (fls : List EField) (c : Ctx) (b : Bytes) (n : Nat) :
    EFl x (fieldsLoop e vs fls c b n) (fieldsLoop e' vs fls c b n) := by
  induction fls generalizing c b n with
  | nil => exact .refl _
  | cons fl fls ih =>
    unfold fieldsLoop
    split
    · exact .refl _
    · split
      · exact ih _ _ _
      · exact EFl.andThen (he _ _ _ _) (fun c b => ih _ _ _)

theorem encodeStruct_fl {e e' : EField → Ctx → Bytes → GV → ER Bytes} (he : ∀ fl, EncFl x (e fl) (e' fl)) (nf : Nat) (fls : List EField) :
    EncFl x (encodeStruct e nf fls) (encodeStruct e' nf fls) := by
  intro c b v
  unfold encodeStruct
  split
  · split
    · exact .refl _
    · exact EFl.andThen (fieldsLoop_fl he _ _ _ _ _) (fun _ _ => .refl _)
  · exact .refl _

theorem encodeField_fl {W : World} {h : Heap} {f : Nat} {r r' : Ty → Ctx → Bytes → GV → ER Bytes} (hr : ∀ t, EncFl x (r t) (r' t)) (fl : EField) :
    EncFl x (encodeField W h f r fl) (encodeField W h f r' fl) := by
  intro c b v
  unfold encodeField
  split
  · split
    · exact checkStruct_fl (hr _) _ _ _
    · refine deRefNil_fl ?_ _ _ _
      split
      · exact fun c b v => .refl _
      · exact hr _
  · split
    · exact .refl _
    · exact hr _ _ _ _

/-! ### Encoding -/

/-- Recursive calls in order. -/
structure RecFl (x : Err) (r r' : Rec) : Prop where
  comp : ∀ p t, EncFl x (r.comp p t) (r'.comp p t)
  held : ∀ p t, EncFl x (r.held p t) (r'.held p t)

theorem encodeKind_fl {W : World} {h : Heap} {f : Nat} {r r' : Rec} (hr : RecFl x r r') (p : Path) (t : Ty) :
    EncFl x (encodeKind W h f r p t) (encodeKind W h f r' p t) := by
  intro c b v
  unfold encodeKind
  split
  · exact .refl _
  · split
    · exact encodeStruct_fl (fun fl => encodeField_fl (fun t => hr.comp _ t) fl) _ _ _ _ _
    · split
      · split
        · exact encodeElems_fl (fun i => hr.comp _ _) _ _ _
        · exact .refl _
      · exact .refl _
    · split
      · exact .refl _
      · exact checkRecursive_fl (fun c b => encodeElems_fl (fun i => hr.comp _ _) _ _ _) _ _ _
      · exact .refl _
    · split
      · exact .refl _
      · exact checkRecursive_fl (fun c b => encodeEntries_fl (fun i => hr.comp _ _) _ _ _) _ _ _
      · exact .refl _
    · exact hr.held _ _ _ _ _
    · exact hr.held _ _ _ _ _
    · exact .refl _

theorem reflectValue_fl {W : World} {h : Heap} {cf f : Nat} {r r' : Rec} (hr : RecFl x r r') (p : Path) (t : Ty) :
    EncFl x (reflectValue W h cf f r p t) (reflectValue W h cf f r' p t) := by
  intro c b v
  unfold reflectValue
  refine EFl.andThen (.refl _) (fun c o => ?_)
  split
  · exact .refl _
  · split
    · exact .refl _
    · split
      · refine reflectRecursive_fl (fun c b => ?_) _ _ _
        unfold reflectSlice
        split
        · exact EFl.andThen (.refl _) (fun _ _ => hr.comp _ _ _ _ _)
        · split
          · exact .refl _
          · exact encodeElems_fl (fun i => hr.held _ _) _ _ _
          · exact .refl _
      · refine reflectRecursive_fl (fun c b => ?_) _ _ _
        unfold reflectMap
        split
        · exact .refl _
        · split
          · exact .refl _
          · simp only []
            split
            · exact .refl _
            · split
              · exact encodeEntries_fl (fun i => hr.held _ _) _ _ _
              · exact EFl.andThen (.refl _) (fun _ _ => encodeEntries_fl (fun i => hr.comp _ _) _ _ _)
          · exact .refl _
      · exact EFl.andThen (.refl _) (fun _ _ => hr.comp _ _ _ _ _)
      · exact .refl _


/-- The memory with other outcomes of the MarshalPHP methods. -/
def Heap.withMarshal (h : Heap) (m : Ty → GV → Res Bytes) : Heap := { h with marshal := m }

theorem derefAll_with (W : World) (h : Heap) (m : Ty → GV → Res Bytes) (f : Nat) (t : Ty) (v : GV) :
    derefAll W (h.withMarshal m) f t v = derefAll W h f t v := by
  induction f generalizing t v with
  | zero => rfl
  | succ f ih =>
    unfold derefAll
    simp only [ih]
    rfl

theorem encodeAsString_with (W : World) (h : Heap) (m : Ty → GV → Res Bytes) : encodeAsString W (h.withMarshal m) = encodeAsString W h := by
  funext f t b v
  unfold encodeAsString ifaceAsString
  simp only [derefAll_with]

theorem encodeKind_with (W : World) (h : Heap) (m : Ty → GV → Res Bytes) : encodeKind W (h.withMarshal m) = encodeKind W h := by
  funext f r p t c b v
  unfold encodeKind encodeField
  simp only [encodeAsString_with]
  rfl

theorem reflectValue_with (W : World) (h : Heap) (m : Ty → GV → Res Bytes) : reflectValue W (h.withMarshal m) = reflectValue W h := by
  funext cf f r p t c b v
  unfold reflectValue
  simp only [derefAll_with]
  rfl

theorem callMarshaler_fl {W : World} {h : Heap} {m : Ty → GV → Res Bytes} (hm : ∀ t v, RFl x (h.marshal t v) (m t v)) (t : Ty) (b : Bytes) (v : GV) :
    RFl x (callMarshaler W h t b v) (callMarshaler W (h.withMarshal m) t b v) := by
  unfold callMarshaler
  simp only []
  split
  · split
    · exact .refl _
    · exact RFl.bind (hm _ _) (fun _ => .refl _)
  · exact .refl _
  · split
    · split
      · exact .refl _
      · exact RFl.bind (hm _ _) (fun _ => .refl _)
    · exact RFl.bind (hm _ _) (fun _ => .refl _)
  · exact RFl.bind (hm _ _) (fun _ => .refl _)

theorem encF_fl {W : World} {h : Heap} {m : Ty → GV → Res Bytes} (hm : ∀ t v, RFl x (h.marshal t v) (m t v)) (cf f : Nat) :
    RecFl x (encF W h cf f) (encF W (h.withMarshal m) cf f) := by
  induction f with
  | zero => exact ⟨fun _ _ c _ _ => .refl _, fun _ _ c _ _ => .refl _⟩
  | succ f hr =>
    refine ⟨fun p t c b v => ?_, fun p t c b v => by simp only [encF, reflectValue_with]; exact reflectValue_fl hr p t c b v⟩
    have hk := fun p t => encodeKind_fl (W := W) (h := h) (f := f) hr p t
    simp only [encF, encodeKind_with]
    split
    · exact EFl.ofRes (callMarshaler_fl hm _ _ _)
    · split
      · exact .refl _
      · split
        · split
          any_goals exact .refl _
          any_goals exact hr.held _ _ _ _ _
          any_goals exact checkStruct_fl (h := h) (hk _ _) _ _ _
          any_goals exact deRefNil_fl (h := h) (hk _ _) _ _ _
          any_goals exact deRefNil_fl (h := h) (hr.comp _ _) _ _ _
        · exact hk _ _ _ _ _

theorem marshal_fl {W : World} {h : Heap} {m : Ty → GV → Res Bytes} (hm : ∀ t v, RFl x (h.marshal t v) (m t v)) (cf f : Nat) (c : Ctx) (y : Option (Ty × GV)) :
    EFl x (marshal W h cf f c y) (marshal W (h.withMarshal m) cf f c y) := by
  unfold marshal
  split
  · exact .refl _
  · exact EFl.andThen (.refl _) (fun _ _ => (encF_fl hm cf f).comp _ _ _ _ _)

end Verif

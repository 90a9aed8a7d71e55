import Verif.Model.Work
import Verif.Proofs.EncSound
/-
Counting the bytes an encoder appends: if it succeeds, at most (struct buffers in use + 1) times the text it leaves, and at least 6 bytes of
that text for every struct buffer in use.
-/
namespace Verif

open Spec

/-- The count `w` fits the outcome `r` of an encoder started on `b`. -/
def Fits (b : Bytes) (r : ER Bytes) (w : Work) : Prop :=
  ∀ b', r.2 = .ok b' → ∃ tx, b' = b ++ tx ∧ w.bytes ≤ (w.bufs + 1) * tx.length ∧ 6 * w.bufs ≤ tx.length

theorem mul_le_max {a b n m : Nat} {x y : Nat} (h1 : a ≤ (n + 1) * x) (h2 : b ≤ (m + 1) * y) : a + b ≤ (max n m + 1) * (x + y) := by
  have h3 : (n + 1) * x ≤ (max n m + 1) * x := Nat.mul_le_mul_right _ (by omega)
  have h4 : (m + 1) * y ≤ (max n m + 1) * y := Nat.mul_le_mul_right _ (by omega)
  rw [Nat.mul_add]
  omega

theorem fits_appended {c : Ctx} {b : Bytes} {r : Res Bytes} (h : ∀ b', r = .ok b' → ∃ tx, b' = b ++ tx) : Fits b (c, r) (appended b r) := by
  intro b' hb
  obtain ⟨tx, rfl⟩ := h b' hb
  subst hb
  refine ⟨tx, rfl, ?_, ?_⟩ <;> simp [appended]

theorem fits_text {c : Ctx} {b b' tx : Bytes} (h : b' = b ++ tx) : Fits b (c, .ok b') (appended b (.ok b')) :=
  fits_appended (fun b'' e => by cases e; exact ⟨tx, h⟩)

theorem fits_null {c : Ctx} {b : Bytes} : Fits b (c, .ok (appendNull b)) (appended b (.ok (appendNull b))) := fits_text rfl

theorem fits_fail {b : Bytes} {r : ER Bytes} {w : Work} (h : ∀ b', r.2 ≠ .ok b') : Fits b r w := fun b' e => absurd e (h b')

theorem fits_seq {b : Bytes} {r : ER Bytes} {w : Work} {k : Ctx → Bytes → ER Bytes} {wk : Ctx → Bytes → Work} (h1 : Fits b r w)
    (h2 : ∀ c b', r = (c, .ok b') → Fits b' (k c b') (wk c b')) : Fits b (andThen r k) (w.then (workOk r wk)) := by
  intro b'' hb
  rcases r with ⟨c, r⟩
  cases r with
  | ok b' =>
    obtain ⟨tx, rfl, h3, h4⟩ := h1 b' rfl
    obtain ⟨tx', rfl, h5, h6⟩ := h2 c _ rfl b'' hb
    refine ⟨tx ++ tx', by simp, ?_, ?_⟩
    · simp only [Work.then, workOk, List.length_append]
      exact mul_le_max h3 h5
    · simp only [Work.then, workOk, List.length_append]
      omega
  | _ => simp [andThen] at hb

theorem fits_bind {α : Type} {b : Bytes} {r : ER α} {k : Ctx → α → ER Bytes} {wk : Ctx → α → Work} (h : ∀ c a, r = (c, .ok a) → Fits b (k c a) (wk c a)) :
    Fits b (andThen r k) (workOk r wk) := by
  rcases r with ⟨c, r⟩
  cases r with
  | ok a => exact h c a rfl
  | _ => exact fits_fail (fun b' e => by simp [andThen] at e)

/-- A piece of text in front. -/
theorem fits_before {b x : Bytes} {b1 : Bytes} (hb : b1 = b ++ x) {r : ER Bytes} {w : Work} (h : Fits b1 r w) : Fits b r ((appended b (.ok b1)).then w) := by
  intro b' e
  obtain ⟨tx, rfl, h3, h4⟩ := h b' e
  subst hb
  refine ⟨x ++ tx, by simp, ?_, ?_⟩
  · simp only [Work.then, appended, List.length_append]
    exact mul_le_max (n := 0) (by omega) h3
  · simp only [Work.then, appended, List.length_append]
    omega

theorem then_assoc (w1 w2 w3 : Work) : (w1.then w2).then w3 = w1.then (w2.then w3) := by
  simp [Work.then, Nat.add_assoc, Nat.max_assoc]

theorem fits_elemsLoop {enc : Nat → Ctx → Bytes → GV → ER Bytes} {wk : Nat → Ctx → Bytes → GV → Work} (h : ∀ i c b v, Fits b (enc i c b v) (wk i c b v))
    {vs : List GV} {i : Nat} {c : Ctx} {b : Bytes} : Fits b (elemsLoop enc i vs c b) (elemsLoopWork enc wk i vs c b) := by
  induction vs generalizing i c b with
  | nil => exact fun b' e => by cases e; exact ⟨[], by simp, by simp [elemsLoopWork, Work.none], by simp [elemsLoopWork, Work.none]⟩
  | cons v vs ih =>
    unfold elemsLoop elemsLoopWork
    dsimp only
    rw [then_assoc]
    exact fits_before (appendIntBytes_eq _ _) (fits_seq (h _ _ _ _) (fun c b' _ => ih))

theorem fits_close {c : Ctx} {b : Bytes} : Fits b (c, .ok (b ++ [cRBrace])) (appended b (.ok (b ++ [cRBrace]))) := fits_text rfl

theorem fits_elems {enc : Nat → Ctx → Bytes → GV → ER Bytes} {wk : Nat → Ctx → Bytes → GV → Work} (h : ∀ i c b v, Fits b (enc i c b v) (wk i c b v))
    {vs : List GV} {c : Ctx} {b : Bytes} : Fits b (encodeElems enc vs c b) (encodeElemsWork enc wk vs c b) := by
  unfold encodeElems encodeElemsWork
  dsimp only
  rw [then_assoc]
  exact fits_before (arrayBegin_eq _ _) (fits_seq (fits_elemsLoop h) (fun c b' _ => fits_close))

theorem fits_entriesLoop {key : Bytes → GV → Res Bytes} {enc : Nat → Ctx → Bytes → GV → ER Bytes} {wk : Nat → Ctx → Bytes → GV → Work}
    (hk : ∀ b v b', key b v = .ok b' → ∃ tx, b' = b ++ tx) (h : ∀ i c b v, Fits b (enc i c b v) (wk i c b v))
    {es : List (GV × GV)} {i : Nat} {c : Ctx} {b : Bytes} : Fits b (entriesLoop key enc i es c b) (entriesLoopWork key enc wk i es c b) := by
  induction es generalizing i c b with
  | nil => exact fun b' e => by cases e; exact ⟨[], by simp, by simp [entriesLoopWork, Work.none], by simp [entriesLoopWork, Work.none]⟩
  | cons kv es ih =>
    obtain ⟨k, v⟩ := kv
    unfold entriesLoop entriesLoopWork
    exact fits_seq (fits_appended (hk b k)) (fun c b' _ => fits_seq (h _ _ _ _) (fun c b' _ => ih))

theorem fits_entries {key : Bytes → GV → Res Bytes} {enc : Nat → Ctx → Bytes → GV → ER Bytes} {wk : Nat → Ctx → Bytes → GV → Work}
    (hk : ∀ b v b', key b v = .ok b' → ∃ tx, b' = b ++ tx) (h : ∀ i c b v, Fits b (enc i c b v) (wk i c b v))
    {es : List (GV × GV)} {c : Ctx} {b : Bytes} : Fits b (encodeEntries key enc es c b) (encodeEntriesWork key enc wk es c b) := by
  unfold encodeEntries encodeEntriesWork
  dsimp only
  rw [then_assoc]
  exact fits_before (arrayBegin_eq _ _) (fits_seq (fits_entriesLoop hk h) (fun c b' _ => fits_close))

theorem fits_deRefNil {h : Heap} {e : Ty} {enc : Ctx → Bytes → GV → ER Bytes} {wk : Ctx → Bytes → GV → Work} (hf : ∀ c b v, Fits b (enc c b v) (wk c b v))
    {c : Ctx} {b : Bytes} {v : GV} : Fits b (deRefNil h e enc c b v) (deRefNilWork h e wk c b v) := by
  unfold deRefNil deRefNilWork
  split
  · exact fits_null
  · exact hf _ _ _
  · exact fits_fail (by simp)

theorem fits_checkRecursive {enc : Ctx → Bytes → ER Bytes} {wk : Ctx → Bytes → Work} (hf : ∀ c b, Fits b (enc c b) (wk c b)) {a : Nat}
    {c : Ctx} {b : Bytes} : Fits b (checkRecursive enc a c b) (checkRecursiveWork wk a c b) := by
  unfold checkRecursive checkRecursiveWork
  dsimp only
  split
  · exact fits_fail (by simp)
  · generalize hc : ({ seen := _, depth := _ } : Ctx) = c1
    have := hf c1 b
    intro b' e
    refine this b' ?_
    revert e
    rcases enc c1 b with ⟨c2, r⟩
    cases r <;> simp

theorem fits_checkStruct {h : Heap} {e : Ty} {enc : Ctx → Bytes → GV → ER Bytes} {wk : Ctx → Bytes → GV → Work} (hf : ∀ c b v, Fits b (enc c b v) (wk c b v))
    {c : Ctx} {b : Bytes} {v : GV} : Fits b (checkStruct h e enc c b v) (checkStructWork h e wk c b v) := by
  unfold checkStruct checkStructWork
  split
  · exact fits_null
  · exact fits_checkRecursive (fun c b => hf c b _)
  · exact fits_fail (by simp)

theorem fits_reflectRecursive {enc : Ctx → Bytes → ER Bytes} {wk : Ctx → Bytes → Work} (hf : ∀ c b, Fits b (enc c b) (wk c b)) {a : Nat}
    {c : Ctx} {b : Bytes} : Fits b (reflectRecursive enc a c b) (reflectRecursiveWork wk a c b) := by
  unfold reflectRecursive reflectRecursiveWork
  split
  · exact fits_fail (by simp)
  · generalize hc : ({ c with seen := _ } : Ctx) = c1
    intro b' e
    refine hf c1 b b' ?_
    revert e
    rcases enc c1 b with ⟨c2, r⟩
    cases r <;> simp

theorem asString_text {W : World} {h : Heap} {f : Nat} {t : Ty} {b : Bytes} {v : GV} (b' : Bytes) (he : encodeAsString W h f t b v = .ok b') : ∃ tx, b' = b ++ tx := by
  obtain ⟨d, _, hd⟩ := encodeAsString_sound he
  exact ⟨_, hd⟩

theorem fits_field {W : World} {h : Heap} {f : Nat} {rec : Ty → Ctx → Bytes → GV → ER Bytes} {wk : Ty → Ctx → Bytes → GV → Work}
    (hf : ∀ t c b v, Fits b (rec t c b v) (wk t c b v)) {fl : EField} {c : Ctx} {b : Bytes} {v : GV} :
    Fits b (encodeField W h f rec fl c b v) (encodeFieldWork W h f wk fl c b v) := by
  unfold encodeField encodeFieldWork
  cases W.resolve fl.ty with
  | ptr e =>
    dsimp only
    split
    · exact fits_checkStruct (hf _)
    · split
      · exact fits_deRefNil (fun c b v => fits_appended asString_text)
      · exact fits_deRefNil (hf _)
  | _ =>
    dsimp only
    split
    · exact fits_appended asString_text
    · exact hf _ _ _ _

/-- The field loop, which also counts the fields. -/
theorem fits_fieldsLoop {enc : EField → Ctx → Bytes → GV → ER Bytes} {wk : EField → Ctx → Bytes → GV → Work} (hf : ∀ fl c b v, Fits b (enc fl c b v) (wk fl c b v))
    {vs : List GV} {fls : List EField} {c c' : Ctx} {sb sb' : Bytes} {n n' : Nat} (h : fieldsLoop enc vs fls c sb n = (c', .ok (sb', n'))) :
    Fits sb (c', .ok sb') (fieldsLoopWork enc wk vs fls c sb) := by
  induction fls generalizing c sb n with
  | nil =>
    unfold fieldsLoop at h
    cases h
    exact fun b' e => by cases e; exact ⟨[], by simp, by simp [fieldsLoopWork, Work.none], by simp [fieldsLoopWork, Work.none]⟩
  | cons fl fls ih =>
    unfold fieldsLoop at h
    unfold fieldsLoopWork
    split at h
    · cases h
    · rename_i v hv
      rw [hv]
      dsimp only
      split at h
      · rename_i ho
        rw [if_pos ho]
        exact ih h
      · rename_i ho
        rw [if_neg ho, then_assoc]
        refine fits_before (appendString_eq _ _) ?_
        have h1 := hf fl c (appendString sb fl.name) v
        revert h h1
        rcases enc fl c (appendString sb fl.name) v with ⟨c1, r⟩
        intro h h1
        cases r with
        | ok sb1 =>
          have h2 := ih (c := c1) (sb := sb1) h
          exact fits_seq (k := fun _ _ => (c', .ok sb')) h1 (fun c2 b2 e => by cases e; exact h2)
        | _ => simp [andThen] at h

theorem copy_le {a n s m : Nat} (h : a ≤ (n + 1) * s) : a + (s + m) ≤ (n + 1 + 1) * (s + m) := by
  rw [Nat.succ_mul (n + 1)]
  have : (n + 1) * s ≤ (n + 1) * (s + m) := Nat.mul_le_mul_left _ (by omega)
  omega

theorem natText_pos (n : Nat) : 1 ≤ (natText n).length := by
  unfold natText
  cases n with
  | zero => simp [natTextF]
  | succ n =>
    unfold natTextF
    split <;> simp

theorem fits_struct {enc : EField → Ctx → Bytes → GV → ER Bytes} {wk : EField → Ctx → Bytes → GV → Work} (hf : ∀ fl c b v, Fits b (enc fl c b v) (wk fl c b v))
    {nf : Nat} {fls : List EField} {c : Ctx} {b : Bytes} {v : GV} : Fits b (encodeStruct enc nf fls c b v) (encodeStructWork enc wk nf fls c b v) := by
  cases v with
  | struct vs =>
    simp only [encodeStruct, encodeStructWork]
    split
    · exact fits_fail (by simp)
    · intro b' e
      have h1 := @fits_fieldsLoop enc wk hf vs fls c
      revert e
      rcases hl : fieldsLoop enc vs fls c [] 0 with ⟨c1, r⟩
      cases r with
      | ok x =>
        obtain ⟨sb, n⟩ := x
        intro e
        simp only [andThen, Res.ok.injEq] at e
        obtain ⟨tx, hs, h2, h3⟩ := h1 hl sb rfl
        simp only [List.nil_append] at hs
        subst hs e
        generalize fieldsLoopWork enc wk vs fls c [] = w at *
        refine ⟨([97, 58] ++ natText n ++ [58, 123]) ++ sb ++ [cRBrace], ?_, ?_, ?_⟩
        · rw [arrayBegin_eq]; simp
        · simp only [Work.then, workOk, appended, arrayBegin_eq, List.length_append]
          simp only [Nat.max_zero, List.length_cons, List.length_nil]
          generalize (natText n).length = k
          have := copy_le (m := k + 5) h2
          rw [show sb.length + (k + 5) = 0 + 1 + 1 + k + (0 + 1 + 1) + sb.length + (0 + 1) by omega] at this
          omega
        · simp only [Work.then, workOk, appended, List.length_append]
          simp only [Nat.max_zero, List.length_cons, List.length_nil]
          have hk := natText_pos n
          omega
      | _ => intro e; simp [andThen] at e
  | _ => exact fits_fail (by simp [encodeStruct])

/-- One level of recursion fits. -/
structure RecFits (r : Rec) (wr : WRec) : Prop where
  comp : ∀ p t c b v, Fits b (r.comp p t c b v) (wr.comp p t c b v)
  held : ∀ p t c b v, Fits b (r.held p t c b v) (wr.held p t c b v)

theorem scalar_fits {W : World} {t : Ty} {b : Bytes} {v : GV} {r : Res Bytes} (h : encodeScalar W t b v = some r) {c : Ctx} : Fits b (c, r) (appended b r) :=
  fits_appended (fun b' e => by subst e; obtain ⟨d, _, hd⟩ := encodeScalar_sound h; exact ⟨_, hd⟩)

theorem key_text {W : World} {k : Ty} (b : Bytes) (v : GV) (b' : Bytes) (h : keyText W k b v = .ok b') : ∃ tx, b' = b ++ tx := by
  obtain ⟨d, hd, _⟩ := keyText_sound h
  exact ⟨_, hd⟩

theorem fits_reflectSlice {W : World} {h : Heap} {cf : Nat} {r : Rec} {wr : WRec} (hr : RecFits r wr) {p : Path} {t e : Ty} {v : GV} {c : Ctx} {b : Bytes} :
    Fits b (reflectSlice W h cf r p t e v c b) (reflectSliceWork W h cf r wr p t e v c b) := by
  unfold reflectSlice reflectSliceWork
  split
  · exact fits_bind (fun c a e => hr.comp _ _ _ _ _)
  · split
    · exact fits_null
    · exact fits_elems (fun i c b v => hr.held _ _ _ _ _)
    · exact fits_fail (by simp)

theorem fits_reflectMap {W : World} {h : Heap} {cf : Nat} {r : Rec} {wr : WRec} (hr : RecFits r wr) {p : Path} {k e : Ty} {v : GV} {c : Ctx} {b : Bytes} :
    Fits b (reflectMap W h cf r p k e v c b) (reflectMapWork W h cf r wr p k e v c b) := by
  unfold reflectMap reflectMapWork
  split
  · exact fits_fail (by simp)
  · split
    · exact fits_null
    · dsimp only
      split
      · exact fits_text rfl
      · split
        · exact fits_entries key_text (fun i c b v => hr.held _ _ _ _ _)
        · exact fits_bind (fun c a e => fits_entries key_text (fun i c b v => hr.comp _ _ _ _ _))
    · exact fits_fail (by simp)

theorem fits_reflectValue {W : World} {h : Heap} {cf f : Nat} {r : Rec} {wr : WRec} (hr : RecFits r wr) {p : Path} {t : Ty} {c : Ctx} {b : Bytes} {v : GV} :
    Fits b (reflectValue W h cf f r p t c b v) (reflectValueWork W h cf f r wr p t c b v) := by
  unfold reflectValue reflectValueWork
  refine fits_bind (fun c o _ => ?_)
  rcases o with _ | ⟨t, v⟩
  · exact fits_null
  · dsimp only
    cases hs : encodeScalar W t b v with
    | some r => exact scalar_fits hs
    | none =>
      dsimp only
      cases W.resolve t with
      | slice e => exact fits_reflectRecursive (fun c b => fits_reflectSlice hr)
      | map k e => exact fits_reflectRecursive (fun c b => fits_reflectMap hr)
      | struct id => exact fits_bind (fun c a e => hr.comp _ _ _ _ _)
      | _ => exact fits_fail (by simp)

theorem fits_kind {W : World} {h : Heap} {f : Nat} {r : Rec} {wr : WRec} (hr : RecFits r wr) {p : Path} {t : Ty} {c : Ctx} {b : Bytes} {v : GV} :
    Fits b (encodeKind W h f r p t c b v) (encodeKindWork W h f r wr p t c b v) := by
  unfold encodeKind encodeKindWork
  cases hs : encodeScalar W t b v with
  | some r => exact scalar_fits hs
  | none =>
    dsimp only
    cases W.resolve t with
    | struct id => exact fits_struct (fun fl c b v => fits_field (fun t c b v => hr.comp _ _ _ _ _))
    | array n e =>
      cases v with
      | arr vs =>
        dsimp only
        split
        · exact fits_elems (fun i c b v => hr.comp _ _ _ _ _)
        · exact fits_fail (by simp)
      | _ => exact fits_fail (by simp)
    | slice e =>
      cases v with
      | sliceNil => exact fits_null
      | slice a n => exact fits_checkRecursive (fun c b => fits_elems (fun i c b v => hr.comp _ _ _ _ _))
      | _ => exact fits_fail (by simp)
    | map k e =>
      cases v with
      | mapNil => exact fits_null
      | map a => exact fits_checkRecursive (fun c b => fits_entries key_text (fun i c b v => hr.comp _ _ _ _ _))
      | _ => exact fits_fail (by simp)
    | any => exact hr.held _ _ _ _ _
    | iface i => exact hr.held _ _ _ _ _
    | _ => exact fits_fail (by simp)

theorem encodeBytes_text {h : Heap} {b : Bytes} {v : GV} (b' : Bytes) (he : encodeBytes h b v = .ok b') : ∃ tx, b' = b ++ tx := by
  unfold encodeBytes at he
  split at he
  · cases he; exact ⟨_, appendString_eq _ _⟩
  · split at he
    · cases he; exact ⟨_, appendString_eq _ _⟩
    · cases he
  · cases he

theorem encF_fits (W : World) (h : Heap) (cf f : Nat) : RecFits (encF W h cf f) (encFWork W h cf f) := by
  induction f with
  | zero => exact ⟨fun _ _ _ _ _ => fits_fail (by simp [encF]), fun _ _ _ _ _ => fits_fail (by simp [encF])⟩
  | succ f ih =>
    refine ⟨fun p t c b v => ?_, fun p t c b v => fits_reflectValue ih⟩
    simp only [encF, encFWork]
    split
    · refine fits_appended (fun b' e => ?_)
      obtain ⟨raw, hraw, _⟩ := callMarshaler_sound e
      exact ⟨raw, hraw⟩
    · split
      · exact fits_appended encodeBytes_text
      · cases W.resolve t with
        | ptr e =>
          dsimp only
          cases W.resolve e with
          | ptr e' => exact fits_fail (by simp)
          | any => exact ih.held _ _ _ _ _
          | iface i => exact ih.held _ _ _ _ _
          | struct id => exact fits_checkStruct (fun c b v => fits_kind ih)
          | uint k => cases k <;> first | exact fits_deRefNil (fun c b v => fits_kind ih) | exact fits_deRefNil (fun c b v => ih.comp _ _ _ _ _)
          | _ => first | exact fits_deRefNil (fun c b v => fits_kind ih) | exact fits_deRefNil (fun c b v => ih.comp _ _ _ _ _)
        | _ => exact fits_kind ih

end Verif

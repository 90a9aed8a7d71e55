import Verif.Proofs.EncText
import Verif.Proofs.Tags
/-
Lemmas about the building blocks of the encoder model: what a successful run appends, and that the context is restored.
-/
namespace Verif
open Spec

/-! ### Zero values -/

mutual
theorem isZero_sound : ∀ v : GV, v.isZero = true → ZeroGV v
  | .bool b, h => by cases b <;> first | exact .bool | simp [GV.isZero] at h
  | .int i, h => by simp [GV.isZero] at h; subst h; exact .int
  | .uint n, h => by simp [GV.isZero] at h; subst h; exact .uint
  | .f32 x, h => by simp [GV.isZero] at h; exact .f32 h
  | .f64 x, h => by simp [GV.isZero] at h; exact .f64 h
  | .str s, h => by simp [GV.isZero] at h; subst h; exact .str
  | .sliceNil, _ => .sliceNil
  | .slice _ _, h => by simp [GV.isZero] at h
  | .arr es, h => .arr (isZeroList_sound es (by simpa [GV.isZero] using h))
  | .mapNil, _ => .mapNil
  | .map _, h => by simp [GV.isZero] at h
  | .ptrNil, _ => .ptrNil
  | .ptr _, h => by simp [GV.isZero] at h
  | .struct es, h => .struct (isZeroList_sound es (by simpa [GV.isZero] using h))
  | .ifaceNil, _ => .ifaceNil
  | .iface _ _, h => by simp [GV.isZero] at h
  | .other, h => by simp [GV.isZero] at h
theorem isZeroList_sound : ∀ vs : List GV, isZeroList vs = true → ∀ v ∈ vs, ZeroGV v
  | [], _, _, hv => by cases hv
  | w :: ws, h, v, hv => by
    simp only [isZeroList, Bool.and_eq_true] at h
    cases hv with
    | head => exact isZero_sound w h.1
    | tail _ hv => exact isZeroList_sound ws h.2 v hv
end

theorem isZeroList_iff {vs : List GV} : isZeroList vs = true ↔ ∀ v ∈ vs, v.isZero = true := by
  induction vs with
  | nil => simp [isZeroList]
  | cons v vs ih => simp [isZeroList, ih]

theorem isZero_iff {v : GV} : v.isZero = true ↔ ZeroGV v := by
  constructor
  · exact isZero_sound v
  · intro h
    induction h with
    | arr _ ih => simp only [GV.isZero]; exact isZeroList_iff.2 ih
    | struct _ ih => simp only [GV.isZero]; exact isZeroList_iff.2 ih
    | f32 h => simp only [GV.isZero, decide_eq_true_iff]; exact h
    | f64 h => simp only [GV.isZero, decide_eq_true_iff]; exact h
    | _ => simp [GV.isZero]

/-! ### Outcomes -/

/-- A successful run from context `c` and buffer `b` restores the context and appends a text with property `P`; a failing
run restores the context. -/
def Out (c : Ctx) (b : Bytes) (r : ER Bytes) (P : Bytes → Prop) : Prop :=
  (∀ c' b', r = (c', .ok b') → c' = c ∧ ∃ tx, b' = b ++ tx ∧ P tx) ∧ (∀ c' e, r = (c', .err e) → c' = c)

theorem Out.mono {c : Ctx} {b : Bytes} {r : ER Bytes} {P Q : Bytes → Prop} (h : Out c b r P) (hq : ∀ tx, P tx → Q tx) : Out c b r Q := by
  refine ⟨fun c' b' hr => ?_, h.2⟩
  obtain ⟨h1, tx, h2, h3⟩ := h.1 c' b' hr
  exact ⟨h1, tx, h2, hq _ h3⟩

theorem out_ok {c : Ctx} {b tx : Bytes} {P : Bytes → Prop} (h : P tx) : Out c b (c, .ok (b ++ tx)) P :=
  ⟨fun c' b' hr => by cases hr; exact ⟨rfl, tx, rfl, h⟩, fun c' e hr => by cases hr⟩

theorem out_ok' {c : Ctx} {b b' tx : Bytes} {P : Bytes → Prop} (h : P tx) (hb : b' = b ++ tx) : Out c b (c, .ok b') P := by
  subst hb; exact out_ok h

theorem out_err {c : Ctx} {b : Bytes} {e : Err} {P : Bytes → Prop} : Out c b (c, .err e) P :=
  ⟨fun c' b' hr => (by cases hr), fun c' e hr => by cases hr; rfl⟩

theorem out_panic {c c' : Ctx} {b : Bytes} {p : Panic} {P : Bytes → Prop} : Out c b (c', .panic p) P :=
  ⟨fun c' b' hr => (by cases hr), fun c' e hr => by cases hr⟩

theorem out_diverge {c c' : Ctx} {b : Bytes} {P : Bytes → Prop} : Out c b (c', .diverge) P :=
  ⟨fun c' b' hr => (by cases hr), fun c' e hr => by cases hr⟩

theorem out_res {c : Ctx} {b : Bytes} {r : Res Bytes} {P : Bytes → Prop} (h : ∀ b', r = .ok b' → ∃ tx, b' = b ++ tx ∧ P tx) :
    Out c b (c, r) P :=
  ⟨fun c' b' hr => by cases hr; exact ⟨rfl, h _ rfl⟩, fun c' e hr => by cases hr; rfl⟩

/-- Sequencing on results of another type: `r` restores the context. -/
theorem out_andThen {α : Type} {c : Ctx} {b : Bytes} {r : Res α} {k : Ctx → α → ER Bytes} {P : Bytes → Prop}
    (h : ∀ a, r = .ok a → Out c b (k c a) P) : Out c b (andThen (c, r) k) P := by
  cases r with
  | ok a => exact h a rfl
  | err e => exact out_err
  | panic p => exact out_panic
  | diverge => exact out_diverge

theorem out_seq {c : Ctx} {b : Bytes} {r : ER Bytes} {k : Ctx → Bytes → ER Bytes} {P Q : Bytes → Prop} (hr : Out c b r P)
    (hk : ∀ tx, P tx → Out c b (k c (b ++ tx)) Q) : Out c b (andThen r k) Q := by
  obtain ⟨c', r⟩ := r
  cases r with
  | ok a =>
    obtain ⟨rfl, tx, rfl, hp⟩ := hr.1 _ _ rfl
    exact hk tx hp
  | err e =>
    obtain rfl := hr.2 _ _ rfl
    exact out_err
  | panic p => exact out_panic
  | diverge => exact out_diverge

/-- Rebase: appending to `b ++ x` is appending to `b`. -/
theorem out_shift {c : Ctx} {b x : Bytes} {r : ER Bytes} {P : Bytes → Prop} (h : Out c (b ++ x) r fun tx => P (x ++ tx)) : Out c b r P := by
  refine ⟨fun c' b' hr => ?_, h.2⟩
  obtain ⟨h1, tx, h2, h3⟩ := h.1 c' b' hr
  exact ⟨h1, x ++ tx, by simp [h2], h3⟩

/-! ### Loops -/

theorem arrayBegin_eq (b : Bytes) (n : Nat) : appendArrayBegin b (n : Int) = b ++ ([97, 58] ++ natText n ++ [58, 123]) := by
  simp [appendArrayBegin, intText_natCast, ca, cColon, cLBrace]

theorem bodyText_congr {kd kd' : Nat → Doc} {tx tx' : Nat → Bytes} {i n : Nat} (hk : ∀ j, i ≤ j → j < i + n → kd j = kd' j)
    (ht : ∀ j, i ≤ j → j < i + n → tx j = tx' j) : bodyText kd tx i n = bodyText kd' tx' i n := by
  induction n generalizing i with
  | zero => rfl
  | succ n ih =>
    rw [bodyText, bodyText, hk i (by omega) (by omega), ht i (by omega) (by omega),
      ih (fun j h1 h2 => hk j (by omega) (by omega)) (fun j h1 h2 => ht j (by omega) (by omega))]

theorem bodyText_shift {kd : Nat → Doc} {tx : Nat → Bytes} {i n : Nat} :
    bodyText (fun j => kd (j + 1)) (fun j => tx (j + 1)) i n = bodyText kd tx (i + 1) n := by
  induction n generalizing i with
  | zero => rfl
  | succ n ih => rw [bodyText, bodyText, ih]

theorem elemsLoop_out {c : Ctx} {enc : Nat → Ctx → Bytes → GV → ER Bytes} {P : Nat → GV → Bytes → Prop} {vs : List GV} {i : Nat} {b : Bytes}
    (h : ∀ j v b, vs[j]? = some v → Out c b (enc (i + j) c b v) (P (i + j) v)) :
    Out c b (elemsLoop enc i vs c b) fun tx =>
      ∃ f : Nat → Bytes, tx = bodyText idxDoc f i vs.length ∧ ∀ j v, vs[j]? = some v → P (i + j) v (f (i + j)) := by
  induction vs generalizing i b with
  | nil => exact ⟨fun c' b' hr => by cases hr; exact ⟨rfl, [], by simp, fun _ => [], rfl, by simp⟩, fun c' e hr => by cases hr⟩
  | cons v vs ih =>
    rw [elemsLoop, appendIntBytes_eq, intText_natCast]
    apply out_shift (x := (Doc.int (natText i)).text)
    have h0 := h 0 v (b ++ (Doc.int (natText i)).text) rfl
    apply out_seq h0
    intro tx hp
    apply out_shift (x := tx)
    apply Out.mono (ih (i := i + 1) (fun j w b hw => by
      have := h (j + 1) w b hw
      rw [show i + 1 + j = i + (j + 1) by omega]; exact this))
    rintro tx' ⟨f, rfl, hf⟩
    refine ⟨fun j => if j = i then tx else f j, ?_, ?_⟩
    · rw [List.length_cons, bodyText, if_pos rfl]
      rw [bodyText_congr (i := i + 1) (kd' := idxDoc) (tx := fun j => if j = i then tx else f j) (tx' := f) (fun _ _ _ => rfl) (fun j h1 _ => by simp [show j ≠ i by omega])]
      simp [idxDoc]
    · intro j w hw
      cases j with
      | zero => simp at hw; subst hw; simpa using hp
      | succ j =>
        have hne : i + (j + 1) ≠ i := by omega
        simp only [hne, if_false]
        have := hf j w (by simpa using hw)
        rw [show i + 1 + j = i + (j + 1) by omega] at this; exact this

theorem encodeElems_out {c : Ctx} {enc : Nat → Ctx → Bytes → GV → ER Bytes} {P : Nat → GV → Bytes → Prop} {vs : List GV} {b : Bytes}
    (h : ∀ j v b, vs[j]? = some v → Out c b (enc j c b v) (P j v)) :
    Out c b (encodeElems enc vs c b) fun tx =>
      ∃ f : Nat → Bytes, tx = arrText vs.length idxDoc f ∧ ∀ j v, vs[j]? = some v → P j v (f j) := by
  unfold encodeElems
  rw [arrayBegin_eq]
  apply out_shift (x := [97, 58] ++ natText vs.length ++ [58, 123])
  apply out_seq (elemsLoop_out (P := P) (fun j v b hv => by rw [Nat.zero_add]; exact h j v b hv))
  rintro tx ⟨f, rfl, hf⟩
  refine out_ok' ?_ (List.append_assoc _ _ _)
  refine ⟨f, by simp [arrText, cRBrace], fun j v hv => ?_⟩
  have := hf j v hv
  simpa using this

theorem entriesLoop_out {c : Ctx} {key : Bytes → GV → Res Bytes} {K : GV → Doc → Prop} {enc : Nat → Ctx → Bytes → GV → ER Bytes}
    {P : Nat → GV → Bytes → Prop} {es : List (GV × GV)} {i : Nat} {b : Bytes}
    (hk : ∀ k b b', key b k = .ok b' → ∃ d, b' = b ++ d.text ∧ K k d)
    (h : ∀ j x y b, es[j]? = some (x, y) → Out c b (enc (i + j) c b y) (P (i + j) y)) :
    Out c b (entriesLoop key enc i es c b) fun tx =>
      ∃ (kd : Nat → Doc) (f : Nat → Bytes), tx = bodyText kd f i es.length ∧
        (∀ j x y, es[j]? = some (x, y) → K x (kd (i + j))) ∧ ∀ j x y, es[j]? = some (x, y) → P (i + j) y (f (i + j)) := by
  induction es generalizing i b with
  | nil => exact ⟨fun c' b' hr => by cases hr; exact ⟨rfl, [], by simp, fun _ => .null, fun _ => [], rfl, by simp, by simp⟩, fun c' e hr => by cases hr⟩
  | cons p es ih =>
    obtain ⟨x, y⟩ := p
    rw [entriesLoop]
    apply out_andThen
    intro b' hb'
    obtain ⟨d, rfl, hd⟩ := hk _ _ _ hb'
    apply out_shift (x := d.text)
    have h0 := h 0 x y (b ++ d.text) rfl
    apply out_seq h0
    intro tx hp
    apply out_shift (x := tx)
    apply Out.mono (ih (i := i + 1) (fun j x' y' b hw => by
      have := h (j + 1) x' y' b hw
      rw [show i + 1 + j = i + (j + 1) by omega]; exact this))
    rintro tx' ⟨kd, f, rfl, hkd, hf⟩
    refine ⟨fun j => if j = i then d else kd j, fun j => if j = i then tx else f j, ?_, ?_, ?_⟩
    · rw [List.length_cons, bodyText, if_pos rfl, if_pos rfl]
      rw [bodyText_congr (i := i + 1) (kd := fun j => if j = i then d else kd j) (kd' := kd) (tx := fun j => if j = i then tx else f j) (tx' := f) (fun j h1 _ => by simp [show j ≠ i by omega]) (fun j h1 _ => by simp [show j ≠ i by omega])]
      simp
    · intro j x' y' hw
      cases j with
      | zero => simp at hw; obtain ⟨rfl, rfl⟩ := hw; simpa using hd
      | succ j =>
        have hne : i + (j + 1) ≠ i := by omega
        simp only [hne, if_false]
        have := hkd j x' y' (by simpa using hw)
        rw [show i + 1 + j = i + (j + 1) by omega] at this; exact this
    · intro j x' y' hw
      cases j with
      | zero => simp at hw; obtain ⟨rfl, rfl⟩ := hw; simpa using hp
      | succ j =>
        have hne : i + (j + 1) ≠ i := by omega
        simp only [hne, if_false]
        have := hf j x' y' (by simpa using hw)
        rw [show i + 1 + j = i + (j + 1) by omega] at this; exact this

theorem encodeEntries_out {c : Ctx} {key : Bytes → GV → Res Bytes} {K : GV → Doc → Prop} {enc : Nat → Ctx → Bytes → GV → ER Bytes}
    {P : Nat → GV → Bytes → Prop} {es : List (GV × GV)} {b : Bytes}
    (hk : ∀ k b b', key b k = .ok b' → ∃ d, b' = b ++ d.text ∧ K k d)
    (h : ∀ j x y b, es[j]? = some (x, y) → Out c b (enc j c b y) (P j y)) :
    Out c b (encodeEntries key enc es c b) fun tx =>
      ∃ (kd : Nat → Doc) (f : Nat → Bytes), tx = arrText es.length kd f ∧
        (∀ j x y, es[j]? = some (x, y) → K x (kd j)) ∧ ∀ j x y, es[j]? = some (x, y) → P j y (f j) := by
  unfold encodeEntries
  rw [arrayBegin_eq]
  apply out_shift (x := [97, 58] ++ natText es.length ++ [58, 123])
  apply out_seq (entriesLoop_out (P := P) (K := K) hk (fun j x y b hv => by rw [Nat.zero_add]; exact h j x y b hv))
  rintro tx ⟨kd, f, rfl, hkd, hf⟩
  refine out_ok' ?_ (List.append_assoc _ _ _)
  refine ⟨kd, f, by simp [arrText, cRBrace], fun j x y hv => ?_, fun j x y hv => ?_⟩
  · simpa using hkd j x y hv
  · simpa using hf j x y hv

/-! ### Structs -/

/-- The key list of written fields. -/
def keyAt (ws : List WField) (j : Nat) : Doc := strDoc ((ws[j]?.map (·.key)).getD [])

theorem keyAt_cons {w : WField} {ws : List WField} {j : Nat} : keyAt (w :: ws) (j + 1) = keyAt ws j := by simp [keyAt]

theorem fieldName_eq {W : World} {f : Field} : (if (structTag W f).key.isEmpty then f.name else (structTag W f).key) = (structTag W f).key := by
  split
  · rename_i he
    obtain ⟨o, os, h1, h2, h3, h4, h5, h6⟩ := structTag_meaning W f
    rcases h4 with ⟨hv, hk⟩ | ⟨_, hk⟩
    · rw [hk] at he; exact absurd (by simpa using he) hv.1
    · rw [hk]
  · rfl

theorem fieldsLoop_out {W : World} {c : Ctx} {enc : EField → Ctx → Bytes → GV → ER Bytes} {P : Bool → Nat → Ty → GV → Bytes → Prop}
    {fs : List Field} {pre vs : List GV} {sb : Bytes} {n : Nat}
    (h : ∀ fl v b, Out c b (enc fl c b v) (P fl.str fl.idx fl.ty v)) (hl : vs.length = fs.length) :
    (∀ c' x, fieldsLoop enc (pre ++ vs) (efields W pre.length fs) c sb n = (c', .ok x) →
      c' = c ∧ ∃ (ws : List WField) (tx : Nat → Bytes), Written W pre.length fs vs ws ∧ x = (sb ++ bodyText (keyAt ws) tx 0 ws.length, n + ws.length) ∧
        ∀ j w, ws[j]? = some w → P w.str w.idx w.ty w.val (tx j)) ∧
    (∀ c' e, fieldsLoop enc (pre ++ vs) (efields W pre.length fs) c sb n = (c', .err e) → c' = c) := by
  induction fs generalizing pre vs sb n with
  | nil =>
    have : vs = [] := by simpa using hl
    subst this
    refine ⟨fun c' x hr => ?_, fun c' e hr => by simp [efields, fieldsLoop] at hr⟩
    simp only [efields, fieldsLoop] at hr
    cases hr
    exact ⟨rfl, [], fun _ => [], .nil, by simp [bodyText], by simp⟩
  | cons f fs ih =>
    cases vs with
    | nil => simp at hl
    | cons v vs =>
      have hl' : vs.length = fs.length := by simpa using hl
      have hpre : pre ++ v :: vs = (pre ++ [v]) ++ vs := by simp
      have hlen : (pre ++ [v]).length = pre.length + 1 := by simp
      have ih' := fun sb n => ih (pre := pre ++ [v]) (vs := vs) (sb := sb) (n := n) hl'
      simp only [hlen, ← hpre] at ih'
      rw [efields]
      by_cases hh : (decide ((structTag W f).key = [45]) || !f.exported) = true
      · simp only [hh, if_true]
        obtain ⟨i1, i2⟩ := ih' sb n
        refine ⟨fun c' x hr => ?_, i2⟩
        obtain ⟨h1, ws, tx, h2, h3⟩ := i1 c' x hr
        refine ⟨h1, ws, tx, .hidden ?_ h2, h3⟩
        simp only [Bool.or_eq_true, decide_eq_true_eq, Bool.not_eq_true'] at hh
        rcases hh with hh | hh
        · exact .inr (hasKey_iff.2 hh)
        · exact .inl hh
      · simp only [hh, if_false]
        have hh' : (structTag W f).key ≠ [45] ∧ f.exported = true := by
          simp only [Bool.or_eq_true, decide_eq_true_eq, Bool.not_eq_true', not_or] at hh
          exact ⟨hh.1, by simpa using hh.2⟩
        rw [if_neg (by simp), fieldsLoop, fieldName_eq]
        have hget : (pre ++ v :: vs)[pre.length]? = some v := by simp
        simp only [hget]
        by_cases ho : ((structTag W f).omitEmpty && v.isZero) = true
        · rw [if_pos ho]
          obtain ⟨i1, i2⟩ := ih' sb n
          refine ⟨fun c' x hr => ?_, i2⟩
          obtain ⟨h1, ws, tx, h2, h3⟩ := i1 c' x hr
          simp only [Bool.and_eq_true] at ho
          exact ⟨h1, ws, tx, .omitted (tagMeaning_iff.2 ⟨rfl, by simp [ho.1], Iff.rfl⟩) (isZero_iff.1 ho.2) h2, h3⟩
        · rw [if_neg ho]
          generalize hr : enc _ c (appendString sb (structTag W f).key) v = r
          have ho' := h ⟨pre.length, (structTag W f).key, (structTag W f).omitEmpty, (structTag W f).isString, f.ty⟩ v
            (appendString sb (structTag W f).key)
          rw [hr] at ho'
          obtain ⟨c1, r⟩ := r
          cases r with
          | panic p => exact ⟨fun c' x hr => by simp [andThen] at hr, fun c' e hr => by simp [andThen] at hr⟩
          | diverge => exact ⟨fun c' x hr => by simp [andThen] at hr, fun c' e hr => by simp [andThen] at hr⟩
          | err e =>
            obtain rfl := ho'.2 _ _ rfl
            exact ⟨fun c' x hr => by simp [andThen] at hr, fun c' e hr => by simp [andThen] at hr; exact hr.1.symm⟩
          | ok b1 =>
            obtain ⟨rfl, tx0, rfl, hp⟩ := ho'.1 _ _ rfl
            simp only [andThen]
            obtain ⟨i1, i2⟩ := ih' (appendString sb (structTag W f).key ++ tx0) (n + 1)
            refine ⟨fun c' x hr => ?_, i2⟩
            obtain ⟨h1, ws, tx, h2, h3, h4⟩ := i1 c' x hr
            refine ⟨h1, _, fun j => if j = 0 then tx0 else tx (j - 1),
              .keep hh'.2 (key := (structTag W f).key) (om := (structTag W f).omitEmpty = true) (str := (structTag W f).isString)
                (structTag_meaning W f) hh'.1 (fun ⟨g1, g2⟩ => ho (by simp [g1, isZero_iff.2 g2])) h2, ?_, ?_⟩
            · rw [h3, List.length_cons, bodyText, appendString_eq]
              simp only [Prod.mk.injEq]
              refine ⟨?_, by omega⟩
              have hb := bodyText_shift (kd := keyAt (⟨pre.length, (structTag W f).key, (structTag W f).isString, f.ty, v⟩ :: ws))
                (tx := fun j => if j = 0 then tx0 else tx (j - 1)) (i := 0) (n := ws.length)
              rw [← hb]
              simp only [keyAt_cons, if_true, Nat.add_sub_cancel, Nat.succ_ne_zero, if_false, List.append_assoc]
              rfl
            · intro j w hw
              cases j with
              | zero => simp at hw; subst hw; simpa using hp
              | succ j => simpa using h4 j w (by simpa using hw)

theorem encodeStruct_out {W : World} {c : Ctx} {enc : EField → Ctx → Bytes → GV → ER Bytes} {P : Bool → Nat → Ty → GV → Bytes → Prop}
    {fs : List Field} {b : Bytes} {v : GV} (h : ∀ fl v b, Out c b (enc fl c b v) (P fl.str fl.idx fl.ty v)) :
    Out c b (encodeStruct enc fs.length (efields W 0 fs) c b v) fun tx =>
      ∃ (vs : List GV) (ws : List WField) (f : Nat → Bytes), v = .struct vs ∧ Written W 0 fs vs ws ∧
        tx = arrText ws.length (keyAt ws) f ∧ ∀ j w, ws[j]? = some w → P w.str w.idx w.ty w.val (f j) := by
  cases v <;> try exact out_panic
  rename_i vs
  unfold encodeStruct
  simp only []
  by_cases hl : vs.length ≠ fs.length
  · rw [if_pos hl]; exact out_panic
  rw [if_neg hl]
  obtain ⟨h1, h2⟩ := fieldsLoop_out (W := W) (P := P) (fs := fs) (pre := []) (vs := vs) (sb := []) (n := 0) h (by omega)
  simp only [List.length_nil, List.nil_append] at h1 h2
  generalize hr : fieldsLoop enc vs (efields W 0 fs) c [] 0 = r at *
  obtain ⟨c1, r⟩ := r
  cases r with
  | panic p => exact out_panic
  | diverge => exact out_diverge
  | err e => obtain rfl := h2 _ _ rfl; exact out_err
  | ok x =>
    obtain ⟨rfl, ws, tx, hw, rfl, hp⟩ := h1 _ _ rfl
    simp only [andThen]
    rw [Nat.zero_add, arrayBegin_eq, List.append_assoc, List.append_assoc]
    apply out_ok
    exact ⟨vs, ws, tx, rfl, hw, by simp [arrText, cRBrace], hp⟩

/-! ### Pointers and recursion checks -/

/-- The context that belongs to a stack. -/
def ctxOf (st : Stack) : Ctx := { seen := seenOf st, depth := depthOf st }

theorem depthOf_true {st : Stack} {a : Nat} : depthOf ((a, true) :: st) = depthOf st + 1 := by simp [depthOf]
theorem depthOf_false {st : Stack} {a : Nat} : depthOf ((a, false) :: st) = depthOf st := by simp [depthOf]

theorem filter_notMem {a : Nat} {l : List Nat} (h : a ∉ l) : (a :: l).filter (· ≠ a) = l := by
  simp
  intro b hb e
  exact h (e ▸ hb)

theorem checkRecursive_out {st : Stack} {b : Bytes} {enc : Ctx → Bytes → ER Bytes} {a : Nat} {P : Bytes → Prop}
    (h : Fresh st a true → Out (ctxOf ((a, true) :: st)) b (enc (ctxOf ((a, true) :: st)) b) P) :
    Out (ctxOf st) b (checkRecursive enc a (ctxOf st) b) fun tx => Fresh st a true ∧ P tx := by
  have hst : ctxOf st = ⟨seenOf st, depthOf st⟩ := rfl
  rw [hst]
  unfold checkRecursive
  simp only []
  by_cases hf : Fresh st a true
  · have hc : (decide (depthOf st + 1 > 1000) && (seenOf st).contains a) = false := by
      rcases hf with ⟨_, hf⟩ | hf
      · have : ¬ depthOf st + 1 > 1000 := by omega
        simp [this]
      · simp [hf]
    simp only [hc, Bool.false_eq_true, if_false]
    have hctx : (⟨if decide (depthOf st + 1 > 1000) = true then a :: seenOf st else seenOf st, depthOf st + 1⟩ : Ctx) = ctxOf ((a, true) :: st) := by
      simp only [ctxOf, depthOf_true, seenOf]
      by_cases hd : depthOf st + 1 > 1000
      · have : ¬ depthOf st + 1 ≤ 1000 := by omega
        simp [hd, this]
      · have : depthOf st + 1 ≤ 1000 := by omega
        simp [hd, this]
    rw [hctx]
    have hback : (⟨if decide (depthOf st + 1 > 1000) = true then (ctxOf ((a, true) :: st)).seen.filter (· ≠ a) else (ctxOf ((a, true) :: st)).seen,
        (ctxOf ((a, true) :: st)).depth - 1⟩ : Ctx) = ctxOf st := by
      rw [← hctx]
      simp only [ctxOf, Ctx.mk.injEq]
      refine ⟨?_, by omega⟩
      by_cases hd : depthOf st + 1 > 1000
      · simp only [hd, decide_true, if_true]
        exact filter_notMem (by rcases hf with ⟨_, hf⟩ | hf; · omega
                                · exact hf)
      · simp [hd]
    have ho := h hf
    generalize enc (ctxOf ((a, true) :: st)) b = r at ho
    obtain ⟨c1, r⟩ := r
    cases r with
    | panic p => exact out_panic
    | diverge => exact out_diverge
    | err e =>
      obtain rfl := ho.2 _ _ rfl
      simp only []
      rw [hback]
      exact out_err
    | ok x =>
      obtain ⟨rfl, tx, rfl, hp⟩ := ho.1 _ _ rfl
      simp only []
      rw [hback]
      exact out_ok ⟨hf, hp⟩
  · have hc : (decide (depthOf st + 1 > 1000) && (seenOf st).contains a) = true := by
      unfold Fresh at hf
      simp only [not_or, not_and, true_implies] at hf
      obtain ⟨h1, h2⟩ := hf
      have : depthOf st + 1 > 1000 := by omega
      simp [this, Classical.not_not.1 h2]
    simp only [hc, if_true, Nat.add_sub_cancel]
    exact out_err

theorem reflectRecursive_out {st : Stack} {b : Bytes} {enc : Ctx → Bytes → ER Bytes} {a : Nat} {P : Bytes → Prop}
    (h : Fresh st a false → Out (ctxOf ((a, false) :: st)) b (enc (ctxOf ((a, false) :: st)) b) P) :
    Out (ctxOf st) b (reflectRecursive enc a (ctxOf st) b) fun tx => Fresh st a false ∧ P tx := by
  have hst : ctxOf st = ⟨seenOf st, depthOf st⟩ := rfl
  rw [hst]
  unfold reflectRecursive
  simp only []
  by_cases hf : a ∈ seenOf st
  · rw [if_pos (by simpa using hf)]; exact out_err
  · rw [if_neg (by simpa using hf)]
    have hctx : (⟨a :: seenOf st, depthOf st⟩ : Ctx) = ctxOf ((a, false) :: st) := by simp [ctxOf, seenOf, depthOf_false]
    rw [hctx]
    have hback : (⟨(ctxOf ((a, false) :: st)).seen.filter (· ≠ a), (ctxOf ((a, false) :: st)).depth⟩ : Ctx) = ctxOf st := by
      rw [← hctx]
      simp only [ctxOf, Ctx.mk.injEq]
      exact ⟨filter_notMem hf, trivial⟩
    have ho := h (.inr hf)
    generalize enc (ctxOf ((a, false) :: st)) b = r at ho
    obtain ⟨c1, r⟩ := r
    cases r with
    | panic p => exact out_panic
    | diverge => exact out_diverge
    | err e =>
      obtain rfl := ho.2 _ _ rfl
      simp only []
      rw [hback]
      exact out_err
    | ok x =>
      obtain ⟨rfl, tx, rfl, hp⟩ := ho.1 _ _ rfl
      simp only []
      rw [hback]
      exact out_ok ⟨.inr hf, hp⟩

theorem checkStruct_out {h : Heap} {e : Ty} {st : Stack} {b : Bytes} {enc : Ctx → Bytes → GV → ER Bytes} {v : GV} {P : GV → Bytes → Prop}
    (he : ∀ a, v = .ptr a → Fresh st a true → Out (ctxOf ((a, true) :: st)) b (enc (ctxOf ((a, true) :: st)) b (h.deref e a)) (P (h.deref e a))) :
    Out (ctxOf st) b (checkStruct h e enc (ctxOf st) b v) fun tx =>
      (v = .ptrNil ∧ tx = Doc.null.text) ∨ ∃ a, v = .ptr a ∧ Fresh st a true ∧ P (h.deref e a) tx := by
  cases v <;> try exact out_panic
  · unfold checkStruct
    rw [appendNull_eq]
    exact out_ok (.inl ⟨rfl, rfl⟩)
  · rename_i a
    unfold checkStruct
    apply Out.mono (checkRecursive_out (fun hf => he a rfl hf))
    rintro tx ⟨h1, h2⟩
    exact .inr ⟨a, rfl, h1, h2⟩

theorem deRefNil_out {h : Heap} {e : Ty} {c : Ctx} {b : Bytes} {enc : Ctx → Bytes → GV → ER Bytes} {v : GV} {P : GV → Bytes → Prop}
    (he : ∀ a, v = .ptr a → Out c b (enc c b (h.deref e a)) (P (h.deref e a))) :
    Out c b (deRefNil h e enc c b v) fun tx =>
      (v = .ptrNil ∧ tx = Doc.null.text) ∨ ∃ a, v = .ptr a ∧ P (h.deref e a) tx := by
  cases v <;> try exact out_panic
  · unfold deRefNil
    rw [appendNull_eq]
    exact out_ok (.inl ⟨rfl, rfl⟩)
  · rename_i a
    unfold deRefNil
    exact Out.mono (he a rfl) (fun tx hp => .inr ⟨a, rfl, hp⟩)

/-! ### Scalars -/

theorem encodeScalar_sound {W : World} {t : Ty} {b b' : Bytes} {v : GV} (h : encodeScalar W t b v = some (.ok b')) :
    ∃ d, ScalarDoc W t v d ∧ b' = b ++ d.text := by
  unfold encodeScalar at h
  split at h <;> rename_i hr
  · cases v <;> simp at h
    exact ⟨_, .bool hr, by rw [← h, appendBool_eq]⟩
  · cases v <;> simp at h
    exact ⟨_, .int hr, by rw [← h, appendIntBytes_eq]⟩
  · simp at h
  · rename_i k hk
    cases v <;> simp at h
    exact ⟨_, .uint hr (fun e => hk e), by rw [← h, appendUintBytes_eq]⟩
  · cases v <;> simp at h
    rename_i x
    obtain ⟨txt, ht⟩ := floatOut32_total (W := W) x
    exact ⟨_, .f32 hr ht, by rw [← h, appendFloat32_iff.1 ht]⟩
  · cases v <;> simp at h
    rename_i x
    obtain ⟨txt, ht⟩ := floatOut64_total (W := W) x
    exact ⟨_, .f64 hr ht, by rw [← h, appendFloat64_iff.1 ht]⟩
  · cases v <;> simp at h
    exact ⟨_, .str hr, by rw [← h, appendString_eq]⟩
  · simp at h

theorem encodeScalar_complete {W : World} {t : Ty} {b : Bytes} {v : GV} {d : Doc} (h : ScalarDoc W t v d) :
    encodeScalar W t b v = some (.ok (b ++ d.text)) := by
  cases h with
  | bool hr => simp [encodeScalar, hr, appendBool_eq]
  | int hr => simp [encodeScalar, hr, appendIntBytes_eq]
  | uint hr hk =>
    rename_i k n
    cases k <;> first | exact absurd rfl hk | simp [encodeScalar, hr, appendUintBytes_eq]
  | f32 hr ht => simp [encodeScalar, hr, appendFloat32_iff.1 ht]
  | f64 hr ht => simp [encodeScalar, hr, appendFloat64_iff.1 ht]
  | str hr => simp [encodeScalar, hr, appendString_eq]

theorem keyText_sound {W : World} {t : Ty} {b b' : Bytes} {v : GV} (h : keyText W t b v = .ok b') :
    ∃ d, b' = b ++ d.text ∧ KeyDoc W t v d := by
  unfold keyText at h
  split at h <;> rename_i hr
  · cases h; exact ⟨_, appendString_eq _ _, .str hr⟩
  · cases h; exact ⟨_, appendIntBytes_eq _ _, .int hr⟩
  · split at h
    · cases h
    · rename_i hk
      cases h
      exact ⟨_, appendUintBytes_eq _ _, .uint hr hk⟩
  · split at h <;> cases h

theorem keyText_complete {W : World} {t : Ty} {b : Bytes} {v : GV} {d : Doc} (h : KeyDoc W t v d) : keyText W t b v = .ok (b ++ d.text) := by
  cases h with
  | int hr => simp [keyText, hr, appendIntBytes_eq]
  | uint hr hk => simp [keyText, hr, hk, appendUintBytes_eq]
  | str hr => simp [keyText, hr, appendString_eq]

theorem mapKeyOk_iff {W : World} {t : Ty} : W.mapKeyOk t = true ↔ KeyKind W t := by
  unfold World.mapKeyOk
  constructor
  · intro h
    split at h
    · exact .str ‹_›
    · exact .int _ ‹_›
    · exact .uint _ ‹_› (by simpa using h)
    · cases h
  · rintro (⟨k, hr⟩ | ⟨k, hr, hk⟩ | hr) <;> simp_all

theorem keyDoc_kind {W : World} {t : Ty} {v : GV} {d : Doc} (h : KeyDoc W t v d) : KeyKind W t := by
  cases h with
  | int hr => exact .int _ hr
  | uint hr hk => exact .uint _ hr hk
  | str hr => exact .str hr

theorem keyDoc_ok {W : World} {t : Ty} {v : GV} {d : Doc} (h : KeyDoc W t v d) : W.mapKeyOk t = true :=
  mapKeyOk_iff.2 (keyDoc_kind h)

theorem derefAll_sound {W : World} {h : Heap} {f : Nat} {t : Ty} {v : GV} {o : Option (Ty × GV)} (hd : derefAll W h f t v = .ok o) :
    Deref W h t v o := by
  induction f generalizing t v with
  | zero => cases hd
  | succ f ih =>
    unfold derefAll at hd
    split at hd <;> rename_i hr
    · split at hd
      · cases hd; exact .ptrNil hr
      · exact .ptr hr (ih hd)
      · cases hd
    · split at hd
      · cases hd; exact .ifaceNil (by simp [World.isIface, hr])
      · exact .iface (by simp [World.isIface, hr]) (ih hd)
      · cases hd
    · split at hd
      · cases hd; exact .ifaceNil (by simp [World.isIface, hr])
      · exact .iface (by simp [World.isIface, hr]) (ih hd)
      · cases hd
    · rename_i h1 h2
      cases hd
      refine .done ?_ ?_
      · unfold World.isPtr; split
        · rename_i e he; exact absurd he (h1 e)
        · rfl
      · unfold World.isIface; split
        · rename_i he; exact absurd he h2
        · rename_i i he; exact absurd he (hr i)
        · rfl

theorem isIface_cases {W : World} {t : Ty} (h : W.isIface t = true) : W.resolve t = .any ∨ ∃ i, W.resolve t = .iface i := by
  unfold World.isIface at h
  split at h
  · exact .inl (by assumption)
  · exact .inr ⟨_, by assumption⟩
  · cases h

theorem isPtr_cases {W : World} {t : Ty} (h : W.isPtr t = true) : ∃ e, W.resolve t = .ptr e := by
  unfold World.isPtr at h
  split at h
  · exact ⟨_, by assumption⟩
  · cases h

theorem isStruct_cases {W : World} {t : Ty} (h : W.isStruct t = true) : ∃ id, W.resolve t = .struct id := by
  unfold World.isStruct at h
  split at h
  · exact ⟨_, by assumption⟩
  · cases h

theorem derefAll_complete {W : World} {h : Heap} {t : Ty} {v : GV} {o : Option (Ty × GV)} (hd : Deref W h t v o) :
    ∃ n, ∀ f, n ≤ f → derefAll W h f t v = .ok o := by
  induction hd with
  | ptrNil hr => exact ⟨1, fun f hf => by obtain ⟨g, rfl⟩ := Nat.exists_eq_add_of_le' hf; simp [derefAll, hr]⟩
  | ptr hr _ ih =>
    obtain ⟨n, hn⟩ := ih
    exact ⟨n + 1, fun f hf => by obtain ⟨g, rfl⟩ := Nat.exists_eq_add_of_le' hf; simp [derefAll, hr, hn (g + n) (by omega)]⟩
  | ifaceNil hi =>
    refine ⟨1, fun f hf => ?_⟩
    obtain ⟨g, rfl⟩ := Nat.exists_eq_add_of_le' hf
    rcases isIface_cases hi with hr | ⟨i, hr⟩ <;> simp [derefAll, hr]
  | iface hi _ ih =>
    obtain ⟨n, hn⟩ := ih
    refine ⟨n + 1, fun f hf => ?_⟩
    obtain ⟨g, rfl⟩ := Nat.exists_eq_add_of_le' hf
    rcases isIface_cases hi with hr | ⟨i, hr⟩ <;> simp [derefAll, hr, hn (g + n) (by omega)]
  | @done t v h1 h2 =>
    refine ⟨1, fun f hf => ?_⟩
    obtain ⟨g, rfl⟩ := Nat.exists_eq_add_of_le' hf
    unfold derefAll
    split <;> rename_i hr
    · simp [World.isPtr, hr] at h1
    · simp [World.isIface, hr] at h2
    · simp [World.isIface, hr] at h2
    · rfl

theorem basicText_of {W : World} {t : Ty} {v : GV} {b b' : Bytes}
    (h : (match t, v with
      | .bool, .bool x => Res.ok (appendBoolAsString b x)
      | .uint k, .uint n => if k = UKind.uptr then .err (.unsupported "as string") else .ok (appendUintAsString b n)
      | .int _, .int i => .ok (appendIntAsString b i)
      | .f32, .f32 x => .ok (appendFloat32AsString W b x)
      | .f64, .f64 x => .ok (appendFloat64AsString W b x)
      | _, _ => .err (.unsupported "as string")) = .ok b') :
    ∃ txt, BasicText W t v txt ∧ b' = b ++ (strDoc txt).text := by
  split at h
  · cases h
    rename_i x
    rw [appendBoolAsString_eq]
    cases x
    · exact ⟨_, .false, rfl⟩
    · exact ⟨_, .true, rfl⟩
  · split at h
    · cases h
    · rename_i hk; cases h; exact ⟨_, .uint hk, appendUintAsString_eq _ _⟩
  · cases h; exact ⟨_, .int, appendIntAsString_eq _ _⟩
  · cases h; exact ⟨_, .f32 (fmtText32_iff.2 rfl), appendTextAsString_eq _ _⟩
  · cases h; exact ⟨_, .f64 (fmtText64_iff.2 rfl), appendTextAsString_eq _ _⟩
  · cases h

theorem ifaceAsString_sound {W : World} {h : Heap} {f : Nat} {t : Ty} {b b' : Bytes} {v : GV} (hi : W.isIface t = true)
    (he : ifaceAsString W h f t b v = .ok b') : ∃ d, StrFieldDoc W h t v d ∧ b' = b ++ d.text := by
  unfold ifaceAsString at he
  rw [Res.bind_eq_ok] at he
  obtain ⟨o, ho, he⟩ := he
  have hd := derefAll_sound ho
  cases o with
  | none => simp only [] at he; cases he; exact ⟨_, .ifaceNil hi hd, appendNull_eq _⟩
  | some p =>
    obtain ⟨t', v'⟩ := p
    obtain ⟨txt, h1, h2⟩ := basicText_of (W := W) (t := t') (v := v') (b := b) (b' := b') he
    exact ⟨_, .iface hi hd h1, h2⟩

theorem encodeAsString_sound {W : World} {h : Heap} {f : Nat} {t : Ty} {b b' : Bytes} {v : GV}
    (he : encodeAsString W h f t b v = .ok b') : ∃ d, StrFieldDoc W h t v d ∧ b' = b ++ d.text := by
  unfold encodeAsString at he
  split at he <;> rename_i hr
  · rename_i x
    cases he
    rw [appendBoolAsString_eq]
    cases x
    · exact ⟨_, .basic (by rw [hr]; exact .false), rfl⟩
    · exact ⟨_, .basic (by rw [hr]; exact .true), rfl⟩
  · cases he; exact ⟨_, .basic (by rw [hr]; exact .int), appendIntAsString_eq _ _⟩
  · cases he; exact ⟨_, .str hr, appendString_eq _ _⟩
  · split at he
    · cases he
    · rename_i hk
      cases he
      exact ⟨_, .basic (by rw [hr]; exact .uint hk), appendUintAsString_eq _ _⟩
  · cases he; exact ⟨_, .basic (by rw [hr]; exact .f32 (fmtText32_iff.2 rfl)), appendTextAsString_eq _ _⟩
  · cases he; exact ⟨_, .basic (by rw [hr]; exact .f64 (fmtText64_iff.2 rfl)), appendTextAsString_eq _ _⟩
  · exact ifaceAsString_sound (by simp [World.isIface, hr]) he
  · exact ifaceAsString_sound (by simp [World.isIface, hr]) he
  · split at he <;> cases he

/-! ### Which types have the method -/

theorem marOf_iff {W : World} {t : Ty} : W.marOf t = true ↔ HasMarshal W t := by
  constructor
  · intro h
    unfold World.marOf at h
    split at h
    · rename_i id
      rw [Bool.or_eq_true] at h
      rcases h with h | h
      · exact .declared (by simpa using h)
      · split at h
        · rename_i hu; exact .declaredIface hu h
        · cases h
    · rename_i id
      cases hm : (W.named id).mar with
      | none => rw [hm] at h; cases h
      | value => exact .ptrToValue hm
      | pointer => exact .ptrToPointer hm
    · exact .iface h
    · cases h
  · intro h
    cases h with
    | declared h => simp [World.marOf, h]
    | ptrToValue h => simp [World.marOf, h]
    | ptrToPointer h => simp [World.marOf, h]
    | declaredIface h1 h2 => simp [World.marOf, h1, h2]
    | iface h => exact h

theorem marOf_false_iff {W : World} {t : Ty} : W.marOf t = false ↔ ¬ HasMarshal W t := by
  rw [← marOf_iff]; simp

end Verif

import Verif.Proofs.EncSound
/-
Completeness of the encoder model: what the specification assigns to a value is what the model writes, given enough
fuel; the only other outcome is the recursion error, where a recursion check strikes.
-/
namespace Verif
open Spec

/-- Success with text `tx`, or, if `R` permits it, the recursion error; the context is restored. -/
def Done (R : Prop) (c : Ctx) (b : Bytes) (r : ER Bytes) (tx : Bytes) : Prop := r = (c, .ok (b ++ tx)) ∨ (R ∧ r = (c, .err .recursive))

theorem done_ok {R : Prop} {c : Ctx} {b tx : Bytes} : Done R c b (c, .ok (b ++ tx)) tx := .inl rfl

theorem done_ok' {R : Prop} {c : Ctx} {b b' tx : Bytes} (h : b' = b ++ tx) : Done R c b (c, .ok b') tx := .inl (by rw [h])

theorem done_seq {R : Prop} {c : Ctx} {b tx tx' : Bytes} {r : ER Bytes} {k : Ctx → Bytes → ER Bytes} (hr : Done R c b r tx)
    (hk : Done R c (b ++ tx) (k c (b ++ tx)) tx') : Done R c b (andThen r k) (tx ++ tx') := by
  rcases hr with rfl | ⟨h, rfl⟩
  · rcases hk with h | ⟨h, h'⟩
    · exact .inl (by simp only [andThen]; rw [h, List.append_assoc])
    · exact .inr ⟨h, by simp only [andThen]; exact h'⟩
  · exact .inr ⟨h, rfl⟩

theorem done_shift {R : Prop} {c : Ctx} {b x tx tx' : Bytes} {r : ER Bytes} (h : Done R c (b ++ x) r tx) (he : tx' = x ++ tx) : Done R c b r tx' := by
  subst he
  unfold Done at *
  rw [← List.append_assoc]
  exact h

theorem elemsLoop_done {R : Prop} {c : Ctx} {enc : Nat → Ctx → Bytes → GV → ER Bytes} {g : Nat → Bytes} {vs : List GV} {i : Nat} {b : Bytes}
    (h : ∀ j v b, vs[j]? = some v → Done R c b (enc (i + j) c b v) (g (i + j))) :
    Done R c b (elemsLoop enc i vs c b) (bodyText idxDoc g i vs.length) := by
  induction vs generalizing i b with
  | nil => exact .inl (by simp [elemsLoop, bodyText])
  | cons v vs ih =>
    rw [elemsLoop, appendIntBytes_eq, intText_natCast]
    have h0 := h 0 v (b ++ (Doc.int (natText i)).text) rfl
    refine done_shift (done_seq h0 (ih (i := i + 1) (fun j w b hw => ?_))) ?_
    · have := h (j + 1) w b hw
      rw [show i + 1 + j = i + (j + 1) by omega]; exact this
    · rw [List.length_cons, bodyText]; simp [idxDoc]

theorem encodeElems_done {R : Prop} {c : Ctx} {enc : Nat → Ctx → Bytes → GV → ER Bytes} {g : Nat → Bytes} {vs : List GV} {b : Bytes}
    (h : ∀ j v b, vs[j]? = some v → Done R c b (enc j c b v) (g j)) :
    Done R c b (encodeElems enc vs c b) (arrText vs.length idxDoc g) := by
  unfold encodeElems
  rw [arrayBegin_eq]
  refine done_shift (done_seq (elemsLoop_done (g := g) (fun j v b hv => by rw [Nat.zero_add]; exact h j v b hv)) (done_ok (tx := [cRBrace]))) ?_
  simp [arrText, cRBrace]

theorem entriesLoop_done {R : Prop} {c : Ctx} {key : Bytes → GV → Res Bytes} {enc : Nat → Ctx → Bytes → GV → ER Bytes}
    {kd : Nat → Doc} {g : Nat → Bytes} {es : List (GV × GV)} {i : Nat} {b : Bytes}
    (hk : ∀ j x y b, es[j]? = some (x, y) → key b x = .ok (b ++ (kd (i + j)).text))
    (h : ∀ j x y b, es[j]? = some (x, y) → Done R c b (enc (i + j) c b y) (g (i + j))) :
    Done R c b (entriesLoop key enc i es c b) (bodyText kd g i es.length) := by
  induction es generalizing i b with
  | nil => exact .inl (by simp [entriesLoop, bodyText])
  | cons q es ih =>
    obtain ⟨x, y⟩ := q
    rw [entriesLoop, hk 0 x y b rfl]
    rw [show (andThen (c, Res.ok (b ++ (kd (i + 0)).text)) fun c b => andThen (enc i c b y) fun c b => entriesLoop key enc (i + 1) es c b)
      = andThen (enc i c (b ++ (kd i).text) y) fun c b => entriesLoop key enc (i + 1) es c b from rfl]
    refine done_shift (done_seq (h 0 x y _ rfl) (ih (i := i + 1) (fun j x' y' b hw => ?_) (fun j x' y' b hw => ?_))) ?_
    · have := hk (j + 1) x' y' b hw
      rw [show i + 1 + j = i + (j + 1) by omega]; exact this
    · have := h (j + 1) x' y' b hw
      rw [show i + 1 + j = i + (j + 1) by omega]; exact this
    · rw [List.length_cons, bodyText]; simp

theorem encodeEntries_done {R : Prop} {c : Ctx} {key : Bytes → GV → Res Bytes} {enc : Nat → Ctx → Bytes → GV → ER Bytes}
    {kd : Nat → Doc} {g : Nat → Bytes} {es : List (GV × GV)} {b : Bytes}
    (hk : ∀ j x y b, es[j]? = some (x, y) → key b x = .ok (b ++ (kd j).text))
    (h : ∀ j x y b, es[j]? = some (x, y) → Done R c b (enc j c b y) (g j)) :
    Done R c b (encodeEntries key enc es c b) (arrText es.length kd g) := by
  unfold encodeEntries
  rw [arrayBegin_eq]
  refine done_shift (done_seq (entriesLoop_done (kd := kd) (g := g) (fun j x y b hv => by rw [Nat.zero_add]; exact hk j x y b hv)
    (fun j x y b hv => by rw [Nat.zero_add]; exact h j x y b hv)) (done_ok (tx := [cRBrace]))) ?_
  simp [arrText, cRBrace]

theorem fieldsLoop_done {R : Prop} {W : World} {c : Ctx} {enc : EField → Ctx → Bytes → GV → ER Bytes} {fs : List Field} {pre vs : List GV} {sb : Bytes} {n : Nat}
    {ws : List WField} {tx : Nat → Bytes} (hw : Written W pre.length fs vs ws)
    (h : ∀ j w fl b, ws[j]? = some w → fl.idx = w.idx → fl.str = w.str → fl.ty = w.ty → Done R c b (enc fl c b w.val) (tx j)) :
    fieldsLoop enc (pre ++ vs) (efields W pre.length fs) c sb n = (c, .ok (sb ++ bodyText (keyAt ws) tx 0 ws.length, n + ws.length)) ∨
      (R ∧ fieldsLoop enc (pre ++ vs) (efields W pre.length fs) c sb n = (c, .err .recursive)) := by
  generalize hi : pre.length = i at hw
  induction hw generalizing pre sb n tx with
  | nil => left; simp [efields, fieldsLoop, bodyText]
  | @hidden i f fs v vs ws hh _ ih =>
    have hc : (decide ((structTag W f).key = [45]) || !f.exported) = true := by
      rcases hh with hh | hh
      · simp [hh]
      · simp [hasKey_iff.1 hh]
    rw [efields]
    simp only [hc, if_true]
    have := ih (pre := pre ++ [v]) (sb := sb) (n := n) (tx := tx) h (by simp [hi])
    simpa using this
  | @omitted i f fs v vs ws key str ht hz _ ih =>
    have hih := ih (pre := pre ++ [v]) (sb := sb) (n := n) (tx := tx) h (by simp [hi])
    have hap : pre ++ [v] ++ vs = pre ++ v :: vs := by simp
    rw [hap] at hih
    rw [efields]
    by_cases hc : (decide ((structTag W f).key = [45]) || !f.exported) = true
    · simp only [hc, if_true]; exact hih
    · simp only [hc]
      rw [if_neg (by simp), fieldsLoop]
      have hget : (pre ++ v :: vs)[i]? = some v := by simp [← hi]
      simp only [hget]
      obtain ⟨_, h2, _⟩ := tagMeaning_iff.1 ht
      rw [if_pos (by simp [h2.1 trivial, isZero_iff.2 hz])]
      exact hih
  | @keep i f fs v vs ws key om str he ht hk ho _ ih =>
    obtain ⟨h1, h2, h3⟩ := tagMeaning_iff.1 ht
    have hc : (decide ((structTag W f).key = [45]) || !f.exported) = false := by simp [he, ← h1, hk]
    rw [efields]
    simp only [hc]
    rw [if_neg (by simp), fieldsLoop, fieldName_eq]
    have hget : (pre ++ v :: vs)[i]? = some v := by simp [← hi]
    simp only [hget]
    rw [if_neg (by
      simp only [Bool.and_eq_true]
      rintro ⟨g1, g2⟩
      exact ho ⟨h2.2 g1, isZero_iff.1 g2⟩)]
    have hstr : (structTag W f).isString = str := by
      cases str <;> cases hs : (structTag W f).isString <;> simp_all
    have h0 := h 0 _ ⟨i, (structTag W f).key, (structTag W f).omitEmpty, (structTag W f).isString, f.ty⟩ (appendString sb (structTag W f).key) rfl rfl hstr rfl
    simp only [] at h0
    rcases h0 with h0 | ⟨hr, h0⟩
    · rw [h0]
      simp only [andThen]
      have hih := ih (pre := pre ++ [v]) (sb := appendString sb (structTag W f).key ++ tx 0) (n := n + 1) (tx := fun j => tx (j + 1))
        (fun j w fl b hw g1 g2 g3 => h (j + 1) w fl b (by simpa using hw) g1 g2 g3) (by simp [hi])
      have hap : pre ++ [v] ++ vs = pre ++ v :: vs := by simp
      rw [hap] at hih
      rcases hih with hih | hih
      · left
        rw [hih, List.length_cons, bodyText, appendString_eq]
        have hb := bodyText_shift (kd := keyAt (⟨i, key, str, f.ty, v⟩ :: ws)) (tx := tx) (i := 0) (n := ws.length)
        rw [← hb]
        simp only [keyAt_cons, List.append_assoc, Prod.mk.injEq, Res.ok.injEq, true_and]
        refine ⟨?_, by omega⟩
        rw [← h1]
        rfl
      · exact .inr hih
    · right
      exact ⟨hr, by rw [h0]; rfl⟩

theorem written_length {W : World} {i : Nat} {fs : List Field} {vs : List GV} {ws : List WField} (h : Written W i fs vs ws) : vs.length = fs.length := by
  induction h <;> simp_all

theorem encodeStruct_done {R : Prop} {W : World} {c : Ctx} {enc : EField → Ctx → Bytes → GV → ER Bytes} {fs : List Field} {vs : List GV} {b : Bytes}
    {ws : List WField} {tx : Nat → Bytes} (hw : Written W 0 fs vs ws)
    (h : ∀ j w fl b, ws[j]? = some w → fl.idx = w.idx → fl.str = w.str → fl.ty = w.ty → Done R c b (enc fl c b w.val) (tx j)) :
    Done R c b (encodeStruct enc fs.length (efields W 0 fs) c b (.struct vs)) (arrText ws.length (keyAt ws) tx) := by
  unfold encodeStruct
  simp only []
  rw [if_neg (by simp [written_length hw])]
  have := fieldsLoop_done (R := R) (W := W) (c := c) (enc := enc) (fs := fs) (pre := []) (vs := vs) (sb := []) (n := 0) (ws := ws) (tx := tx) hw h
  simp only [List.length_nil, List.nil_append] at this
  rcases this with hr | ⟨hr, hr'⟩
  · left
    rw [hr]
    simp only [andThen]
    rw [Nat.zero_add, arrayBegin_eq]
    simp [arrText, cRBrace]
  · right
    exact ⟨hr, by rw [hr']; rfl⟩

/-! ### Recursion checks -/

theorem checkRecursive_fresh {st : Stack} {b : Bytes} {enc : Ctx → Bytes → ER Bytes} {a : Nat} {x : Res Bytes} (hf : Fresh st a true)
    (he : enc (ctxOf ((a, true) :: st)) b = (ctxOf ((a, true) :: st), x)) (hx : (∃ y, x = .ok y) ∨ ∃ e, x = .err e) :
    checkRecursive enc a (ctxOf st) b = (ctxOf st, x) := by
  have hst : ctxOf st = ⟨seenOf st, depthOf st⟩ := rfl
  rw [hst]
  unfold checkRecursive
  simp only []
  have hc : (decide (depthOf st + 1 > 1000) && (seenOf st).contains a) = false := by
    rcases hf with ⟨_, hf⟩ | hf
    · have : ¬ depthOf st + 1 > 1000 := by omega
      simp [this]
    · simp [hf]
  simp only [hc, Bool.false_eq_true, if_false]
  have hctx : (⟨if decide (depthOf st + 1 > 1000) = true then a :: seenOf st else seenOf st, depthOf st + 1⟩ : Ctx) = ctxOf ((a, true) :: st) := by
    simp only [ctxOf, depthOf_true, seenOf]
    by_cases hd : depthOf st + 1 > 1000
    · have : ¬ depthOf st + 1 ≤ 1000 := by omega
      simp [hd, this]
    · have : depthOf st + 1 ≤ 1000 := by omega
      simp [hd, this]
  rw [hctx, he]
  have hback : (⟨if decide (depthOf st + 1 > 1000) = true then (ctxOf ((a, true) :: st)).seen.filter (· ≠ a) else (ctxOf ((a, true) :: st)).seen,
      (ctxOf ((a, true) :: st)).depth - 1⟩ : Ctx) = ⟨seenOf st, depthOf st⟩ := by
    rw [← hctx]
    simp only [Ctx.mk.injEq]
    refine ⟨?_, by omega⟩
    by_cases hd : depthOf st + 1 > 1000
    · simp only [hd, decide_true, if_true]
      exact filter_notMem (by rcases hf with ⟨_, hf⟩ | hf; · omega
                              · exact hf)
    · simp [hd]
  rcases hx with ⟨y, rfl⟩ | ⟨e, rfl⟩
  · simp only []; rw [hback]
  · simp only []; rw [hback]

theorem checkRecursive_stale {st : Stack} {b : Bytes} {enc : Ctx → Bytes → ER Bytes} {a : Nat} (hf : ¬ Fresh st a true) :
    checkRecursive enc a (ctxOf st) b = (ctxOf st, .err .recursive) := by
  have hst : ctxOf st = ⟨seenOf st, depthOf st⟩ := rfl
  rw [hst]
  unfold checkRecursive
  simp only []
  have hc : (decide (depthOf st + 1 > 1000) && (seenOf st).contains a) = true := by
    unfold Fresh at hf
    simp only [not_or, not_and, true_implies] at hf
    obtain ⟨h1, h2⟩ := hf
    have : depthOf st + 1 > 1000 := by omega
    simp [this, Classical.not_not.1 h2]
  simp only [hc, if_true, Nat.add_sub_cancel]

theorem checkRecursive_done {R : Prop} {st : Stack} {b tx : Bytes} {enc : Ctx → Bytes → ER Bytes} {a : Nat} (hf : Fresh st a true ∨ R)
    (he : Done R (ctxOf ((a, true) :: st)) b (enc (ctxOf ((a, true) :: st)) b) tx) : Done R (ctxOf st) b (checkRecursive enc a (ctxOf st) b) tx := by
  by_cases hfr : Fresh st a true
  · rcases he with he | ⟨hr, he⟩
    · exact .inl (checkRecursive_fresh hfr he (.inl ⟨_, rfl⟩))
    · exact .inr ⟨hr, checkRecursive_fresh hfr he (.inr ⟨_, rfl⟩)⟩
  · exact .inr ⟨hf.resolve_left hfr, checkRecursive_stale hfr⟩

theorem reflectRecursive_done {R : Prop} {st : Stack} {b tx : Bytes} {enc : Ctx → Bytes → ER Bytes} {a : Nat} (hf : Fresh st a false ∨ R)
    (he : Done R (ctxOf ((a, false) :: st)) b (enc (ctxOf ((a, false) :: st)) b) tx) : Done R (ctxOf st) b (reflectRecursive enc a (ctxOf st) b) tx := by
  have hst : ctxOf st = ⟨seenOf st, depthOf st⟩ := rfl
  have hctx : (⟨a :: seenOf st, depthOf st⟩ : Ctx) = ctxOf ((a, false) :: st) := by simp [ctxOf, seenOf, depthOf_false]
  by_cases hm : a ∈ seenOf st
  · refine .inr ⟨hf.resolve_left (fun hfr => ?_), ?_⟩
    · rcases hfr with ⟨h, _⟩ | h
      · cases h
      · exact h hm
    · rw [hst]
      unfold reflectRecursive
      rw [if_pos (by simpa using hm)]
  · have hback : (⟨(ctxOf ((a, false) :: st)).seen.filter (· ≠ a), (ctxOf ((a, false) :: st)).depth⟩ : Ctx) = ⟨seenOf st, depthOf st⟩ := by
      rw [← hctx]
      simp only [Ctx.mk.injEq]
      exact ⟨filter_notMem hm, trivial⟩
    rw [hst]
    unfold reflectRecursive
    rw [if_neg (by simpa using hm)]
    simp only []
    rw [hctx]
    rcases he with he | ⟨hr, he⟩
    · left; rw [he]; simp only []; rw [hback]
    · right; refine ⟨hr, ?_⟩; rw [he]; simp only []; rw [hback]

theorem checkStruct_done {R : Prop} {h : Heap} {e : Ty} {st : Stack} {b tx : Bytes} {enc : Ctx → Bytes → GV → ER Bytes} {a : Nat}
    (hf : Fresh st a true ∨ R) (he : Done R (ctxOf ((a, true) :: st)) b (enc (ctxOf ((a, true) :: st)) b (h.deref e a)) tx) :
    Done R (ctxOf st) b (checkStruct h e enc (ctxOf st) b (.ptr a)) tx := by
  unfold checkStruct
  exact checkRecursive_done hf he

/-! ### The `string` option -/

theorem basicText_complete {W : World} {t : Ty} {v : GV} {b txt : Bytes} (h : BasicText W t v txt) :
    (match t, v with
      | .bool, .bool x => Res.ok (appendBoolAsString b x)
      | .uint k, .uint n => if k = UKind.uptr then .err (.unsupported "as string") else .ok (appendUintAsString b n)
      | .int _, .int i => .ok (appendIntAsString b i)
      | .f32, .f32 x => .ok (appendFloat32AsString W b x)
      | .f64, .f64 x => .ok (appendFloat64AsString W b x)
      | _, _ => .err (.unsupported "as string")) = .ok (b ++ (strDoc txt).text) := by
  cases h with
  | true => simp [appendBoolAsString_eq]
  | false => simp [appendBoolAsString_eq]
  | int => simp [appendIntAsString_eq]
  | uint hk => simp [hk, appendUintAsString_eq]
  | f32 ht => rw [fmtText32_iff] at ht; subst ht; exact congrArg _ (appendTextAsString_eq _ _)
  | f64 ht => rw [fmtText64_iff] at ht; subst ht; exact congrArg _ (appendTextAsString_eq _ _)

theorem encodeAsString_complete {W : World} {h : Heap} {t : Ty} {v : GV} {d : Doc} (hd : StrFieldDoc W h t v d) :
    ∃ F, ∀ f b, F ≤ f → encodeAsString W h f t b v = .ok (b ++ d.text) := by
  cases hd with
  | str hr => exact ⟨0, fun f b _ => by simp [encodeAsString, hr, appendString_eq]⟩
  | @basic _ txt hb =>
    refine ⟨0, fun f b _ => ?_⟩
    generalize hr : W.resolve t = rt at hb
    unfold encodeAsString
    rw [hr]
    cases hb with
    | true => simp [appendBoolAsString_eq]
    | false => simp [appendBoolAsString_eq]
    | int => simp [appendIntAsString_eq]
    | uint hk => simp [hk, appendUintAsString_eq]
    | f32 ht => rw [fmtText32_iff] at ht; subst ht; exact congrArg _ (appendTextAsString_eq _ _)
    | f64 ht => rw [fmtText64_iff] at ht; subst ht; exact congrArg _ (appendTextAsString_eq _ _)
  | ifaceNil hi hd =>
    obtain ⟨n, hn⟩ := derefAll_complete hd
    refine ⟨n, fun f b hf => ?_⟩
    have : ifaceAsString W h f t b v = .ok (b ++ Doc.null.text) := by
      unfold ifaceAsString; rw [hn f hf]; exact congrArg _ (appendNull_eq _)
    rcases isIface_cases hi with hr | ⟨i, hr⟩ <;> (unfold encodeAsString; rw [hr]; exact this)
  | @iface _ t' v' txt hi hd hb =>
    obtain ⟨n, hn⟩ := derefAll_complete hd
    refine ⟨n, fun f b hf => ?_⟩
    have : ifaceAsString W h f t b v = .ok (b ++ (strDoc txt).text) := by
      unfold ifaceAsString; rw [hn f hf]; exact basicText_complete hb
    rcases isIface_cases hi with hr | ⟨i, hr⟩ <;> (unfold encodeAsString; rw [hr]; exact this)

theorem callMarshaler_complete {W : World} {h : Heap} {t : Ty} {b raw : Bytes} {v : GV} (hm : Marshaled W h t v raw) :
    callMarshaler W h t b v = .ok (b ++ raw) := by
  cases hm with
  | value h1 h2 h3 h4 =>
    unfold callMarshaler
    simp only []
    split
    · rename_i id
      split
      · rename_i hv; exact absurd rfl (h3 id rfl hv)
      · rw [h4]; rfl
    · exact absurd rfl h2
    · exact absurd rfl (h1 _ _)
    · rw [h4]; rfl
  | @iface dt dv _ h3 h4 =>
    unfold callMarshaler
    simp only []
    split
    · rename_i id
      split
      · rename_i hv; exact absurd rfl (h3 id rfl hv)
      · rw [h4]; rfl
    · rw [h4]; rfl

/-! ### Values -/

/-- A bound that holds for all elements of a list. -/
theorem uniform_bound {α : Type} (l : List α) (P : Nat → α → Nat → Prop) (h : ∀ i x, l[i]? = some x → ∃ F, ∀ f, F ≤ f → P i x f) :
    ∃ F, ∀ i x, l[i]? = some x → ∀ f, F ≤ f → P i x f := by
  induction l generalizing P with
  | nil => exact ⟨0, fun i x hx => by simp at hx⟩
  | cons a l ih =>
    obtain ⟨F1, h1⟩ := h 0 a rfl
    obtain ⟨F2, h2⟩ := ih (fun i => P (i + 1)) (fun i x hx => h (i + 1) x (by simpa using hx))
    refine ⟨max F1 F2, fun i x hx f hf => ?_⟩
    cases i with
    | zero => simp at hx; subst hx; exact h1 f (by omega)
    | succ i => exact h2 i x (by simpa using hx) f (by omega)

/-- What the code runs in each mode. -/
def RunAt (W : World) (h : Heap) (cf : Nat) (R : Prop) (m : Mode) (st : Stack) (p : Path) (t : Ty) (v : GV) (tx : Bytes) (f : Nat) : Prop :=
  match m with
  | .typed => ∀ b, Done R (ctxOf st) b ((encF W h cf f).comp p t (ctxOf st) b v) tx
  | .kind => ∀ b, Done R (ctxOf st) b (encodeKind W h f (encF W h cf f) p t (ctxOf st) b v) tx
  | .held => ∀ b, Done R (ctxOf st) b ((encF W h cf f).held p t (ctxOf st) b v) tx
  | .field str => ∀ (fl : EField) b, fl.str = str → fl.ty = t → Done R (ctxOf st) b (encodeField W h f ((encF W h cf f).comp p) fl (ctxOf st) b v) tx

theorem scalarDoc_kind {W : World} {t : Ty} {v : GV} {d : Doc} (h : ScalarDoc W t v d) {b : Bytes} :
    encodeScalar W t b v = some (.ok (b ++ d.text)) := encodeScalar_complete h

theorem encodeScalar_none {W : World} {t : Ty} {b : Bytes} {v : GV}
    (h : (∃ id, W.resolve t = .struct id) ∨ (∃ n e, W.resolve t = .array n e) ∨ (∃ e, W.resolve t = .slice e) ∨ (∃ k e, W.resolve t = .map k e) ∨ W.isIface t = true) :
    encodeScalar W t b v = none := by
  unfold encodeScalar
  rcases h with ⟨_, h⟩ | ⟨_, _, h⟩ | ⟨_, h⟩ | ⟨_, _, h⟩ | h
  · rw [h]
  · rw [h]
  · rw [h]
  · rw [h]
  · rcases isIface_cases h with h | ⟨i, h⟩ <;> rw [h]

/-- The encoder run at a value follows the specification. -/
theorem encG_run {W : World} {h : Heap} {cf : Nat} {ok : Ty → Prop} {G : Stack → Nat → Bool → Prop} {R : Prop}
    (hok : ∀ t, ok t → Accepted W cf t) (hG : ∀ st a k, G st a k → Fresh st a k ∨ R) {m : Mode} {st : Stack} {p : Path} {t : Ty} {v : GV} {tx : Bytes}
    (he : EncG W h ok G m st p t v tx) : ∃ F, ∀ f, F ≤ f → RunAt W h cf R m st p t v tx f := by
  induction he with
  | marshaler hm hr =>
    refine ⟨1, fun f hf b => ?_⟩
    obtain ⟨g, rfl⟩ := Nat.exists_eq_add_of_le' hf
    simp only [encF, hm, if_true]
    exact done_ok' rfl |> fun x => by rw [callMarshaler_complete hr]; exact x
  | bytesNil =>
    refine ⟨1, fun f hf b => ?_⟩
    obtain ⟨g, rfl⟩ := Nat.exists_eq_add_of_le' hf
    simp only [encF, World.marOf, Bool.false_eq_true, if_false, if_true, encodeBytes]
    exact done_ok' (appendString_eq _ _)
  | bytes hs =>
    refine ⟨1, fun f hf b => ?_⟩
    obtain ⟨g, rfl⟩ := Nat.exists_eq_add_of_le' hf
    simp only [encF, World.marOf, Bool.false_eq_true, if_false, if_true, encodeBytes, hs]
    exact done_ok' (appendString_eq _ _)
  | plain hm hb hp _ ih =>
    obtain ⟨F, hF⟩ := ih
    refine ⟨F + 1, fun f hf b => ?_⟩
    obtain ⟨g, rfl⟩ := Nat.exists_eq_add_of_le' hf
    have hx := hF (g + F) (by omega) b
    simp only [encF]
    rw [if_neg (by simp [hm]), if_neg hb]
    split
    · rename_i e hr; simp [World.isPtr, hr] at hp
    · exact hx
  | @ptrNil st p t e hm hr hp hi =>
    refine ⟨1, fun f hf b => ?_⟩
    obtain ⟨g, rfl⟩ := Nat.exists_eq_add_of_le' hf
    simp only [encF]
    rw [if_neg (by simp [hm]), if_neg (by rintro rfl; simp [World.resolve] at hr), hr]
    simp only []
    have hd : ∀ enc, Done R (ctxOf st) b (deRefNil h e enc (ctxOf st) b .ptrNil) Doc.null.text := fun enc => done_ok' (appendNull_eq _)
    have hc : ∀ enc, Done R (ctxOf st) b (checkStruct h e enc (ctxOf st) b .ptrNil) Doc.null.text := fun enc => done_ok' (appendNull_eq _)
    split <;> first | exact hd _ | exact hc _ | skip
    · rename_i e' he; simp [World.isPtr, he] at hp
    · rename_i he; simp [World.isIface, he] at hi
    · rename_i he; simp [World.isIface, he] at hi
  | @ptrStruct st p t e a tx hm hr hs hg _ ih =>
    obtain ⟨F, hF⟩ := ih
    refine ⟨F + 1, fun f hf b => ?_⟩
    obtain ⟨g, rfl⟩ := Nat.exists_eq_add_of_le' hf
    have hx := hF (g + F) (by omega) b
    simp only [encF]
    rw [if_neg (by simp [hm]), if_neg (by rintro rfl; simp [World.resolve] at hr), hr]
    obtain ⟨id, hid⟩ := isStruct_cases hs
    simp only [hid]
    exact checkStruct_done (hG _ _ _ hg) hx
  | @ptrKind st p t e a tx hm hr hk _ ih =>
    obtain ⟨F, hF⟩ := ih
    refine ⟨F + 1, fun f hf b => ?_⟩
    obtain ⟨g, rfl⟩ := Nat.exists_eq_add_of_le' hf
    have hx := hF (g + F) (by omega) b
    simp only [encF]
    rw [if_neg (by simp [hm]), if_neg (by rintro rfl; simp [World.resolve] at hr), hr]
    simp only []
    split <;> first | exact hx | skip
    all_goals simp_all [directKind]
  | @ptrTyped st p t e a tx hm hr hp hi hs hk _ ih =>
    obtain ⟨F, hF⟩ := ih
    refine ⟨F + 1, fun f hf b => ?_⟩
    obtain ⟨g, rfl⟩ := Nat.exists_eq_add_of_le' hf
    have hx := hF (g + F) (by omega) b
    simp only [encF]
    rw [if_neg (by simp [hm]), if_neg (by rintro rfl; simp [World.resolve] at hr), hr]
    simp only []
    split <;> first | exact hx | skip
    all_goals simp_all [directKind, World.isPtr, World.isIface, World.isStruct]
  | @ptrIface st p t e v tx hm hr hi _ ih =>
    obtain ⟨F, hF⟩ := ih
    refine ⟨F + 1, fun f hf b => ?_⟩
    obtain ⟨g, rfl⟩ := Nat.exists_eq_add_of_le' hf
    have hx := hF (g + F) (by omega) b
    simp only [encF]
    rw [if_neg (by simp [hm]), if_neg (by rintro rfl; simp [World.resolve] at hr), hr]
    simp only []
    rcases isIface_cases hi with he | ⟨i, he⟩ <;> (rw [he]; exact hx)
  | scalar hs =>
    refine ⟨0, fun f hf b => ?_⟩
    unfold encodeKind
    rw [encodeScalar_complete hs]
    exact done_ok
  | @struct st p t id vs ws tx hr hw _ ih =>
    obtain ⟨F, hF⟩ := uniform_bound ws (fun j w f => RunAt W h cf R (.field w.str) st (w.idx :: p) w.ty w.val (tx j) f) ih
    refine ⟨F, fun f hf b => ?_⟩
    unfold encodeKind
    rw [encodeScalar_none (.inl ⟨_, hr⟩), hr]
    simp only []
    refine encodeStruct_done hw (fun j w fl b hj h1 h2 h3 => ?_)
    have := hF j w hj f hf fl b h2 h3
    rw [h1]
    exact this
  | @array st p t n e vs tx hr hl _ ih =>
    obtain ⟨F, hF⟩ := uniform_bound vs (fun j w f => RunAt W h cf R .typed st (j :: p) e w (tx j) f) ih
    refine ⟨F, fun f hf b => ?_⟩
    unfold encodeKind
    rw [encodeScalar_none (.inr (.inl ⟨_, _, hr⟩)), hr]
    simp only [hl, if_true]
    rw [← hl]
    exact encodeElems_done (fun j w b hj => hF j w hj f hf b)
  | sliceNil hr =>
    refine ⟨0, fun f hf b => ?_⟩
    unfold encodeKind
    rw [encodeScalar_none (.inr (.inr (.inl ⟨_, hr⟩))), hr]
    exact done_ok' (appendNull_eq _)
  | @slice st p t e a n vs tx hr hg hv _ ih =>
    obtain ⟨F, hF⟩ := uniform_bound vs (fun j w f => RunAt W h cf R .typed ((a, true) :: st) (j :: p) e w (tx j) f) ih
    refine ⟨F, fun f hf b => ?_⟩
    unfold encodeKind
    rw [encodeScalar_none (.inr (.inr (.inl ⟨_, hr⟩))), hr]
    simp only [hv]
    exact checkRecursive_done (hG _ _ _ hg) (encodeElems_done (fun j w b hj => hF j w hj f hf b))
  | mapNil hr =>
    refine ⟨0, fun f hf b => ?_⟩
    unfold encodeKind
    rw [encodeScalar_none (.inr (.inr (.inr (.inl ⟨_, _, hr⟩)))), hr]
    exact done_ok' (appendNull_eq _)
  | @map st p t k e a es kd tx hr hg hv hk _ ih =>
    obtain ⟨F, hF⟩ := uniform_bound es (fun j w f => RunAt W h cf R .typed ((a, true) :: st) (j :: p) e w.2 (tx j) f) (fun j w hw => ih j w.1 w.2 hw)
    refine ⟨F, fun f hf b => ?_⟩
    unfold encodeKind
    rw [encodeScalar_none (.inr (.inr (.inr (.inl ⟨_, _, hr⟩)))), hr]
    simp only [hv]
    exact checkRecursive_done (hG _ _ _ hg) (encodeEntries_done (fun j x y b hj => keyText_complete (hk j x y hj)) (fun j x y b hj => hF j (x, y) hj f hf b))
  | @iface st p t v tx hi _ ih =>
    obtain ⟨F, hF⟩ := ih
    refine ⟨F, fun f hf b => ?_⟩
    have hx := hF f hf b
    unfold encodeKind
    rw [encodeScalar_none (.inr (.inr (.inr (.inr hi))))]
    rcases isIface_cases hi with he | ⟨i, he⟩ <;> (rw [he]; exact hx)
  | heldNil hd =>
    obtain ⟨n, hn⟩ := derefAll_complete hd
    refine ⟨n + 1, fun f hf b => ?_⟩
    obtain ⟨g, rfl⟩ : ∃ g, f = g + 1 := ⟨f - 1, by omega⟩
    simp only [encF, reflectValue]
    rw [hn _ (by omega)]
    exact done_ok' (appendNull_eq _)
  | heldScalar hd hs =>
    obtain ⟨n, hn⟩ := derefAll_complete hd
    refine ⟨n + 1, fun f hf b => ?_⟩
    obtain ⟨g, rfl⟩ : ∃ g, f = g + 1 := ⟨f - 1, by omega⟩
    simp only [encF, reflectValue]
    rw [hn _ (by omega)]
    simp only [andThen]
    rw [encodeScalar_complete hs]
    exact done_ok
  | @heldConcreteSlice st p t v t' v' e tx hd hr hi hg ho _ ih =>
    obtain ⟨n, hn⟩ := derefAll_complete hd
    obtain ⟨F, hF⟩ := ih
    obtain ⟨s, hs⟩ := hok _ ho
    refine ⟨F + n + 1, fun f hf b => ?_⟩
    obtain ⟨g, rfl⟩ : ∃ g, f = g + 1 := ⟨f - 1, by omega⟩
    have hx := hF g (by omega) b
    simp only [encF, reflectValue]
    rw [hn _ (by omega)]
    simp only [andThen]
    rw [encodeScalar_none (.inr (.inr (.inl ⟨_, hr⟩))), hr]
    simp only []
    have ha : v'.addr = addrOf v' := by cases v' <;> rfl
    rw [ha]
    refine reflectRecursive_done (hG _ _ _ hg) ?_
    unfold reflectSlice
    simp only [hi, Bool.not_false, if_true, hs, andThen]
    exact hx
  | @heldSliceNil st p t v t' e hd hr hi hg =>
    obtain ⟨n, hn⟩ := derefAll_complete hd
    refine ⟨n + 1, fun f hf b => ?_⟩
    obtain ⟨g, rfl⟩ : ∃ g, f = g + 1 := ⟨f - 1, by omega⟩
    simp only [encF, reflectValue]
    rw [hn _ (by omega)]
    simp only [andThen]
    rw [encodeScalar_none (.inr (.inr (.inl ⟨_, hr⟩))), hr]
    simp only []
    refine reflectRecursive_done (hG _ _ _ hg) ?_
    unfold reflectSlice
    simp only [hi, Bool.not_true, Bool.false_eq_true, if_false]
    exact done_ok' (appendNull_eq _)
  | @heldSlice st p t v t' e a m vs tx hd hr hi hg hv _ ih =>
    obtain ⟨n, hn⟩ := derefAll_complete hd
    obtain ⟨F, hF⟩ := uniform_bound vs (fun j w f => RunAt W h cf R .held ((a, false) :: st) (j :: p) e w (tx j) f) ih
    refine ⟨F + n + 1, fun f hf b => ?_⟩
    obtain ⟨g, rfl⟩ : ∃ g, f = g + 1 := ⟨f - 1, by omega⟩
    simp only [encF, reflectValue]
    rw [hn _ (by omega)]
    simp only [andThen]
    rw [encodeScalar_none (.inr (.inr (.inl ⟨_, hr⟩))), hr]
    simp only []
    refine reflectRecursive_done (hG _ _ _ hg) ?_
    unfold reflectSlice
    simp only [hi, Bool.not_true, Bool.false_eq_true, if_false, hv]
    exact encodeElems_done (fun j w b hj => hF j w hj g (by omega) b)
  | @heldMapNil st p t v t' k e hd hr hk hg =>
    obtain ⟨n, hn⟩ := derefAll_complete hd
    refine ⟨n + 1, fun f hf b => ?_⟩
    obtain ⟨g, rfl⟩ : ∃ g, f = g + 1 := ⟨f - 1, by omega⟩
    simp only [encF, reflectValue]
    rw [hn _ (by omega)]
    simp only [andThen]
    rw [encodeScalar_none (.inr (.inr (.inr (.inl ⟨_, _, hr⟩)))), hr]
    simp only []
    refine reflectRecursive_done (hG _ _ _ hg) ?_
    unfold reflectMap
    simp only [mapKeyOk_iff.2 hk, Bool.not_true, Bool.false_eq_true, if_false]
    exact done_ok' (appendNull_eq _)
  | @heldMap st p t v t' k e a es kd tx hd hr hk hi hg hv hkd _ ih =>
    obtain ⟨n, hn⟩ := derefAll_complete hd
    obtain ⟨F, hF⟩ := uniform_bound es (fun j w f => RunAt W h cf R .held ((a, false) :: st) (j :: p) e w.2 (tx j) f) (fun j w hw => ih j w.1 w.2 hw)
    refine ⟨F + n + 1, fun f hf b => ?_⟩
    obtain ⟨g, rfl⟩ : ∃ g, f = g + 1 := ⟨f - 1, by omega⟩
    simp only [encF, reflectValue]
    rw [hn _ (by omega)]
    simp only [andThen]
    rw [encodeScalar_none (.inr (.inr (.inr (.inl ⟨_, _, hr⟩)))), hr]
    simp only []
    refine reflectRecursive_done (hG _ _ _ hg) ?_
    unfold reflectMap
    simp only [mapKeyOk_iff.2 hk, Bool.not_true, Bool.false_eq_true, if_false, hv]
    split
    · rename_i he
      have : es = [] := by simpa using he
      subst this
      exact done_ok' (emptyArray_eq _ _ _)
    · exact encodeEntries_done (fun j x y b hj => keyText_complete (hkd j x y hj)) (fun j x y b hj => hF j (x, y) hj g (by omega) b)
  | @heldConcreteMap st p t v t' k e a es kd tx hd hr hk hi hg hv ho hkd _ ih =>
    obtain ⟨n, hn⟩ := derefAll_complete hd
    obtain ⟨F, hF⟩ := uniform_bound es (fun j w f => RunAt W h cf R .typed ((a, false) :: st) (j :: p) e w.2 (tx j) f) (fun j w hw => ih j w.1 w.2 hw)
    refine ⟨F + n + 1, fun f hf b => ?_⟩
    obtain ⟨g, rfl⟩ : ∃ g, f = g + 1 := ⟨f - 1, by omega⟩
    simp only [encF, reflectValue]
    rw [hn _ (by omega)]
    simp only [andThen]
    rw [encodeScalar_none (.inr (.inr (.inr (.inl ⟨_, _, hr⟩)))), hr]
    simp only []
    refine reflectRecursive_done (hG _ _ _ hg) ?_
    unfold reflectMap
    simp only [mapKeyOk_iff.2 hk, Bool.not_true, Bool.false_eq_true, if_false, hv]
    split
    · rename_i he
      have : es = [] := by simpa using he
      subst this
      exact done_ok' (emptyArray_eq _ _ _)
    · rename_i he
      obtain ⟨s, hs⟩ := hok _ (ho (by simpa using he))
      simp only [hi, Bool.false_eq_true, if_false, hs, andThen]
      exact encodeEntries_done (fun j x y b hj => keyText_complete (hkd j x y hj)) (fun j x y b hj => hF j (x, y) hj g (by omega) b)
  | @heldStruct st p t v t' v' tx hd hs ho _ ih =>
    obtain ⟨n, hn⟩ := derefAll_complete hd
    obtain ⟨F, hF⟩ := ih
    obtain ⟨s, hsn⟩ := hok _ ho
    obtain ⟨id, hr⟩ := isStruct_cases hs
    refine ⟨F + n + 1, fun f hf b => ?_⟩
    obtain ⟨g, rfl⟩ : ∃ g, f = g + 1 := ⟨f - 1, by omega⟩
    have hx := hF g (by omega) b
    simp only [encF, reflectValue]
    rw [hn _ (by omega)]
    simp only [andThen]
    rw [encodeScalar_none (.inl ⟨_, hr⟩), hr]
    simp only [hsn]
    exact hx
  | @fieldPlain st p t v tx hp _ ih =>
    obtain ⟨F, hF⟩ := ih
    refine ⟨F, fun f hf fl b hs ht => ?_⟩
    have hx := hF f hf b
    unfold encodeField
    rw [ht, hs]
    split
    · rename_i e he; simp [World.isPtr, he] at hp
    · exact hx
  | @fieldPtrNil st p t e str hr =>
    refine ⟨0, fun f hf fl b hs ht => ?_⟩
    unfold encodeField
    rw [ht, hr]
    simp only []
    split
    · exact done_ok' (appendNull_eq _)
    · exact done_ok' (appendNull_eq _)
  | @fieldPtrStruct st p t e a tx hr hs hg _ ih =>
    obtain ⟨F, hF⟩ := ih
    refine ⟨F, fun f hf fl b hfs ht => ?_⟩
    have hx := hF f hf b
    unfold encodeField
    rw [ht, hr]
    simp only [hfs, hs, Bool.not_false, Bool.and_true, if_true]
    exact checkStruct_done (hG _ _ _ hg) hx
  | @fieldPtr st p t e a tx hr hs _ ih =>
    obtain ⟨F, hF⟩ := ih
    refine ⟨F, fun f hf fl b hfs ht => ?_⟩
    have hx := hF f hf b
    unfold encodeField
    rw [ht, hr]
    simp only [hfs, hs, Bool.and_false, Bool.false_eq_true, if_false]
    exact hx
  | @fieldStr st p t v d hp hd =>
    obtain ⟨F, hF⟩ := encodeAsString_complete hd
    refine ⟨F, fun f hf fl b hs ht => ?_⟩
    unfold encodeField
    rw [ht, hs]
    split
    · rename_i e he; simp [World.isPtr, he] at hp
    · simp only [if_true]
      rw [hF f b hf]
      exact done_ok
  | @fieldStrPtr st p t e a d hr hd =>
    obtain ⟨F, hF⟩ := encodeAsString_complete hd
    refine ⟨F, fun f hf fl b hs ht => ?_⟩
    unfold encodeField
    rw [ht, hr, hs]
    simp only [Bool.not_true, Bool.false_and, Bool.false_eq_true, if_false, if_true, deRefNil]
    rw [hF f b hf]
    exact done_ok

end Verif

import Verif.Proofs.EncSound
import Verif.Spec.EncCalls
/-
The encoder with methods that keep state: the text written has the shape that belongs to the value, filled with what the methods returned, and the calls made are those
of the shape, in this order.
-/
namespace Verif
open Spec

variable {W : World} {h : Heap} {M : MarHooks}

theorem callsOf_append {ps qs : List Piece} : callsOf (ps ++ qs) = callsOf ps ++ callsOf qs := by
  induction ps with
  | nil => rfl
  | cons p ps ih => cases p <;> simp [callsOf, ih]

theorem fills_append {cs : MarCalls} {ps qs : List Piece} {o o' : Bytes} (h1 : Fills M cs ps o) (h2 : Fills M (cs ++ callsOf ps) qs o') :
    Fills M cs (ps ++ qs) (o ++ o') := by
  induction h1 with
  | nil => simpa [callsOf] using h2
  | text _ ih => rw [List.cons_append, List.append_assoc]; exact .text (ih h2)
  | call hm _ ih => rw [List.cons_append, List.append_assoc]; exact .call hm (ih (by simpa [callsOf] using h2))

theorem stops_append {α : Type} {cs cs' : MarCalls} {ps : List Piece} {o : Bytes} {r : Res α} (h1 : Fills M cs ps o) (h2 : Stops M (cs ++ callsOf ps) cs' r) :
    Stops M cs (callsOf ps ++ cs') r := by
  induction h1 with
  | nil => simpa [callsOf] using h2
  | text _ ih => exact ih h2
  | call hm _ ih => exact .next hm (ih (by simpa [callsOf] using h2))

/-- What a run that starts after the calls `cs0` leaves behind: the calls of some pieces, and with success these pieces filled; or a failure. -/
def OutA {α : Type} (M : MarHooks) (cs0 : MarCalls) (r : EHR α) (Q : α → List Piece → Bytes → Prop) : Prop :=
  ∃ cs, r.1.calls = cs0 ++ cs ∧ ((∃ a ps o, r.2 = .ok a ∧ Q a ps o ∧ callsOf ps = cs ∧ Fills M cs0 ps o) ∨ Stops M cs0 cs r.2)

/-- The same for runs that add to a buffer. -/
abbrev OutH (M : MarHooks) (cs0 : MarCalls) (b : Bytes) (r : EHR Bytes) (P : List Piece → Prop) : Prop := OutA M cs0 r fun b' ps o => b' = b ++ o ∧ P ps

theorem outA_mono {α : Type} {cs0 : MarCalls} {r : EHR α} {Q Q' : α → List Piece → Bytes → Prop} (h1 : OutA M cs0 r Q) (h2 : ∀ a ps o, Q a ps o → Q' a ps o) :
    OutA M cs0 r Q' := by
  obtain ⟨cs, hc, ⟨a, ps, o, h3, h4, h5⟩ | h3⟩ := h1
  · exact ⟨cs, hc, .inl ⟨a, ps, o, h3, h2 a ps o h4, h5⟩⟩
  · exact ⟨cs, hc, .inr h3⟩

theorem outH_mono {cs0 : MarCalls} {b : Bytes} {r : EHR Bytes} {P P' : List Piece → Prop} (h1 : OutH M cs0 b r P) (h2 : ∀ ps, P ps → P' ps) : OutH M cs0 b r P' :=
  outA_mono h1 fun _ ps _ hq => ⟨hq.1, h2 ps hq.2⟩

theorem outA_fail {α : Type} {c : CtxH} {r : Res α} {Q : α → List Piece → Bytes → Prop} (hr : ∀ a, r ≠ .ok a) : OutA M c.calls (c, r) Q :=
  ⟨[], by simp, .inr (.here hr)⟩

theorem outA_err {α : Type} {c : CtxH} {e : Err} {Q : α → List Piece → Bytes → Prop} : OutA M c.calls (c, (.err e : Res α)) Q := outA_fail (fun _ h => by cases h)
theorem outA_panic {α : Type} {c : CtxH} {e : Panic} {Q : α → List Piece → Bytes → Prop} : OutA M c.calls (c, (.panic e : Res α)) Q := outA_fail (fun _ h => by cases h)
theorem outA_diverge {α : Type} {c : CtxH} {Q : α → List Piece → Bytes → Prop} : OutA M c.calls (c, (.diverge : Res α)) Q := outA_fail (fun _ h => by cases h)

theorem fills_one {cs : MarCalls} {s : Bytes} : Fills M cs [.text s] s := by
  have := Fills.text (M := M) (h := cs) (s := s) .nil
  rwa [List.append_nil] at this

theorem outH_text {c : CtxH} {b tx : Bytes} {P : List Piece → Prop} (hp : P [.text tx]) : OutH M c.calls b (c, .ok (b ++ tx)) P :=
  ⟨[], by simp, .inl ⟨_, [.text tx], tx, rfl, ⟨rfl, hp⟩, rfl, fills_one⟩⟩

theorem outH_empty {c : CtxH} {b : Bytes} {P : List Piece → Prop} (hp : P []) : OutH M c.calls b (c, .ok b) P :=
  ⟨[], by simp, .inl ⟨_, [], [], rfl, ⟨by simp, hp⟩, rfl, .nil⟩⟩

theorem outH_res {c : CtxH} {b : Bytes} {r : Res Bytes} {P : List Piece → Prop} (hr : ∀ b', r = .ok b' → ∃ tx, b' = b ++ tx ∧ P [.text tx]) : OutH M c.calls b (c, r) P := by
  cases r with
  | ok b' => obtain ⟨tx, rfl, hp⟩ := hr b' rfl; exact outH_text hp
  | err e => exact outA_err
  | panic p => exact outA_panic
  | diverge => exact outA_diverge

theorem outA_andThen {α β : Type} {c : CtxH} {r : Res α} {k : CtxH → α → EHR β} {Q : β → List Piece → Bytes → Prop} (hk : ∀ a, r = .ok a → OutA M c.calls (k c a) Q) :
    OutA M c.calls (andThenH (c, r) k) Q := by
  cases r with
  | ok a => exact hk a rfl
  | err e => exact outA_err
  | panic p => exact outA_panic
  | diverge => exact outA_diverge

theorem sameFail_trans {α β γ : Type} {a : Res α} {b : Res β} {c : Res γ} (h1 : SameFail a b) (h2 : SameFail b c) : SameFail a c := by
  cases h1 <;> cases h2 <;> constructor

theorem sameFail_ok {α β : Type} {a : Res α} {b : β} (h1 : SameFail a (.ok b)) : False := by
  cases h1

theorem outA_seq {α β : Type} {cs0 : MarCalls} {r : EHR α} {k : CtxH → α → EHR β} {Q : α → List Piece → Bytes → Prop} {Q' : β → List Piece → Bytes → Prop}
    (hr : OutA M cs0 r Q) (hk : ∀ c a ps o, Q a ps o → OutA M c.calls (k c a) fun b' ps' o' => Q' b' (ps ++ ps') (o ++ o')) : OutA M cs0 (andThenH r k) Q' := by
  obtain ⟨c, r⟩ := r
  obtain ⟨cs, hc, ⟨a, ps, o, h1, h2, h3, h4⟩ | h1⟩ := hr
  · simp only [] at h1 hc
    subst h1 h3
    obtain ⟨cs', hc', h5⟩ := hk c a ps o h2
    rw [hc] at hc' h5
    refine ⟨callsOf ps ++ cs', by rw [← List.append_assoc]; exact hc', ?_⟩
    rcases h5 with ⟨b', ps', o', g1, g2, g3, g4⟩ | h5
    · exact .inl ⟨b', ps ++ ps', o ++ o', g1, g2, by rw [callsOf_append, g3], fills_append h4 g4⟩
    · exact .inr (stops_append h4 h5)
  · simp only [] at h1 hc
    have conv : ∀ {r' : Res β}, SameFail r r' → Stops M cs0 cs r' := by
      intro r' hs
      clear hc hk
      induction h1 with
      | here hn =>
        refine .here fun a ha => ?_
        subst ha
        cases hs
      | failed hf => exact .failed (sameFail_trans hf hs)
      | next hm _ ih => exact .next hm (ih hs)
    cases r with
    | ok a =>
      exfalso
      clear conv hc hk
      generalize hx : Res.ok a = x at h1
      induction h1 with
      | here hn => exact hn a hx.symm
      | failed hf => subst hx; exact sameFail_ok hf
      | next _ _ ih => exact ih hx
    | err e => exact ⟨cs, hc, .inr (conv .err)⟩
    | panic e => exact ⟨cs, hc, .inr (conv .panic)⟩
    | diverge => exact ⟨cs, hc, .inr (conv .diverge)⟩

/-- After a run that adds to a buffer. -/
theorem outH_seq {cs0 : MarCalls} {b : Bytes} {r : EHR Bytes} {k : CtxH → Bytes → EHR Bytes} {P P' : List Piece → Prop} (hr : OutH M cs0 b r P)
    (hk : ∀ c b' ps, P ps → OutH M c.calls b' (k c b') fun ps' => P' (ps ++ ps')) : OutH M cs0 b (andThenH r k) P' := by
  refine outA_seq hr ?_
  rintro c b' ps o ⟨rfl, hp⟩
  exact outA_mono (hk c (b ++ o) ps hp) fun b'' ps' o' hq => ⟨by rw [hq.1, List.append_assoc], hq.2⟩

/-- A fixed text was added before. -/
theorem outH_shift {cs0 : MarCalls} {b x : Bytes} {r : EHR Bytes} {P : List Piece → Prop} (hr : OutH M cs0 (b ++ x) r fun ps => P (.text x :: ps)) : OutH M cs0 b r P := by
  obtain ⟨cs, hc, ⟨b', ps, o, h1, ⟨h2, h3⟩, h4, h5⟩ | h1⟩ := hr
  · exact ⟨cs, hc, .inl ⟨b', .text x :: ps, x ++ o, h1, ⟨by rw [h2, List.append_assoc], h3⟩, h4, .text h5⟩⟩
  · exact ⟨cs, hc, .inr h1⟩

/-- Only the context was changed. -/
theorem outA_calls {α : Type} {cs0 : MarCalls} {r r' : EHR α} {Q : α → List Piece → Bytes → Prop} (hr : OutA M cs0 r Q) (h1 : r'.1.calls = r.1.calls) (h2 : r'.2 = r.2) :
    OutA M cs0 r' Q := by
  unfold OutA
  rw [h1, h2]
  exact hr

/-! ### Loops -/

theorem bodyPieces_congr {kd kd' : Nat → Doc} {px px' : Nat → List Piece} {i n : Nat} (hk : ∀ j, i ≤ j → j < i + n → (kd j).text = (kd' j).text)
    (ht : ∀ j, i ≤ j → j < i + n → px j = px' j) : bodyPieces kd px i n = bodyPieces kd' px' i n := by
  induction n generalizing i with
  | zero => rfl
  | succ n ih =>
    rw [bodyPieces, bodyPieces, hk i (by omega) (by omega), ht i (by omega) (by omega),
      ih (fun j h1 h2 => hk j (by omega) (by omega)) (fun j h1 h2 => ht j (by omega) (by omega))]

theorem bodyPieces_shift {kd : Nat → Doc} {px : Nat → List Piece} {i n : Nat} :
    bodyPieces (fun j => kd (j + 1)) (fun j => px (j + 1)) i n = bodyPieces kd px (i + 1) n := by
  induction n generalizing i with
  | zero => rfl
  | succ n ih => rw [bodyPieces, bodyPieces, ih]

theorem elemsLoop_calls {enc : Nat → CtxH → Bytes → GV → EHR Bytes} {P : Nat → GV → List Piece → Prop} {vs : List GV} {i : Nat} {c : CtxH} {b : Bytes}
    (hp : ∀ j v c b, vs[j]? = some v → OutH M c.calls b (enc (i + j) c b v) (P (i + j) v)) :
    OutH M c.calls b (elemsLoopH enc i vs c b) fun ps =>
      ∃ f : Nat → List Piece, ps = bodyPieces idxDoc f i vs.length ∧ ∀ j v, vs[j]? = some v → P (i + j) v (f (i + j)) := by
  induction vs generalizing i c b with
  | nil => exact outH_empty ⟨fun _ => [], rfl, by simp⟩
  | cons v vs ih =>
    rw [elemsLoopH, appendIntBytes_eq, intText_natCast]
    apply outH_shift (x := (Doc.int (natText i)).text)
    refine outH_seq (hp 0 v c _ rfl) fun c' b' ps h0 => ?_
    refine outH_mono (ih (i := i + 1) fun j w c b hw => ?_) ?_
    · rw [show i + 1 + j = i + (j + 1) by omega]; exact hp (j + 1) w c b hw
    · rintro ps' ⟨f, rfl, hf⟩
      refine ⟨fun j => if j = i then ps else f j, ?_, ?_⟩
      · rw [List.length_cons, bodyPieces, if_pos rfl]
        rw [bodyPieces_congr (i := i + 1) (kd' := idxDoc) (px := fun j => if j = i then ps else f j) (px' := f) (fun _ _ _ => rfl) (fun j h1 _ => by simp [show j ≠ i by omega])]
        simp [idxDoc]
      · intro j w hw
        cases j with
        | zero => simp at hw; subst hw; simpa using h0
        | succ j =>
          have hne : i + (j + 1) ≠ i := by omega
          simp only [hne, if_false]
          have := hf j w (by simpa using hw)
          rw [show i + 1 + j = i + (j + 1) by omega] at this; exact this

theorem encodeElems_calls {enc : Nat → CtxH → Bytes → GV → EHR Bytes} {P : Nat → GV → List Piece → Prop} {vs : List GV} {c : CtxH} {b : Bytes}
    (hp : ∀ j v c b, vs[j]? = some v → OutH M c.calls b (enc j c b v) (P j v)) :
    OutH M c.calls b (encodeElemsH enc vs c b) fun ps =>
      ∃ f : Nat → List Piece, ps = arrPieces vs.length idxDoc f ∧ ∀ j v, vs[j]? = some v → P j v (f j) := by
  unfold encodeElemsH
  rw [arrayBegin_eq]
  apply outH_shift (x := [97, 58] ++ natText vs.length ++ [58, 123])
  refine outH_seq (elemsLoop_calls (P := P) (fun j v c b hv => by rw [Nat.zero_add]; exact hp j v c b hv)) ?_
  rintro c' b' ps ⟨f, rfl, hf⟩
  exact outH_text ⟨f, rfl, fun j v hv => by simpa using hf j v hv⟩

theorem entriesLoop_calls {key : Bytes → GV → Res Bytes} {K : GV → Doc → Prop} {enc : Nat → CtxH → Bytes → GV → EHR Bytes}
    {P : Nat → GV → List Piece → Prop} {es : List (GV × GV)} {i : Nat} {c : CtxH} {b : Bytes}
    (hk : ∀ k b b', key b k = .ok b' → ∃ d, b' = b ++ d.text ∧ K k d)
    (hp : ∀ j x y c b, es[j]? = some (x, y) → OutH M c.calls b (enc (i + j) c b y) (P (i + j) y)) :
    OutH M c.calls b (entriesLoopH key enc i es c b) fun ps =>
      ∃ (kd : Nat → Doc) (f : Nat → List Piece), ps = bodyPieces kd f i es.length ∧
        (∀ j x y, es[j]? = some (x, y) → K x (kd (i + j))) ∧ ∀ j x y, es[j]? = some (x, y) → P (i + j) y (f (i + j)) := by
  induction es generalizing i c b with
  | nil => exact outH_empty ⟨fun _ => .null, fun _ => [], rfl, by simp, by simp⟩
  | cons q es ih =>
    obtain ⟨x, y⟩ := q
    rw [entriesLoopH]
    apply outA_andThen
    intro b' hb'
    obtain ⟨d, rfl, hd⟩ := hk _ _ _ hb'
    apply outH_shift (x := d.text)
    refine outH_seq (hp 0 x y c _ rfl) fun c' b' ps h0 => ?_
    refine outH_mono (ih (i := i + 1) fun j x' y' c b hw => ?_) ?_
    · rw [show i + 1 + j = i + (j + 1) by omega]; exact hp (j + 1) x' y' c b hw
    · rintro ps' ⟨kd, f, rfl, hkd, hf⟩
      refine ⟨fun j => if j = i then d else kd j, fun j => if j = i then ps else f j, ?_, ?_, ?_⟩
      · rw [List.length_cons, bodyPieces, if_pos rfl, if_pos rfl]
        rw [bodyPieces_congr (i := i + 1) (kd := fun j => if j = i then d else kd j) (kd' := kd) (px := fun j => if j = i then ps else f j) (px' := f)
          (fun j h1 _ => by simp [show j ≠ i by omega]) (fun j h1 _ => by simp [show j ≠ i by omega])]
      · intro j x' y' hw
        cases j with
        | zero => simp at hw; obtain ⟨rfl, rfl⟩ := hw; simpa using hd
        | succ j =>
          have hne : i + (j + 1) ≠ i := by omega
          simp only [hne, if_false]
          have := hkd j x' y' (by simpa using hw)
          rw [show i + 1 + j = i + (j + 1) by omega] at this; exact this
      · intro j x' y' hw
        cases j with
        | zero => simp at hw; obtain ⟨rfl, rfl⟩ := hw; simpa using h0
        | succ j =>
          have hne : i + (j + 1) ≠ i := by omega
          simp only [hne, if_false]
          have := hf j x' y' (by simpa using hw)
          rw [show i + 1 + j = i + (j + 1) by omega] at this; exact this

theorem encodeEntries_calls {key : Bytes → GV → Res Bytes} {K : GV → Doc → Prop} {enc : Nat → CtxH → Bytes → GV → EHR Bytes}
    {P : Nat → GV → List Piece → Prop} {es : List (GV × GV)} {c : CtxH} {b : Bytes}
    (hk : ∀ k b b', key b k = .ok b' → ∃ d, b' = b ++ d.text ∧ K k d)
    (hp : ∀ j x y c b, es[j]? = some (x, y) → OutH M c.calls b (enc j c b y) (P j y)) :
    OutH M c.calls b (encodeEntriesH key enc es c b) fun ps =>
      ∃ (kd : Nat → Doc) (f : Nat → List Piece), ps = arrPieces es.length kd f ∧
        (∀ j x y, es[j]? = some (x, y) → K x (kd j)) ∧ ∀ j x y, es[j]? = some (x, y) → P j y (f j) := by
  unfold encodeEntriesH
  rw [arrayBegin_eq]
  apply outH_shift (x := [97, 58] ++ natText es.length ++ [58, 123])
  refine outH_seq (entriesLoop_calls (P := P) (K := K) hk (fun j x y c b hv => by rw [Nat.zero_add]; exact hp j x y c b hv)) ?_
  rintro c' b' ps ⟨kd, f, rfl, hkd, hf⟩
  exact outH_text ⟨kd, f, rfl, fun j x y hv => by simpa using hkd j x y hv, fun j x y hv => by simpa using hf j x y hv⟩

/-! ### Structs -/

theorem fieldsLoop_calls {enc : EField → CtxH → Bytes → GV → EHR Bytes} {P : Bool → Nat → Ty → GV → List Piece → Prop}
    {fs : List Field} {pre vs : List GV} {c : CtxH} {sb : Bytes} {n : Nat}
    (hp : ∀ fl v c b, OutH M c.calls b (enc fl c b v) (P fl.str fl.idx fl.ty v)) (hl : vs.length = fs.length) :
    OutA M c.calls (fieldsLoopH enc (pre ++ vs) (efields W pre.length fs) c sb n) fun x ps o => x.1 = sb ++ o ∧
      ∃ (ws : List WField) (f : Nat → List Piece), x.2 = n + ws.length ∧ Written W pre.length fs vs ws ∧ ps = bodyPieces (keyAt ws) f 0 ws.length ∧
        ∀ j w, ws[j]? = some w → P w.str w.idx w.ty w.val (f j) := by
  induction fs generalizing pre vs c sb n with
  | nil =>
    have : vs = [] := by simpa using hl
    subst this
    simp only [efields, fieldsLoopH]
    exact ⟨[], by simp, .inl ⟨_, [], [], rfl, ⟨by simp, [], fun _ => [], by simp, .nil, rfl, by simp⟩, rfl, .nil⟩⟩
  | cons f fs ih =>
    cases vs with
    | nil => simp at hl
    | cons v vs =>
      have hl' : vs.length = fs.length := by simpa using hl
      have hpre : pre ++ v :: vs = (pre ++ [v]) ++ vs := by simp
      have hlen : (pre ++ [v]).length = pre.length + 1 := by simp
      have ih' := fun c sb n => ih (pre := pre ++ [v]) (vs := vs) (c := c) (sb := sb) (n := n) hl'
      simp only [hlen, ← hpre] at ih'
      rw [efields]
      by_cases hh : (decide ((structTag W f).key = [45]) || !f.exported) = true
      · simp only [hh, if_true]
        refine outA_mono (ih' c sb n) ?_
        rintro x ps o ⟨h1, ws, g, h2, h3, h4⟩
        refine ⟨h1, ws, g, h2, .hidden ?_ h3, h4⟩
        simp only [Bool.or_eq_true, decide_eq_true_eq, Bool.not_eq_true'] at hh
        rcases hh with hh | hh
        · exact .inr (hasKey_iff.2 hh)
        · exact .inl hh
      · have hh' : (structTag W f).key ≠ [45] ∧ f.exported = true := by
          simp only [Bool.or_eq_true, decide_eq_true_eq, Bool.not_eq_true', not_or] at hh
          exact ⟨hh.1, by simpa using hh.2⟩
        simp only [hh]
        rw [if_neg (by simp), fieldsLoopH, fieldName_eq]
        have hget : (pre ++ v :: vs)[pre.length]? = some v := by simp
        simp only [hget]
        by_cases ho : ((structTag W f).omitEmpty && v.isZero) = true
        · rw [if_pos ho]
          refine outA_mono (ih' c sb n) ?_
          rintro x ps o ⟨h1, ws, g, h2, h3, h4⟩
          simp only [Bool.and_eq_true] at ho
          exact ⟨h1, ws, g, h2, .omitted (tagMeaning_iff.2 ⟨rfl, by simp [ho.1], Iff.rfl⟩) (isZero_iff.1 ho.2) h3, h4⟩
        · rw [if_neg ho, appendString_eq]
          have h0 : OutH M c.calls sb (enc ⟨pre.length, (structTag W f).key, (structTag W f).omitEmpty, (structTag W f).isString, f.ty⟩ c
              (sb ++ (strDoc (structTag W f).key).text) v)
              (fun ps => ∃ qs, ps = .text (strDoc (structTag W f).key).text :: qs ∧ P (structTag W f).isString pre.length f.ty v qs) :=
            outH_shift (outH_mono (hp ⟨pre.length, (structTag W f).key, (structTag W f).omitEmpty, (structTag W f).isString, f.ty⟩ v c _) fun ps hx => ⟨ps, rfl, hx⟩)
          refine outA_seq h0 ?_
          rintro c' b' ps o ⟨rfl, qs, rfl, hq⟩
          refine outA_mono (ih' c' (sb ++ o) (n + 1)) ?_
          rintro x ps' o' ⟨h1, ws, g, h2, h3, rfl, h5⟩
          refine ⟨by rw [h1, List.append_assoc], _, fun j => if j = 0 then qs else g (j - 1), ?_,
            .keep hh'.2 (key := (structTag W f).key) (om := (structTag W f).omitEmpty = true) (str := (structTag W f).isString)
              (structTag_meaning W f) hh'.1 (fun ⟨g1, g2⟩ => ho (by simp [g1, isZero_iff.2 g2])) h3, ?_, ?_⟩
          · rw [h2, List.length_cons]; omega
          · rw [List.length_cons, bodyPieces]
            have hb := bodyPieces_shift (kd := keyAt (⟨pre.length, (structTag W f).key, (structTag W f).isString, f.ty, v⟩ :: ws))
              (px := fun j => if j = 0 then qs else g (j - 1)) (i := 0) (n := ws.length)
            rw [← hb]
            simp only [keyAt_cons, if_true, Nat.add_sub_cancel, Nat.succ_ne_zero, if_false]
            rfl
          · intro j w hw
            cases j with
            | zero => simp at hw; subst hw; simpa using hq
            | succ j => simpa using h5 j w (by simpa using hw)

theorem encodeStruct_calls {enc : EField → CtxH → Bytes → GV → EHR Bytes} {P : Bool → Nat → Ty → GV → List Piece → Prop}
    {fs : List Field} {c : CtxH} {b : Bytes} {v : GV} (hp : ∀ fl v c b, OutH M c.calls b (enc fl c b v) (P fl.str fl.idx fl.ty v)) :
    OutH M c.calls b (encodeStructH enc fs.length (efields W 0 fs) c b v) fun ps =>
      ∃ (vs : List GV) (ws : List WField) (f : Nat → List Piece), v = .struct vs ∧ Written W 0 fs vs ws ∧
        ps = arrPieces ws.length (keyAt ws) f ∧ ∀ j w, ws[j]? = some w → P w.str w.idx w.ty w.val (f j) := by
  cases v <;> try exact outA_panic
  rename_i vs
  unfold encodeStructH
  simp only []
  by_cases hl : vs.length ≠ fs.length
  · rw [if_pos hl]; exact outA_panic
  rw [if_neg hl]
  have h0 := fieldsLoop_calls (W := W) (P := P) (fs := fs) (pre := []) (vs := vs) (c := c) (sb := []) (n := 0) hp (by omega)
  simp only [List.length_nil, List.nil_append] at h0
  obtain ⟨cs, hc, ⟨x, ps, o, h1, ⟨h2, ws, g, h3, h4, h5, h6⟩, h7, h8⟩ | h1⟩ := h0
  · generalize fieldsLoopH enc vs (efields W 0 fs) c [] 0 = r at *
    obtain ⟨c1, r⟩ := r
    simp only [] at h1 hc
    subst h1
    obtain ⟨sb, n⟩ := x
    simp only [] at h2 h3
    subst h2 h3 h5
    refine ⟨cs, hc, .inl ⟨_, arrPieces ws.length (keyAt ws) g, [97, 58] ++ natText ws.length ++ [58, 123] ++ (sb ++ [125]), rfl, ⟨?_, vs, ws, g, rfl, h4, rfl, h6⟩, ?_, ?_⟩⟩
    · rw [Nat.zero_add, arrayBegin_eq]
      simp [cRBrace]
    · simp [arrPieces, callsOf, callsOf_append, h7]
    · have h9 := fills_append h8 (fills_one (M := M) (cs := c.calls ++ callsOf (bodyPieces (keyAt ws) g 0 ws.length)) (s := [125]))
      exact Fills.text h9
  · have h9 : OutA M c.calls (fieldsLoopH enc vs (efields W 0 fs) c [] 0) (fun _ _ _ => False) := ⟨cs, hc, .inr h1⟩
    exact outA_seq h9 fun _ _ _ _ hf => hf.elim

/-! ### Pointers and recursion checks -/

theorem checkRecursive_calls {enc : CtxH → Bytes → EHR Bytes} {a : Nat} {c : CtxH} {b : Bytes} {P : List Piece → Prop}
    (hp : ∀ c', c'.calls = c.calls → OutH M c.calls b (enc c' b) P) : OutH M c.calls b (checkRecursiveH enc a c b) P := by
  unfold checkRecursiveH
  simp only []
  split
  · exact outA_fail (c := { c with depth := c.depth + 1 - 1 }) (fun _ h => by cases h)
  · generalize hc' : ({ c with seen := _, depth := _ } : CtxH) = c'
    have h0 := hp c' (by rw [← hc'])
    revert h0
    generalize enc c' b = r
    intro h0
    obtain ⟨c1, r⟩ := r
    cases r <;> exact outA_calls h0 rfl rfl

theorem reflectRecursive_calls {enc : CtxH → Bytes → EHR Bytes} {a : Nat} {c : CtxH} {b : Bytes} {P : List Piece → Prop}
    (hp : ∀ c', c'.calls = c.calls → OutH M c.calls b (enc c' b) P) : OutH M c.calls b (reflectRecursiveH enc a c b) P := by
  unfold reflectRecursiveH
  split
  · exact outA_err
  · generalize hc' : ({ c with seen := _ } : CtxH) = c'
    have h0 := hp c' (by rw [← hc'])
    revert h0
    generalize enc c' b = r
    intro h0
    obtain ⟨c1, r⟩ := r
    cases r <;> exact outA_calls h0 rfl rfl

theorem checkStruct_calls {e : Ty} {enc : CtxH → Bytes → GV → EHR Bytes} {c : CtxH} {b : Bytes} {v : GV} {P : GV → List Piece → Prop}
    (hp : ∀ c' a, OutH M c'.calls b (enc c' b (h.deref e a)) (P (h.deref e a))) :
    OutH M c.calls b (checkStructH h e enc c b v) fun ps => (v = .ptrNil ∧ ps = [.text Doc.null.text]) ∨ ∃ a, v = .ptr a ∧ P (h.deref e a) ps := by
  cases v <;> try exact outA_panic
  · unfold checkStructH; rw [appendNull_eq]; exact outH_text (.inl ⟨rfl, rfl⟩)
  · rename_i a
    unfold checkStructH
    exact checkRecursive_calls fun c' hc' => by rw [← hc']; exact outH_mono (hp c' a) fun ps hx => .inr ⟨a, rfl, hx⟩

theorem deRefNil_calls {e : Ty} {enc : CtxH → Bytes → GV → EHR Bytes} {c : CtxH} {b : Bytes} {v : GV} {P : GV → List Piece → Prop}
    (hp : ∀ a, OutH M c.calls b (enc c b (h.deref e a)) (P (h.deref e a))) :
    OutH M c.calls b (deRefNilH h e enc c b v) fun ps => (v = .ptrNil ∧ ps = [.text Doc.null.text]) ∨ ∃ a, v = .ptr a ∧ P (h.deref e a) ps := by
  cases v <;> try exact outA_panic
  · unfold deRefNilH; rw [appendNull_eq]; exact outH_text (.inl ⟨rfl, rfl⟩)
  · rename_i a
    exact outH_mono (hp a) fun ps hx => .inr ⟨a, rfl, hx⟩

/-! ### Methods -/

theorem callHook_calls {t : Ty} {v : GV} {c : CtxH} {b : Bytes} {P : List Piece → Prop} (hp : P [.call t v]) : OutH M c.calls b (callHook M t v c b) P := by
  refine ⟨[(t, v)], rfl, ?_⟩
  unfold callHook
  simp only []
  cases hm : M c.calls t v with
  | ok raw =>
    refine .inl ⟨b ++ raw, [.call t v], raw, rfl, ⟨rfl, hp⟩, rfl, ?_⟩
    have := Fills.call hm .nil
    rwa [List.append_nil] at this
  | err e => exact .inr (.failed (by rw [hm]; exact .err))
  | panic e => exact .inr (.failed (by rw [hm]; exact .panic))
  | diverge => exact .inr (.failed (by rw [hm]; exact .diverge))

theorem callMarshaler_calls {t : Ty} {v : GV} {c : CtxH} {b : Bytes} : OutH M c.calls b (callMarshalerH W M t c b v) fun ps => ∃ t' v', CalledOn W t v t' v' ∧ ps = [.call t' v'] := by
  unfold callMarshalerH
  split
  · split
    · exact outA_panic
    · rename_i id hm
      exact callHook_calls ⟨_, _, .value (by simp) (by simp) (fun id' e => by cases e; exact fun e => absurd e hm), rfl⟩
  · exact outA_panic
  · rename_i dt dv _
    split
    · split
      · exact outA_panic
      · rename_i id hm
        exact callHook_calls ⟨_, _, .iface (fun id' e => by cases e; exact fun e => absurd e hm), rfl⟩
    · rename_i hn
      exact callHook_calls ⟨_, _, .iface (fun id' e _ e' => hn id' e e'), rfl⟩
  · rename_i h2 h3 h1
    exact callHook_calls ⟨_, _, .value (fun dt dv e => h3 dt dv e) h2 (fun id' e _ e' => h1 id' e e'), rfl⟩

/-! ### Values -/

/-- One level of recursion keeps to the shape. -/
structure RecShape (W : World) (h : Heap) (M : MarHooks) (r : RecH) : Prop where
  comp : ∀ p t c b v, OutH M c.calls b (r.comp p t c b v) (Shape W h .typed p t v)
  held : ∀ p t c b v, OutH M c.calls b (r.held p t c b v) (Shape W h .held p t v)

theorem encodeField_calls {f : Nat} {r : RecH} (hr : RecShape W h M r) {p : Path} {fl : EField} {c : CtxH} {b : Bytes} {v : GV} :
    OutH M c.calls b (encodeFieldH W h f (r.comp p) fl c b v) (Shape W h (.field fl.str) p fl.ty v) := by
  unfold encodeFieldH
  split
  · rename_i e he
    split
    · rename_i hs
      simp only [Bool.and_eq_true, Bool.not_eq_true'] at hs
      rw [hs.1]
      refine outH_mono (checkStruct_calls (P := Shape W h .typed p e) fun c' a => hr.comp p e c' b (h.deref e a)) ?_
      rintro ps (⟨rfl, rfl⟩ | ⟨a, rfl, hx⟩)
      · exact .fieldPtrNil he
      · exact .fieldPtr he hx
    · cases hstr : fl.str with
      | false =>
        simp only [Bool.false_eq_true, if_false]
        refine outH_mono (deRefNil_calls (P := Shape W h .typed p e) fun a => hr.comp p e c b (h.deref e a)) ?_
        rintro ps (⟨rfl, rfl⟩ | ⟨a, rfl, hx⟩)
        · exact .fieldPtrNil he
        · exact .fieldPtr he hx
      | true =>
        simp only [if_true]
        refine outH_mono (deRefNil_calls (P := fun w ps => ∃ d, StrFieldDoc W h e w d ∧ ps = [.text d.text]) fun a => outH_res fun b' hb' => ?_) ?_
        · obtain ⟨d, h1, h2⟩ := encodeAsString_sound hb'
          exact ⟨d.text, h2, d, h1, rfl⟩
        · rintro ps (⟨rfl, rfl⟩ | ⟨a, rfl, d, hx, rfl⟩)
          · exact .fieldPtrNil he
          · exact .fieldStrPtr he hx
  · rename_i he
    have hp : W.isPtr fl.ty = false := by
      cases hip : W.isPtr fl.ty
      · rfl
      · obtain ⟨e, h1⟩ := isPtr_cases hip; exact absurd h1 (he e)
    cases hstr : fl.str with
    | false =>
      simp only [Bool.false_eq_true, if_false]
      exact outH_mono (hr.comp p fl.ty c b v) fun ps hx => .fieldPlain hp hx
    | true =>
      simp only [if_true]
      refine outH_res fun b' hb' => ?_
      obtain ⟨d, h1, h2⟩ := encodeAsString_sound hb'
      exact ⟨d.text, h2, .fieldStr hp h1⟩

theorem encodeKind_calls {f : Nat} {r : RecH} (hr : RecShape W h M r) {p : Path} {t : Ty} {c : CtxH} {b : Bytes} {v : GV} :
    OutH M c.calls b (encodeKindH W h f r p t c b v) (Shape W h .kind p t v) := by
  unfold encodeKindH
  split
  · rename_i r0 hs
    apply outH_res
    rintro b' rfl
    obtain ⟨d, h1, h2⟩ := encodeScalar_sound hs
    exact ⟨d.text, h2, .scalar h1⟩
  · split <;> rename_i ht
    · refine outH_mono (encodeStruct_calls (W := W) (P := fun str i t v ps => Shape W h (.field str) (i :: p) t v ps) fun fl v c b => encodeField_calls hr) ?_
      rintro ps ⟨vs, ws, g, rfl, hw, rfl, hp⟩
      exact .struct ht hw hp
    · split
      · split
        · rename_i hl
          refine outH_mono (encodeElems_calls (P := fun i v ps => Shape W h .typed (i :: p) _ v ps) fun j v c b _ => hr.comp (j :: p) _ c b v) ?_
          rintro ps ⟨g, rfl, hp⟩
          exact .array ht hl hp
        · exact outA_panic
      · exact outA_panic
    · split
      · rw [appendNull_eq]; exact outH_text (.sliceNil ht)
      · refine checkRecursive_calls fun c' hc' => ?_
        rw [← hc']
        refine outH_mono (encodeElems_calls (P := fun i v ps => Shape W h .typed (i :: p) _ v ps) fun j v c b _ => hr.comp (j :: p) _ c b v) ?_
        rintro ps ⟨g, rfl, hp⟩
        exact .slice ht rfl hp
      · exact outA_panic
    · rename_i k e
      split
      · rw [appendNull_eq]; exact outH_text (.mapNil ht)
      · refine checkRecursive_calls fun c' hc' => ?_
        rw [← hc']
        refine outH_mono (encodeEntries_calls (K := KeyDoc W k) (P := fun i v ps => Shape W h .typed (i :: p) _ v ps)
          (fun _ _ _ hk => keyText_sound hk) fun j x y c b _ => hr.comp (j :: p) _ c b y) ?_
        rintro ps ⟨kd, g, rfl, hk, hp⟩
        exact .map ht rfl hk hp
      · exact outA_panic
    · exact outH_mono (hr.held p t c b v) fun ps hx => .iface (by simp [World.isIface, ht]) hx
    · exact outH_mono (hr.held p t c b v) fun ps hx => .iface (by simp [World.isIface, ht]) hx
    · exact outA_err

theorem reflectSlice_calls {cf : Nat} {r : RecH} (hr : RecShape W h M r) {p : Path} {t0 t e : Ty} {v0 v : GV} (hd : Deref W h t0 v0 (some (t, v))) (ht : W.resolve t = .slice e)
    {c : CtxH} {b : Bytes} : OutH M c.calls b (reflectSliceH W h cf r p t e v c b) (Shape W h .held p t0 v0) := by
  unfold reflectSliceH
  by_cases hi : W.isIface e = true
  · simp only [hi, Bool.not_true, Bool.false_eq_true, if_false]
    split
    · rw [appendNull_eq]; exact outH_text (.heldSliceNil hd ht hi)
    · refine outH_mono (encodeElems_calls (P := fun i v ps => Shape W h .held (i :: p) e v ps) fun j v c b _ => hr.held (j :: p) e c b v) ?_
      rintro ps ⟨g, rfl, hp⟩
      exact .heldSlice hd ht hi rfl hp
    · exact outA_panic
  · simp only [hi, Bool.not_false, if_true]
    exact outA_andThen fun s hs => outH_mono (hr.comp p t c b v) fun ps hx => .heldTyped hd (.inr ⟨e, ht, by simpa using hi⟩) hx

theorem reflectMap_calls {cf : Nat} {r : RecH} (hr : RecShape W h M r) {p : Path} {t0 t k e : Ty} {v0 v : GV} (hd : Deref W h t0 v0 (some (t, v))) (ht : W.resolve t = .map k e)
    {c : CtxH} {b : Bytes} : OutH M c.calls b (reflectMapH W h cf r p k e v c b) (Shape W h .held p t0 v0) := by
  unfold reflectMapH
  split
  · exact outA_err
  · split
    · rw [appendNull_eq]; exact outH_text (.heldMapNil hd ht)
    · rename_i a
      simp only []
      split
      · rename_i hes
        have hnil : h.iter k e p a = [] := by simpa using hes
        have hsh : Shape W h .held p t0 v0 (arrPieces 0 idxDoc fun _ => []) := by
          have := Shape.heldMap (kd := idxDoc) (px := fun _ => []) (p := p) hd ht hnil (by simp) (by simp)
          exact this
        refine ⟨[], by simp, .inl ⟨_, _, arrText 0 idxDoc fun _ => [], rfl, ⟨emptyArray_eq _ _ _, hsh⟩, rfl, ?_⟩⟩
        exact .text fills_one
      · split
        · rename_i hi
          refine outH_mono (encodeEntries_calls (K := KeyDoc W k) (P := fun i v ps => Shape W h .held (i :: p) e v ps)
            (fun _ _ _ hk => keyText_sound hk) fun j x y c b _ => hr.held (j :: p) e c b y) ?_
          rintro ps ⟨kd, g, rfl, hkd, hp⟩
          exact .heldMap hd ht rfl hkd fun i x y hx => by rw [if_pos hi]; exact hp i x y hx
        · rename_i hi
          refine outA_andThen fun s hs => outH_mono (encodeEntries_calls (K := KeyDoc W k) (P := fun i v ps => Shape W h .typed (i :: p) e v ps)
            (fun _ _ _ hk => keyText_sound hk) fun j x y c b _ => hr.comp (j :: p) e c b y) ?_
          rintro ps ⟨kd, g, rfl, hkd, hp⟩
          exact .heldMap hd ht rfl hkd fun i x y hx => by rw [if_neg hi]; exact hp i x y hx
    · exact outA_panic

theorem reflectValue_calls {cf f : Nat} {r : RecH} (hr : RecShape W h M r) {p : Path} {t : Ty} {c : CtxH} {b : Bytes} {v : GV} :
    OutH M c.calls b (reflectValueH W h cf f r p t c b v) (Shape W h .held p t v) := by
  unfold reflectValueH
  apply outA_andThen
  intro o ho
  have hd := derefAll_sound ho
  cases o with
  | none => simp only []; rw [appendNull_eq]; exact outH_text (.heldNil hd)
  | some q =>
    obtain ⟨t', v'⟩ := q
    simp only []
    split
    · rename_i r0 hs
      apply outH_res
      rintro b' rfl
      obtain ⟨d, h1, h2⟩ := encodeScalar_sound hs
      exact ⟨d.text, h2, .heldScalar hd h1⟩
    · split <;> rename_i ht
      · exact reflectRecursive_calls fun c' hc' => by rw [← hc']; exact reflectSlice_calls hr hd ht
      · exact reflectRecursive_calls fun c' hc' => by rw [← hc']; exact reflectMap_calls hr hd ht
      · exact outA_andThen fun s hs => outH_mono (hr.comp p t' c b v') fun ps hx => .heldTyped hd (.inl (by simp [World.isStruct, ht])) hx
      · exact outA_err

theorem encF_calls (W : World) (h : Heap) (M : MarHooks) (cf : Nat) : ∀ f, RecShape W h M (encFH W h M cf f)
  | 0 => ⟨fun _ _ _ _ _ => outA_diverge, fun _ _ _ _ _ => outA_diverge⟩
  | f + 1 => by
    have hr := encF_calls W h M cf f
    refine ⟨fun p t c b v => ?_, fun p t c b v => reflectValue_calls hr⟩
    simp only [encFH]
    split
    · rename_i hm
      refine outH_mono callMarshaler_calls ?_
      rintro ps ⟨t', v', h1, rfl⟩
      exact .marshaler (marOf_iff.1 hm) h1
    · rename_i hm
      have hm : ¬ HasMarshal W t := fun hh => hm (marOf_iff.2 hh)
      split
      · rename_i ht
        subst ht
        apply outH_res
        intro b' hb'
        rcases encodeBytes_sound hb' with ⟨rfl, h1⟩ | ⟨a, n, s, rfl, h1, h2⟩
        · exact ⟨_, h1, .bytesNil⟩
        · exact ⟨_, h2, .bytes h1⟩
      · rename_i hb
        split
        · rename_i e ht
          split <;> rename_i he
          · exact outA_err
          · exact outH_mono (hr.held p t c b v) fun ps hx => .ptrIface hm ht (by simp [World.isIface, he]) hx
          · exact outH_mono (hr.held p t c b v) fun ps hx => .ptrIface hm ht (by simp [World.isIface, he]) hx
          · refine outH_mono (checkStruct_calls (P := Shape W h .kind p e) fun c' a => encodeKind_calls hr) ?_
            rintro ps (⟨rfl, rfl⟩ | ⟨a, rfl, hx⟩)
            · exact .ptrNil hm ht (by simp [World.isPtr, he]) (by simp [World.isIface, he])
            · exact .ptrKind hm ht (.inl (by simp [World.isStruct, he])) hx
          all_goals first
          | (refine outH_mono (deRefNil_calls (P := Shape W h .kind p e) fun a => encodeKind_calls hr) ?_
             rintro ps (⟨rfl, rfl⟩ | ⟨a, rfl, hx⟩)
             · exact .ptrNil hm ht (by simp [World.isPtr, he]) (by simp [World.isIface, he])
             · exact .ptrKind hm ht (.inr (by simp_all [directKind])) hx)
          | skip
          · refine outH_mono (deRefNil_calls (P := Shape W h .typed p e) fun a => hr.comp p e c b (h.deref e a)) ?_
            rintro ps (⟨rfl, rfl⟩ | ⟨a, rfl, hx⟩)
            · exact .ptrNil hm ht (by simp [World.isPtr, he]) (by simp [World.isIface, he])
            · exact .ptrTyped hm ht (by simp [World.isPtr, he]) (by simp [World.isIface, he]) (by simp [World.isStruct, he]) (by simp [directKind, he]) hx
          · refine outH_mono (deRefNil_calls (P := Shape W h .typed p e) fun a => hr.comp p e c b (h.deref e a)) ?_
            rintro ps (⟨rfl, rfl⟩ | ⟨a, rfl, hx⟩)
            · exact .ptrNil hm ht (by simp_all [World.isPtr]) (by simp_all [World.isIface])
            · exact .ptrTyped hm ht (by simp_all [World.isPtr]) (by simp_all [World.isIface]) (by simp_all [World.isStruct]) (by simp_all [directKind]) hx
        · rename_i hn
          refine outH_mono (encodeKind_calls hr) fun ps hx => .plain hm hb ?_ hx
          unfold World.isPtr; split
          · rename_i e he; exact absurd he (hn e)
          · rfl

theorem marshalH_calls {cf f : Nat} {c : CtxH} {t : Ty} {v : GV} : OutH M c.calls [] (marshalH W h M cf f c (some (t, v))) (Shape W h .typed [] t v) :=
  outA_andThen fun _ _ => (encF_calls W h M cf f).comp [] t c [] v

end Verif

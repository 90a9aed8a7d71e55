import Verif.Proofs.EncCalls
/-
Two runs of the encoder for the same value with different methods: as long as no method fails they make the same calls. The texts that methods return have no influence on
what is called.
-/
namespace Verif
open Spec

variable {W : World} {h : Heap} {M M' : MarHooks}

/-- Both succeed or both fail in the same way. -/
inductive AlikeRes {α β : Type} : Res α → Res β → Prop
  | ok {a b} : AlikeRes (.ok a) (.ok b)
  | fail {r r'} : SameFail r r' → AlikeRes r r'

/-- Two runs after the calls `cs` and `cs'`. -/
def Par {α : Type} (M M' : MarHooks) (cs cs' : MarCalls) (R R' : EHR α) : Prop :=
  ∃ d d', R.1.calls = cs ++ d ∧ R'.1.calls = cs' ++ d' ∧
    ((d = d' ∧ R.1.toCtx = R'.1.toCtx ∧ AlikeRes R.2 R'.2) ∨ (d <+: d' ∧ FailedAt M cs d R.2) ∨ (d' <+: d ∧ FailedAt M' cs' d' R'.2))

theorem stops_fails {α : Type} {cs d : MarCalls} {a : α} (hs : Stops M cs d (.ok a)) : False := by
  generalize hx : Res.ok a = x at hs
  induction hs with
  | here hn => exact hn _ hx.symm
  | failed hf => subst hx; exact sameFail_ok hf
  | next _ _ ih => exact ih hx

theorem failedAt_fails {α : Type} {cs d : MarCalls} {a : α} (hf : FailedAt M cs d (.ok a)) : False := by
  obtain ⟨_, _, _, _, h2⟩ := hf
  exact sameFail_ok h2

theorem failedAt_shift {α : Type} {cs d e : MarCalls} {r : Res α} (hf : FailedAt M (cs ++ d) e r) : FailedAt M cs (d ++ e) r := by
  obtain ⟨e0, t, v, rfl, h2⟩ := hf
  exact ⟨d ++ e0, t, v, by rw [List.append_assoc], by rw [← List.append_assoc]; exact h2⟩

theorem failedAt_conv {α β : Type} {cs d : MarCalls} {r : Res α} {r' : Res β} (hf : FailedAt M cs d r) (hs : SameFail r r') : FailedAt M cs d r' := by
  obtain ⟨e0, t, v, rfl, h2⟩ := hf
  exact ⟨e0, t, v, rfl, sameFail_trans h2 hs⟩

theorem par_same {α : Type} {c c' : CtxH} (hc : c.toCtx = c'.toCtx) {r r' : Res α} (hr : AlikeRes r r') : Par M M' c.calls c'.calls (c, r) (c', r') :=
  ⟨[], [], by simp, by simp, .inl ⟨rfl, hc, hr⟩⟩

theorem alike_refl {α : Type} {r : Res α} : AlikeRes r r := by
  cases r
  · exact .ok
  · exact .fail .err
  · exact .fail .panic
  · exact .fail .diverge

theorem par_fail {α : Type} {c c' : CtxH} (hc : c.toCtx = c'.toCtx) {r : Res α} : Par M M' c.calls c'.calls (c, r) (c', r) := par_same hc alike_refl

theorem par_ite {α : Type} {q : Prop} [Decidable q] {cs cs' : MarCalls} {X Y X' Y' : EHR α} (hx : q → Par M M' cs cs' X X') (hy : ¬ q → Par M M' cs cs' Y Y') :
    Par M M' cs cs' (if q then X else Y) (if q then X' else Y') := by
  split
  · rename_i hq; exact hx hq
  · rename_i hq; exact hy hq

/-- What comes after a failure. -/
theorem andThenH_fail {α β : Type} {c : CtxH} {r : Res α} {k : CtxH → α → EHR β} (hr : ∀ a, r ≠ .ok a) :
    ∃ r' : Res β, andThenH (c, r) k = (c, r') ∧ SameFail r r' := by
  cases r with
  | ok a => exact absurd rfl (hr a)
  | err e => exact ⟨_, rfl, .err⟩
  | panic e => exact ⟨_, rfl, .panic⟩
  | diverge => exact ⟨_, rfl, .diverge⟩

theorem par_andThen {α β : Type} {cs cs' : MarCalls} {R R' : EHR α} {k k' : CtxH → α → EHR β} (hr : Par M M' cs cs' R R')
    (hk : ∀ c c' a a', c.toCtx = c'.toCtx → Par M M' c.calls c'.calls (k c a) (k' c' a')) : Par M M' cs cs' (andThenH R k) (andThenH R' k') := by
  have grow : ∀ (R : EHR α), ∃ e, (andThenH R k).1.calls = R.1.calls ++ e := by
    intro ⟨c, r⟩
    cases r with
    | ok a => obtain ⟨d, _, h1, _⟩ := hk c c a a rfl; exact ⟨d, h1⟩
    | _ => exact ⟨[], by simp [andThenH]⟩
  have grow' : ∀ (R : EHR α), ∃ e, (andThenH R k').1.calls = R.1.calls ++ e := by
    intro ⟨c, r⟩
    cases r with
    | ok a => obtain ⟨_, d, _, h1, _⟩ := hk c c a a rfl; exact ⟨d, h1⟩
    | _ => exact ⟨[], by simp [andThenH]⟩
  obtain ⟨c, r⟩ := R
  obtain ⟨c', r'⟩ := R'
  obtain ⟨d, d', h1, h2, h3⟩ := hr
  simp only [] at h1 h2 h3
  rcases h3 with ⟨rfl, h3, h4⟩ | ⟨h3, h4⟩ | ⟨h3, h4⟩
  · cases h4 with
    | ok =>
      obtain ⟨e, e', g1, g2, g3⟩ := hk c c' _ _ h3
      rw [h1] at g1 g3
      rw [h2] at g2 g3
      refine ⟨d ++ e, d ++ e', by rw [← List.append_assoc]; exact g1, by rw [← List.append_assoc]; exact g2, ?_⟩
      rcases g3 with ⟨rfl, g3, g4⟩ | ⟨g3, g4⟩ | ⟨g3, g4⟩
      · exact .inl ⟨rfl, g3, g4⟩
      · exact .inr (.inl ⟨(List.prefix_append_right_inj d).2 g3, failedAt_shift g4⟩)
      · exact .inr (.inr ⟨(List.prefix_append_right_inj d).2 g3, failedAt_shift g4⟩)
    | fail h4 => cases h4 <;> exact ⟨d, d, h1, h2, .inl ⟨rfl, h3, .fail (by constructor)⟩⟩
  · obtain ⟨r2, e1, e2⟩ := andThenH_fail (c := c) (k := k) (r := r) (fun a ha => failedAt_fails (ha ▸ h4))
    obtain ⟨e, he⟩ := grow' (c', r')
    refine ⟨d, d' ++ e, by rw [e1]; exact h1, by rw [he, ← List.append_assoc, ← h2], .inr (.inl ⟨h3.trans (List.prefix_append _ _), ?_⟩)⟩
    rw [e1]
    exact failedAt_conv h4 e2
  · obtain ⟨r2, e1, e2⟩ := andThenH_fail (c := c') (k := k') (r := r') (fun a ha => failedAt_fails (ha ▸ h4))
    obtain ⟨e, he⟩ := grow (c, r)
    refine ⟨d ++ e, d', by rw [he, ← List.append_assoc, ← h1], by rw [e1]; exact h2, .inr (.inr ⟨h3.trans (List.prefix_append _ _), ?_⟩)⟩
    rw [e1]
    exact failedAt_conv h4 e2

/-- Changes to the context afterwards. -/
theorem par_ctx {α : Type} {cs cs' : MarCalls} {R R' S S' : EHR α} (hr : Par M M' cs cs' R R') (h1 : S.1.calls = R.1.calls) (h2 : S.2 = R.2) (h1' : S'.1.calls = R'.1.calls)
    (h2' : S'.2 = R'.2) (h3 : R.1.toCtx = R'.1.toCtx → AlikeRes R.2 R'.2 → S.1.toCtx = S'.1.toCtx) : Par M M' cs cs' S S' := by
  obtain ⟨d, d', g1, g2, g3⟩ := hr
  refine ⟨d, d', h1.trans g1, h1'.trans g2, ?_⟩
  rw [h2, h2']
  rcases g3 with ⟨e, g3, g4⟩ | g3 | g3
  · exact .inl ⟨e, h3 g3 g4, g4⟩
  · exact .inr (.inl g3)
  · exact .inr (.inr g3)

theorem ctx_of {c c' : CtxH} (hc : c.toCtx = c'.toCtx) : c.seen = c'.seen ∧ c.depth = c'.depth := by rw [hc]; exact ⟨rfl, rfl⟩

/-- A pair of encoders that differ in the methods only. -/
abbrev Pair (M M' : MarHooks) (E E' : CtxH → Bytes → EHR Bytes) : Prop := ∀ c c' b b', c.toCtx = c'.toCtx → Par M M' c.calls c'.calls (E c b) (E' c' b')

theorem par_checkRecursive {E E' : CtxH → Bytes → EHR Bytes} (he : Pair M M' E E') {a : Nat} : Pair M M' (checkRecursiveH E a) (checkRecursiveH E' a) := by
  intro c c' b b' hc
  obtain ⟨hs, hd⟩ := ctx_of hc
  unfold checkRecursiveH
  simp only [hs, hd]
  split
  · exact par_fail (c := { c with seen := _, depth := _ }) (c' := { c' with depth := _ }) (by simp)
  · generalize (if decide (c'.depth + 1 > 1000) = true then a :: c'.seen else c'.seen) = sn
    have := he { c with seen := sn, depth := c'.depth + 1 } { c' with seen := sn, depth := c'.depth + 1 } b b' rfl
    revert this
    generalize E _ b = R
    generalize E' _ b' = R'
    intro this
    obtain ⟨c1, r⟩ := R
    obtain ⟨c1', r'⟩ := R'
    refine par_ctx this ?_ ?_ ?_ ?_ ?_
    · cases r <;> rfl
    · cases r <;> rfl
    · cases r' <;> rfl
    · cases r' <;> rfl
    · intro e1 e2
      obtain ⟨x1, x2⟩ := ctx_of e1
      dsimp only at e1 x1 x2
      cases e2 with
      | ok => simp [x1, x2]
      | fail e2 => cases e2 <;> first | exact e1 | simp [x1, x2]

theorem par_reflectRecursive {E E' : CtxH → Bytes → EHR Bytes} (he : Pair M M' E E') {a : Nat} : Pair M M' (reflectRecursiveH E a) (reflectRecursiveH E' a) := by
  intro c c' b b' hc
  obtain ⟨hs, hd⟩ := ctx_of hc
  unfold reflectRecursiveH
  simp only [hs]
  split
  · exact par_fail hc
  · have := he { c with seen := a :: c'.seen } { c' with seen := a :: c'.seen } b b' (by simp [hd])
    revert this
    generalize E _ b = R
    generalize E' _ b' = R'
    intro this
    obtain ⟨c1, r⟩ := R
    obtain ⟨c1', r'⟩ := R'
    refine par_ctx this ?_ ?_ ?_ ?_ ?_
    · cases r <;> rfl
    · cases r <;> rfl
    · cases r' <;> rfl
    · cases r' <;> rfl
    · intro e1 e2
      obtain ⟨x1, x2⟩ := ctx_of e1
      dsimp only at e1 x1 x2
      cases e2 with
      | ok => simp [x1, x2]
      | fail e2 => cases e2 <;> first | exact e1 | simp [x1, x2]

/-- A pair of encoders for values. -/
abbrev PairV (M M' : MarHooks) (E E' : CtxH → Bytes → GV → EHR Bytes) : Prop := ∀ v, Pair M M' (fun c b => E c b v) (fun c b => E' c b v)

theorem par_elems {E E' : Nat → CtxH → Bytes → GV → EHR Bytes} (he : ∀ i, PairV M M' (E i) (E' i)) {vs : List GV} {i : Nat} :
    Pair M M' (elemsLoopH E i vs) (elemsLoopH E' i vs) := by
  induction vs generalizing i with
  | nil => exact fun c c' b b' hc => par_same hc .ok
  | cons v vs ih => exact fun c c' b b' hc => par_andThen (he i v c c' _ _ hc) fun c c' b b' hc => ih c c' b b' hc

theorem par_encodeElems {E E' : Nat → CtxH → Bytes → GV → EHR Bytes} (he : ∀ i, PairV M M' (E i) (E' i)) {vs : List GV} :
    Pair M M' (encodeElemsH E vs) (encodeElemsH E' vs) :=
  fun c c' _ _ hc => par_andThen (par_elems he c c' _ _ hc) fun _ _ _ _ hc => par_same hc .ok

theorem par_entries {key : Bytes → GV → Res Bytes} (hkey : ∀ b b' v, AlikeRes (key b v) (key b' v)) {E E' : Nat → CtxH → Bytes → GV → EHR Bytes}
    (he : ∀ i, PairV M M' (E i) (E' i)) {es : List (GV × GV)} {i : Nat} : Pair M M' (entriesLoopH key E i es) (entriesLoopH key E' i es) := by
  induction es generalizing i with
  | nil => exact fun c c' b b' hc => par_same hc .ok
  | cons q es ih =>
    obtain ⟨x, y⟩ := q
    exact fun c c' b b' hc => par_andThen (par_same hc (hkey b b' x)) fun c c' b b' hc => par_andThen (he i y c c' _ _ hc) fun c c' b b' hc => ih c c' b b' hc

theorem par_encodeEntries {key : Bytes → GV → Res Bytes} (hkey : ∀ b b' v, AlikeRes (key b v) (key b' v)) {E E' : Nat → CtxH → Bytes → GV → EHR Bytes}
    (he : ∀ i, PairV M M' (E i) (E' i)) {es : List (GV × GV)} : Pair M M' (encodeEntriesH key E es) (encodeEntriesH key E' es) :=
  fun c c' _ _ hc => par_andThen (par_entries hkey he c c' _ _ hc) fun _ _ _ _ hc => par_same hc .ok

theorem par_fields {E E' : EField → CtxH → Bytes → GV → EHR Bytes} (he : ∀ i, PairV M M' (E i) (E' i)) {vs : List GV} {fls : List EField} :
    ∀ c c' b b' n n', c.toCtx = c'.toCtx → Par M M' c.calls c'.calls (fieldsLoopH E vs fls c b n) (fieldsLoopH E' vs fls c' b' n') := by
  induction fls with
  | nil => exact fun c c' b b' n n' hc => par_same hc .ok
  | cons fl fls ih =>
    intro c c' b b' n n' hc
    unfold fieldsLoopH
    generalize vs[fl.idx]? = o
    cases o with
    | none => exact par_fail hc
    | some v => exact par_ite (fun _ => ih _ _ _ _ _ _ hc) fun _ => par_andThen (he fl v c c' _ _ hc) fun _ _ _ _ hc => ih _ _ _ _ _ _ hc

theorem par_struct {E E' : EField → CtxH → Bytes → GV → EHR Bytes} (he : ∀ i, PairV M M' (E i) (E' i)) {nf : Nat} {fls : List EField} :
    PairV M M' (encodeStructH E nf fls) (encodeStructH E' nf fls) := by
  intro v c c' b b' hc
  cases v <;> try exact par_fail hc
  exact par_ite (fun _ => par_fail hc) fun _ => par_andThen (par_fields he _ _ _ _ _ _ hc) fun _ _ _ _ hc => par_same hc .ok

theorem par_checkStruct {e : Ty} {E E' : CtxH → Bytes → GV → EHR Bytes} (he : PairV M M' E E') : PairV M M' (checkStructH h e E) (checkStructH h e E') := by
  intro v c c' b b' hc
  cases v <;> try exact par_fail hc
  · exact par_same hc .ok
  · rename_i a
    exact par_checkRecursive (E := fun c b => E c b (h.deref e a)) (E' := fun c b => E' c b (h.deref e a)) (he _) c c' b b' hc

theorem par_deRefNil {e : Ty} {E E' : CtxH → Bytes → GV → EHR Bytes} (he : PairV M M' E E') : PairV M M' (deRefNilH h e E) (deRefNilH h e E') := by
  intro v c c' b b' hc
  cases v <;> try exact par_fail hc
  · exact par_same hc .ok
  · exact he _ c c' b b' hc

/-! ### The buffer has no influence on success -/

theorem keyText_alike {t : Ty} (b b' : Bytes) (v : GV) : AlikeRes (keyText W t b v) (keyText W t b' v) := by
  unfold keyText
  generalize W.resolve t = q
  cases q <;> cases v <;> first
    | exact .ok
    | exact alike_refl
    | (dsimp only; split <;> first | exact alike_refl | exact .ok)

theorem ifaceAsString_alike {f : Nat} {t : Ty} (b b' : Bytes) (v : GV) : AlikeRes (ifaceAsString W h f t b v) (ifaceAsString W h f t b' v) := by
  unfold ifaceAsString
  cases derefAll W h f t v with
  | ok o =>
    rw [Res.bind_ok, Res.bind_ok]
    cases o with
    | none => exact .ok
    | some q =>
      obtain ⟨t, v⟩ := q
      cases t <;> cases v <;> first
        | exact .ok
        | exact alike_refl
        | (dsimp only; split <;> first | exact alike_refl | exact .ok)
  | err e => exact .fail .err
  | panic e => exact .fail .panic
  | diverge => exact .fail .diverge

theorem encodeAsString_alike {f : Nat} {t : Ty} (b b' : Bytes) (v : GV) : AlikeRes (encodeAsString W h f t b v) (encodeAsString W h f t b' v) := by
  unfold encodeAsString
  generalize W.resolve t = q
  cases q <;> cases v <;> first
    | exact .ok
    | exact alike_refl
    | exact ifaceAsString_alike _ _ _
    | (dsimp only; split <;> first | exact alike_refl | exact .ok)

theorem encodeBytes_alike (b b' : Bytes) (v : GV) : AlikeRes (encodeBytes h b v) (encodeBytes h b' v) := by
  unfold encodeBytes
  cases v <;> first
    | exact .ok
    | exact alike_refl
    | skip
  rename_i a n
  dsimp only
  cases bytesOf (h.elems (.uint .u8) a n) <;> first | exact alike_refl | exact .ok

theorem encodeScalar_alike {t : Ty} (b b' : Bytes) (v : GV) :
    (encodeScalar W t b v = none ∧ encodeScalar W t b' v = none) ∨ ∃ r r', encodeScalar W t b v = some r ∧ encodeScalar W t b' v = some r' ∧ AlikeRes r r' := by
  unfold encodeScalar
  generalize W.resolve t = q
  cases q
  case uint k => cases k <;> cases v <;> first | exact .inl ⟨rfl, rfl⟩ | exact .inr ⟨_, _, rfl, rfl, .ok⟩ | exact .inr ⟨_, _, rfl, rfl, .fail .panic⟩
  all_goals cases v <;> first | exact .inl ⟨rfl, rfl⟩ | exact .inr ⟨_, _, rfl, rfl, .ok⟩ | exact .inr ⟨_, _, rfl, rfl, .fail .panic⟩

/-! ### Values -/

/-- One level of recursion. -/
structure RecPar (M M' : MarHooks) (R R' : RecH) : Prop where
  comp : ∀ p t, PairV M M' (R.comp p t) (R'.comp p t)
  held : ∀ p t, PairV M M' (R.held p t) (R'.held p t)

theorem par_field {f : Nat} {R R' : Ty → CtxH → Bytes → GV → EHR Bytes} (hr : ∀ t, PairV M M' (R t) (R' t)) {fl : EField} :
    PairV M M' (encodeFieldH W h f R fl) (encodeFieldH W h f R' fl) := by
  intro v c c' b b' hc
  unfold encodeFieldH
  generalize W.resolve fl.ty = q
  cases q
  case ptr e =>
    refine par_ite (fun _ => par_checkStruct (hr e) v c c' b b' hc) fun _ => par_deRefNil ?_ v c c' b b' hc
    intro v c c' b b' hc
    dsimp only
    split
    · exact par_same hc (encodeAsString_alike _ _ _)
    · exact hr e v c c' b b' hc
  all_goals exact par_ite (fun _ => par_same hc (encodeAsString_alike _ _ _)) fun _ => hr _ v c c' b b' hc

theorem par_kind {f : Nat} {R R' : RecH} (hr : RecPar M M' R R') {p : Path} {t : Ty} : PairV M M' (encodeKindH W h f R p t) (encodeKindH W h f R' p t) := by
  intro v c c' b b' hc
  unfold encodeKindH
  rcases encodeScalar_alike (W := W) (t := t) b b' v with ⟨e1, e2⟩ | ⟨r, r', e1, e2, e3⟩
  · simp only [e1, e2]
    generalize W.resolve t = q
    cases q
    case struct id =>
      dsimp only
      refine par_struct (E := fun fl => encodeFieldH W h f (R.comp (fl.idx :: p)) fl) (E' := fun fl => encodeFieldH W h f (R'.comp (fl.idx :: p)) fl) ?_ v c c' b b' hc
      exact fun fl => par_field (hr.comp _)
    case array n e =>
      cases v <;> try exact par_fail hc
      exact par_ite (fun _ => par_encodeElems (fun i => hr.comp (i :: p) e) c c' b b' hc) fun _ => par_fail hc
    case slice e =>
      cases v <;> try exact par_fail hc
      · exact par_same hc .ok
      · exact par_checkRecursive (par_encodeElems fun i => hr.comp (i :: p) e) c c' b b' hc
    case map k e =>
      cases v <;> try exact par_fail hc
      · exact par_same hc .ok
      · exact par_checkRecursive (par_encodeEntries keyText_alike fun i => hr.comp (i :: p) e) c c' b b' hc
    case any => exact hr.held _ _ v c c' b b' hc
    case iface => exact hr.held _ _ v c c' b b' hc
    all_goals exact par_fail hc
  · simp only [e1, e2]
    exact par_same hc e3

theorem par_slice {cf : Nat} {R R' : RecH} (hr : RecPar M M' R R') {p : Path} {t e : Ty} {v : GV} :
    Pair M M' (reflectSliceH W h cf R p t e v) (reflectSliceH W h cf R' p t e v) := by
  intro c c' b b' hc
  refine par_ite (fun _ => par_andThen (par_fail hc) fun c c' _ _ hc => hr.comp p t v c c' b b' hc) fun _ => ?_
  cases v <;> try exact par_fail hc
  · exact par_same hc .ok
  · exact par_encodeElems (fun i => hr.held (i :: p) e) c c' b b' hc

theorem par_map {cf : Nat} {R R' : RecH} (hr : RecPar M M' R R') {p : Path} {k e : Ty} {v : GV} :
    Pair M M' (reflectMapH W h cf R p k e v) (reflectMapH W h cf R' p k e v) := by
  intro c c' b b' hc
  refine par_ite (fun _ => par_fail hc) fun _ => ?_
  cases v <;> try exact par_fail hc
  · exact par_same hc .ok
  · exact par_ite (fun _ => par_same hc .ok) fun _ => par_ite (fun _ => par_encodeEntries keyText_alike (fun i => hr.held (i :: p) e) c c' b b' hc) fun _ =>
      par_andThen (par_fail hc) fun c c' _ _ hc => par_encodeEntries keyText_alike (fun i => hr.comp (i :: p) e) c c' b b' hc

theorem par_value {cf f : Nat} {R R' : RecH} (hr : RecPar M M' R R') {p : Path} {t : Ty} : PairV M M' (reflectValueH W h cf f R p t) (reflectValueH W h cf f R' p t) := by
  intro v c c' b b' hc
  dsimp only
  unfold reflectValueH
  cases derefAll W h f t v with
  | ok o =>
    dsimp only [andThenH]
    cases o with
    | none => exact par_same hc .ok
    | some q =>
      obtain ⟨t, v⟩ := q
      dsimp only
      rcases encodeScalar_alike (W := W) (t := t) b b' v with ⟨e1, e2⟩ | ⟨r, r', e1, e2, e3⟩
      · simp only [e1, e2]
        generalize W.resolve t = q
        cases q
        case slice e => exact par_reflectRecursive (par_slice hr) c c' b b' hc
        case map k e => exact par_reflectRecursive (par_map hr) c c' b b' hc
        case struct id => exact par_andThen (par_fail hc) fun c c' _ _ hc => hr.comp p t v c c' b b' hc
        all_goals exact par_fail hc
      · simp only [e1, e2]
        exact par_same hc e3
  | err e => exact par_fail hc
  | panic e => exact par_fail hc
  | diverge => exact par_fail hc

theorem par_hook {t : Ty} {v : GV} : Pair M M' (callHook M t v) (callHook M' t v) := by
  intro c c' b b' hc
  refine ⟨[(t, v)], [(t, v)], rfl, rfl, ?_⟩
  have hf : ∀ {N : MarHooks} {x : CtxH} {y : Bytes}, (∀ a, N x.calls t v ≠ .ok a) → FailedAt N x.calls [(t, v)] (callHook N t v x y).2 := by
    intro N x y hn
    refine ⟨[], t, v, rfl, ?_⟩
    rw [List.append_nil]
    unfold callHook
    dsimp only
    cases hN : N x.calls t v with
    | ok a => exact absurd hN (hn a)
    | err e => exact .err
    | panic e => exact .panic
    | diverge => exact .diverge
  cases h1 : M c.calls t v with
  | ok a =>
    cases h2 : M' c'.calls t v with
    | ok a' =>
      refine .inl ⟨rfl, hc, ?_⟩
      unfold callHook
      dsimp only
      rw [h1, h2]
      exact .ok
    | _ => exact .inr (.inr ⟨List.prefix_refl _, hf (by simp [h2])⟩)
  | _ => exact .inr (.inl ⟨List.prefix_refl _, hf (by simp [h1])⟩)

theorem par_marshaler {t : Ty} : PairV M M' (callMarshalerH W M t) (callMarshalerH W M' t) := by
  intro v c c' b b' hc
  dsimp only
  unfold callMarshalerH
  split
  · split
    · exact par_fail hc
    · exact par_hook c c' b b' hc
  · exact par_fail hc
  · split
    · split
      · exact par_fail hc
      · exact par_hook c c' b b' hc
    · exact par_hook c c' b b' hc
  · exact par_hook c c' b b' hc

theorem par_encF {cf : Nat} : ∀ f, RecPar M M' (encFH W h M cf f) (encFH W h M' cf f)
  | 0 => ⟨fun _ _ _ _ _ _ _ hc => par_fail hc, fun _ _ _ _ _ _ _ hc => par_fail hc⟩
  | f + 1 => by
    have hr := par_encF (cf := cf) f
    refine ⟨fun p t v c c' b b' hc => ?_, fun p t => par_value hr⟩
    simp only [encFH]
    refine par_ite (fun _ => par_marshaler v c c' b b' hc) fun _ => par_ite (fun _ => par_same hc (encodeBytes_alike _ _ _)) fun _ => ?_
    generalize W.resolve t = q
    cases q
    case ptr e =>
      dsimp only
      generalize W.resolve e = q
      cases q
      case uint k =>
        cases k <;> first
          | exact par_deRefNil (par_kind hr) v c c' b b' hc
          | exact par_deRefNil (hr.comp p e) v c c' b b' hc
      all_goals first
        | exact par_fail hc
        | exact hr.held _ _ v c c' b b' hc
        | exact par_checkStruct (par_kind hr) v c c' b b' hc
        | exact par_deRefNil (par_kind hr) v c c' b b' hc
        | exact par_deRefNil (hr.comp p e) v c c' b b' hc
    all_goals exact par_kind hr v c c' b b' hc

theorem par_marshal {cf f : Nat} {c c' : CtxH} (hc : c.toCtx = c'.toCtx) {a : Option (Ty × GV)} : Par M M' c.calls c'.calls (marshalH W h M cf f c a) (marshalH W h M' cf f c' a) := by
  cases a with
  | none => exact par_same hc .ok
  | some q =>
    obtain ⟨t, v⟩ := q
    exact par_andThen (par_fail hc) fun c c' _ _ hc => (par_encF f).comp [] t v c c' [] [] hc

end Verif

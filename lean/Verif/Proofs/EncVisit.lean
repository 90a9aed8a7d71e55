import Verif.Proofs.Marshal
import Verif.Proofs.EncStruct
import Verif.Spec.Recursion
import Verif.Spec.Obstacle
/-
Where a call of the encoder model that does not succeed stopped.
-/
namespace Verif
open Spec

/-- Outcomes other than success. -/
inductive Fail where
  | err (e : Err)
  | panic (p : Panic)
  | diverge

/-- The outcome `r` is the failure `x`. -/
def Fails {α : Type} (x : Fail) (r : Res α) : Prop :=
  match x with
  | .err e => r = .err e
  | .panic p => r = .panic p
  | .diverge => r = .diverge

theorem fails_ok {α : Type} {x : Fail} {a : α} (h : Fails x (.ok a)) : False := by cases x <;> cases h

theorem fails_bind {α β : Type} {x : Fail} {r : Res α} {k : α → Res β} (h : Fails x (r >>= k)) : Fails x r ∨ ∃ a, r = .ok a ∧ Fails x (k a) := by
  cases r with
  | ok a => exact .inr ⟨a, rfl, h⟩
  | err e => cases x <;> cases h; exact .inl rfl
  | panic p => cases x <;> cases h; exact .inl rfl
  | diverge => cases x <;> cases h; exact .inl rfl

theorem fails_andThen {α β : Type} {x : Fail} {r : ER α} {k : Ctx → α → ER β} (h : Fails x (andThen r k).2) :
    Fails x r.2 ∨ ∃ c a, r = (c, .ok a) ∧ Fails x (k c a).2 := by
  obtain ⟨c, r⟩ := r
  cases r with
  | ok a => exact .inr ⟨c, a, rfl, h⟩
  | err e => cases x <;> cases h; exact .inl rfl
  | panic p => cases x <;> cases h; exact .inl rfl
  | diverge => cases x <;> cases h; exact .inl rfl

theorem fails_then {α β : Type} {x : Fail} {c : Ctx} {r : Res α} {k : Ctx → α → ER β} (h : Fails x (andThen (c, r) k).2) :
    Fails x r ∨ ∃ a, r = .ok a ∧ Fails x (k c a).2 := by
  cases r with
  | ok a => exact .inr ⟨a, rfl, h⟩
  | err e => cases x <;> cases h; exact .inl rfl
  | panic p => cases x <;> cases h; exact .inl rfl
  | diverge => cases x <;> cases h; exact .inl rfl

/-- What is not supported at the place itself, and the word for it. -/
inductive Bad (W : World) (h : Heap) : Place → String → Prop
  | string {y} : y.m = .field true → W.isPtr y.t = false → asStringOk W y.t = false → Bad W h y "as string"
  | stringPtr {y e} : y.m = .field true → W.resolve y.t = .ptr e → asStringOk W e = false → Bad W h y "as string"
  | heldString {y t' v'} : y.m = .field true → W.isIface y.t = true → Deref W h y.t y.v (some (t', v')) → ¬ (Predeclared t' ∧ Fits W h t' v') →
      Bad W h y "as string"
  | heldStringPtr {y e a t' v'} : y.m = .field true → W.resolve y.t = .ptr e → y.v = .ptr a → W.isIface e = true →
      Deref W h e (h.deref e a) (some (t', v')) → ¬ (Predeclared t' ∧ Fits W h t' v') → Bad W h y "as string"
  | key {y k e} : y.m = .kind → W.resolve y.t = .map k e → W.mapKeyOk k = false → Bad W h y "map key"
  | kind {y} : y.m = .kind → W.resolve y.t = .uint .uptr ∨ W.resolve y.t = .other ∨ (∃ n, W.resolve y.t = .named n) ∨ (∃ e, W.resolve y.t = .ptr e) →
      Bad W h y "type"
  | heldKey {y k e} : y.m = .held → W.resolve y.t = .map k e → W.mapKeyOk k = false → Bad W h y "map key"
  | held {y} : y.m = .held → W.isPtr y.t = false → W.isIface y.t = false → ¬ HeldKind W y.t → Bad W h y "interface value"
  | nested {y e u} : y.m = .typed → W.marOf y.t = false → W.resolve y.t = .ptr e → W.resolve e = .ptr u → Bad W h y "nested pointer"

/-- Reasons for the failure `x` that lie at the place itself. -/
inductive Cause (W : World) (h : Heap) (cf f : Nat) (x : Fail) : Place → Prop
  | blocked {y} : x = .err .recursive → Blocked W y → Cause W h cf f x y
  | unsupported {y} (s : String) : x = .err (.unsupported s) → Bad W h y s → Cause W h cf f x y
  | misfit {y} (p : Panic) : x = .panic p → ¬ WellFormed W h y.t y.v → Cause W h cf f x y
  | nilCall {y} (p : Panic) : x = .panic p → y.m = .typed → W.marOf y.t = true → NilCall W y.t y.v → Cause W h cf f x y
  | method {y} (t : Ty) (v : GV) : y.m = .typed → W.marOf y.t = true → (t = y.t ∧ v = y.v ∧ ∀ dt dv, v ≠ .iface dt dv) ∨ y.v = .iface t v → Fails x (h.marshal t v) → Cause W h cf f x y
  | compile {y} : y.m = .held → W.isStruct y.t = true ∨ (∃ e, W.resolve y.t = .slice e ∧ W.isIface e = false) → Fails x (compileE W cf [] y.t) → Cause W h cf f x y
  | compileElem {y k e a u w} : y.m = .held → W.resolve y.t = .map k e → y.v = .map a → (u, w) ∈ h.iter k e y.p a → W.isIface e = false →
      Fails x (compileE W cf [] e) → Cause W h cf f x y
  | deref {y} : y.m = .held → Fails x (derefAll W h f y.t y.v) → Cause W h cf f x y
  | derefStr {y} : y.m = .field true → W.isIface y.t = true → Fails x (derefAll W h f y.t y.v) → Cause W h cf f x y
  | derefStrPtr {y e a} : y.m = .field true → W.resolve y.t = .ptr e → y.v = .ptr a → W.isIface e = true → Fails x (derefAll W h f e (h.deref e a)) → Cause W h cf f x y

theorem not_wellFormed {W : World} {h : Heap} {t t' : Ty} {v v' : GV} (hw : Within W h t v t' v') (hn : ¬ Fits W h t' v') : ¬ WellFormed W h t v :=
  fun hf => hn (hf _ _ hw)

theorem cause_misfit {W : World} {h : Heap} {cf f : Nat} {x : Fail} {y : Place} {p : Panic} (hx : Fails x (.panic p : Res Bytes)) (hn : ¬ Fits W h y.t y.v) :
    Cause W h cf f x y := by
  cases x <;> cases hx; exact .misfit p rfl (not_wellFormed .refl hn)

theorem cause_unsupported {W : World} {h : Heap} {cf f : Nat} {x : Fail} {y : Place} {s : String} (hx : Fails x (.err (.unsupported s) : Res Bytes))
    (hb : Bad W h y s) : Cause W h cf f x y := by
  cases x <;> cases hx; exact .unsupported s rfl hb

/-! ### Building blocks -/

variable {x : Fail}

theorem checkRecursive_fails {st : Stack} {b : Bytes} {enc : Ctx → Bytes → ER Bytes} {a : Nat} (hf : Fails x (checkRecursive enc a (ctxOf st) b).2) :
    (x = .err .recursive ∧ ¬ Fresh st a true) ∨ (Fresh st a true ∧ Fails x (enc (ctxOf ((a, true) :: st)) b).2) := by
  have hst : ctxOf st = ⟨seenOf st, depthOf st⟩ := rfl
  rw [hst] at hf
  unfold checkRecursive at hf
  simp only [] at hf
  by_cases hfr : Fresh st a true
  · have hc : (decide (depthOf st + 1 > 1000) && (seenOf st).contains a) = false := by
      rcases hfr with ⟨_, hf⟩ | hf
      · have : ¬ depthOf st + 1 > 1000 := by omega
        simp [this]
      · simp [hf]
    simp only [hc, Bool.false_eq_true, if_false] at hf
    have hctx : (⟨if decide (depthOf st + 1 > 1000) = true then a :: seenOf st else seenOf st, depthOf st + 1⟩ : Ctx) = ctxOf ((a, true) :: st) := by
      simp only [ctxOf, depthOf_true, seenOf]
      by_cases hd : depthOf st + 1 > 1000
      · have : ¬ depthOf st + 1 ≤ 1000 := by omega
        simp [hd, this]
      · have : depthOf st + 1 ≤ 1000 := by omega
        simp [hd, this]
    rw [hctx] at hf
    refine .inr ⟨hfr, ?_⟩
    generalize enc (ctxOf ((a, true) :: st)) b = r at hf ⊢
    obtain ⟨c, r⟩ := r
    cases r <;> exact hf
  · have hc : (decide (depthOf st + 1 > 1000) && (seenOf st).contains a) = true := by
      unfold Fresh at hfr
      simp only [not_or, not_and, true_implies] at hfr
      obtain ⟨h1, h2⟩ := hfr
      have : depthOf st + 1 > 1000 := by omega
      simp [this, Classical.not_not.1 h2]
    simp only [hc, if_true] at hf
    cases x <;> cases hf
    exact .inl ⟨rfl, hfr⟩

theorem reflectRecursive_fails {st : Stack} {b : Bytes} {enc : Ctx → Bytes → ER Bytes} {a : Nat} (hf : Fails x (reflectRecursive enc a (ctxOf st) b).2) :
    (x = .err .recursive ∧ ¬ Fresh st a false) ∨ (Fresh st a false ∧ Fails x (enc (ctxOf ((a, false) :: st)) b).2) := by
  have hst : ctxOf st = ⟨seenOf st, depthOf st⟩ := rfl
  rw [hst] at hf
  unfold reflectRecursive at hf
  simp only [] at hf
  by_cases hs : a ∈ seenOf st
  · rw [if_pos (by simpa using hs)] at hf
    cases x <;> cases hf
    refine .inl ⟨rfl, ?_⟩
    rintro (⟨h, _⟩ | h)
    · cases h
    · exact h hs
  · rw [if_neg (by simpa using hs)] at hf
    have hctx : (⟨a :: seenOf st, depthOf st⟩ : Ctx) = ctxOf ((a, false) :: st) := by simp [ctxOf, seenOf, depthOf_false]
    rw [hctx] at hf
    refine .inr ⟨.inr hs, ?_⟩
    generalize enc (ctxOf ((a, false) :: st)) b = r at hf ⊢
    obtain ⟨c, r⟩ := r
    cases r <;> exact hf

/-- The encoder restores the context when it succeeds. -/
def Restores (c : Ctx) (e : Ctx → Bytes → GV → ER Bytes) : Prop := ∀ b v c' b', e c b v = (c', .ok b') → c' = c

theorem elemsLoop_fails {c : Ctx} {enc : Nat → Ctx → Bytes → GV → ER Bytes} (hr : ∀ i, Restores c (enc i)) {vs : List GV} {i : Nat} {b : Bytes}
    (hf : Fails x (elemsLoop enc i vs c b).2) : ∃ j v b', vs[j]? = some v ∧ Fails x (enc (i + j) c b' v).2 := by
  induction vs generalizing i b with
  | nil => exact (fails_ok hf).elim
  | cons v vs ih =>
    rw [elemsLoop] at hf
    rcases fails_andThen hf with h1 | ⟨c', b', h1, h2⟩
    · exact ⟨0, v, _, rfl, h1⟩
    · obtain rfl := hr _ _ _ _ _ h1
      obtain ⟨j, w, b2, h3, h4⟩ := ih h2
      exact ⟨j + 1, w, b2, h3, by rw [show i + (j + 1) = i + 1 + j by omega]; exact h4⟩

theorem encodeElems_fails {c : Ctx} {enc : Nat → Ctx → Bytes → GV → ER Bytes} (hr : ∀ i, Restores c (enc i)) {vs : List GV} {b : Bytes}
    (hf : Fails x (encodeElems enc vs c b).2) : ∃ j v b', vs[j]? = some v ∧ Fails x (enc j c b' v).2 := by
  rcases fails_andThen hf with h1 | ⟨c', b', _, h2⟩
  · obtain ⟨j, v, b', h2, h3⟩ := elemsLoop_fails hr h1
    exact ⟨j, v, b', h2, by simpa using h3⟩
  · exact (fails_ok h2).elim

theorem entriesLoop_fails {c : Ctx} {key : Bytes → GV → Res Bytes} {enc : Nat → Ctx → Bytes → GV → ER Bytes} (hr : ∀ i, Restores c (enc i))
    {es : List (GV × GV)} {i : Nat} {b : Bytes} (hf : Fails x (entriesLoop key enc i es c b).2) :
    (∃ b' k v, (k, v) ∈ es ∧ Fails x (key b' k)) ∨ ∃ j k v b', es[j]? = some (k, v) ∧ Fails x (enc (i + j) c b' v).2 := by
  induction es generalizing i b with
  | nil => exact (fails_ok hf).elim
  | cons e es ih =>
    obtain ⟨k, v⟩ := e
    rw [entriesLoop] at hf
    rcases fails_then hf with h1 | ⟨b', h1, h2⟩
    · exact .inl ⟨_, _, _, List.mem_cons_self, h1⟩
    · rcases fails_andThen h2 with h1 | ⟨c', b2, h1, h5⟩
      · exact .inr ⟨0, k, v, _, rfl, h1⟩
      · obtain rfl := hr _ _ _ _ _ h1
        rcases ih h5 with ⟨b3, k', w, h3, h4⟩ | ⟨j, k', w, b2, h3, h4⟩
        · exact .inl ⟨b3, k', w, List.mem_cons_of_mem _ h3, h4⟩
        · exact .inr ⟨j + 1, k', w, b2, h3, by rw [show i + (j + 1) = i + 1 + j by omega]; exact h4⟩

theorem encodeEntries_fails {c : Ctx} {key : Bytes → GV → Res Bytes} {enc : Nat → Ctx → Bytes → GV → ER Bytes} (hr : ∀ i, Restores c (enc i))
    {es : List (GV × GV)} {b : Bytes} (hf : Fails x (encodeEntries key enc es c b).2) :
    (∃ b' k v, (k, v) ∈ es ∧ Fails x (key b' k)) ∨ ∃ j k v b', es[j]? = some (k, v) ∧ Fails x (enc j c b' v).2 := by
  rcases fails_andThen hf with h1 | ⟨c', b', _, h2⟩
  · rcases entriesLoop_fails hr h1 with h2 | ⟨j, k, v, b', h2, h3⟩
    · exact .inl h2
    · exact .inr ⟨j, k, v, b', h2, by simpa using h3⟩
  · exact (fails_ok h2).elim

theorem keyText_fails {W : World} {h : Heap} {t : Ty} {b : Bytes} {v : GV} (hf : Fails x (keyText W t b v)) :
    (x = .err (.unsupported "map key") ∧ W.mapKeyOk t = false) ∨ (∃ p, x = .panic p) ∧ ¬ Fits W h t v := by
  unfold keyText at hf
  split at hf
  · exact (fails_ok hf).elim
  · exact (fails_ok hf).elim
  · rename_i hr
    split at hf
    · rename_i hk; cases x <;> cases hf; exact .inl ⟨rfl, by simp [World.mapKeyOk, hr, hk]⟩
    · exact (fails_ok hf).elim
  · rename_i h1 h2 h3
    split at hf
    · rename_i hk
      cases x <;> cases hf
      refine .inr ⟨⟨_, rfl⟩, fun hfit => ?_⟩
      unfold World.mapKeyOk at hk
      split at hk
      · rename_i hr; cases hfit <;> simp_all [World.isIface]
      · rename_i hr; cases hfit <;> simp_all [World.isIface]
      · rename_i hr; cases hfit <;> simp_all [World.isIface]
      · cases hk
    · rename_i hk; cases x <;> cases hf; exact .inl ⟨rfl, by simpa using hk⟩

theorem fieldsLoop_fails {c : Ctx} {enc : EField → Ctx → Bytes → GV → ER Bytes} (hr : ∀ fl, Restores c (enc fl)) {vs : List GV} {fls : List EField}
    {b : Bytes} {n : Nat} (hf : Fails x (fieldsLoop enc vs fls c b n).2) :
    (∃ fl ∈ fls, vs[fl.idx]? = none) ∨ ∃ fl ∈ fls, ∃ v b', vs[fl.idx]? = some v ∧ ¬ (fl.omitEmpty && v.isZero) = true ∧ Fails x (enc fl c b' v).2 := by
  induction fls generalizing b n with
  | nil => exact (fails_ok hf).elim
  | cons fl fls ih =>
    have later : ∀ {b n}, Fails x (fieldsLoop enc vs fls c b n).2 → (∃ fl' ∈ fl :: fls, vs[fl'.idx]? = none) ∨ ∃ fl' ∈ fl :: fls, ∃ v b', vs[fl'.idx]? = some v ∧
        ¬ (fl'.omitEmpty && v.isZero) = true ∧ Fails x (enc fl' c b' v).2 := by
      intro b n hf
      rcases ih hf with ⟨fl', h1, h2⟩ | ⟨fl', h1, h2⟩
      · exact .inl ⟨fl', List.mem_cons_of_mem _ h1, h2⟩
      · exact .inr ⟨fl', List.mem_cons_of_mem _ h1, h2⟩
    unfold fieldsLoop at hf
    split at hf
    · rename_i hv
      exact .inl ⟨fl, List.mem_cons_self, hv⟩
    · rename_i v hv
      split at hf
      · exact later hf
      · rename_i ho
        rcases fails_andThen hf with h1 | ⟨c', b', h1, h2⟩
        · exact .inr ⟨fl, List.mem_cons_self, v, _, hv, ho, h1⟩
        · obtain rfl := hr _ _ _ _ _ h1
          exact later h2

/-- The fields an encoder was built for are shown unless omitted. -/
theorem efields_mem {W : World} {fs : List Field} {i : Nat} {fl : EField} (h : fl ∈ efields W i fs) :
    ∃ j f, fl.idx = i + j ∧ fs[j]? = some f ∧ fl.ty = f.ty ∧ (fl.str = true ↔ HasString W f) ∧ f.exported = true ∧
      TagMeaning W f (structTag W f).key (fl.omitEmpty = true) (fl.str = true) ∧ (structTag W f).key ≠ [45] := by
  induction fs generalizing i with
  | nil => cases h
  | cons f fs ih =>
    rw [efields] at h
    by_cases hh : (decide ((structTag W f).key = [45]) || !f.exported) = true
    · simp only [hh, if_true] at h
      obtain ⟨j, g, h1, h2⟩ := ih h
      exact ⟨j + 1, g, by omega, by simpa using h2⟩
    · simp only [hh] at h
      rw [if_neg (by simp)] at h
      have hh' : (structTag W f).key ≠ [45] ∧ f.exported = true := by
        simp only [Bool.or_eq_true, decide_eq_true_eq, Bool.not_eq_true', not_or] at hh
        exact ⟨hh.1, by simpa using hh.2⟩
      rcases List.mem_cons.1 h with rfl | h
      · exact ⟨0, f, rfl, rfl, rfl, by rw [hasString_iff], hh'.2, tagMeaning_iff.2 ⟨rfl, Iff.rfl, Iff.rfl⟩, hh'.1⟩
      · obtain ⟨j, g, h1, h2⟩ := ih h
        exact ⟨j + 1, g, by omega, by simpa using h2⟩

theorem encodeStruct_fails {W : World} {h : Heap} {c : Ctx} {enc : EField → Ctx → Bytes → GV → ER Bytes} (hr : ∀ fl, Restores c (enc fl)) {t : Ty} {id : Nat}
    (ht : W.resolve t = .struct id) {b : Bytes} {v : GV} (hf : Fails x (encodeStruct enc (W.fields id).length (efields W 0 (W.fields id)) c b v).2) :
    ((∃ p, x = .panic p) ∧ ¬ Fits W h t v) ∨ ∃ vs fl f w b', v = .struct vs ∧ (W.fields id)[fl.idx]? = some f ∧ vs[fl.idx]? = some w ∧ fl.ty = f.ty ∧
      (fl.str = true ↔ HasString W f) ∧ Shown W f w ∧ Fails x (enc fl c b' w).2 := by
  unfold encodeStruct at hf
  split at hf
  · rename_i vs
    split at hf
    · rename_i hl
      cases x <;> cases hf
      refine .inl ⟨⟨_, rfl⟩, fun hfit => ?_⟩
      cases hfit with
      | struct h1 h2 => rw [ht] at h1; cases h1; exact hl h2
      | other h1 => rw [ht] at h1; rcases h1 with h1 | ⟨_, h1⟩ <;> cases h1
    · rename_i hl
      have hl : vs.length = (W.fields id).length := by omega
      rcases fails_andThen hf with h1 | ⟨c', b', _, h2⟩
      · rcases fieldsLoop_fails hr h1 with ⟨fl, h2, h3⟩ | ⟨fl, h2, w, b', h3, h4, h5⟩
        · obtain ⟨j, f, e1, e2, _⟩ := efields_mem h2
          rw [Nat.zero_add] at e1
          rw [e1] at h3
          have := List.getElem?_eq_none_iff.1 h3
          obtain ⟨h4, -⟩ := List.getElem?_eq_some_iff.1 e2
          omega
        · obtain ⟨j, f, e1, e2, e3, e4, e5, e6, e7⟩ := efields_mem h2
          rw [Nat.zero_add] at e1
          refine .inr ⟨vs, fl, f, w, b', rfl, by rw [e1]; exact e2, h3, e3, e4, ⟨e5, _, _, _, e6, e7, ?_⟩, h5⟩
          rintro ⟨g1, g2⟩
          exact h4 (by simp [g1, isZero_iff.2 g2])
      · exact (fails_ok h2).elim
  · rename_i hn
    cases x <;> cases hf
    refine .inl ⟨⟨_, rfl⟩, fun hfit => ?_⟩
    cases hfit <;> simp_all [World.isIface]

theorem encodeScalar_fails {W : World} {h : Heap} {t : Ty} {b : Bytes} {v : GV} {r : Res Bytes} (hs : encodeScalar W t b v = some r) (hf : Fails x r) :
    (∃ p, x = .panic p) ∧ ¬ Fits W h t v := by
  unfold encodeScalar at hs
  split at hs <;> rename_i hr
  all_goals first
  | (cases hs; done)
  | (cases hs
     split at hf
     · exact (fails_ok hf).elim
     · cases x <;> cases hf
       refine ⟨⟨_, rfl⟩, fun hfit => ?_⟩
       cases hfit <;> simp_all [World.isIface])

theorem bytesOf_none {vs : List GV} (hn : bytesOf vs = none) : ∃ v ∈ vs, ∀ n, v = .uint n → ¬ n < 256 := by
  induction vs with
  | nil => cases hn
  | cons v vs ih =>
    cases v with
    | uint n =>
      unfold bytesOf at hn
      split at hn
      · simp only [Option.map_eq_none_iff] at hn
        obtain ⟨w, h1, h2⟩ := ih hn
        exact ⟨w, List.mem_cons_of_mem _ h1, h2⟩
      · rename_i hlt
        exact ⟨_, List.mem_cons_self, fun m e => by cases e; exact hlt⟩
    | _ => exact ⟨_, List.mem_cons_self, fun m e => by cases e⟩

theorem encodeBytes_fails {W : World} {h : Heap} {b : Bytes} {v : GV} (hf : Fails x (encodeBytes h b v)) :
    (∃ p, x = .panic p) ∧ ¬ WellFormed W h (.slice (.uint .u8)) v := by
  have hr : W.resolve (.slice (.uint .u8)) = .slice (.uint .u8) := rfl
  unfold encodeBytes at hf
  split at hf
  · exact (fails_ok hf).elim
  · rename_i a n
    split at hf
    · exact (fails_ok hf).elim
    · rename_i hn
      cases x <;> cases hf
      refine ⟨⟨_, rfl⟩, ?_⟩
      obtain ⟨v, h1, h2⟩ := bytesOf_none hn
      refine not_wellFormed (.step (.slice hr h1) .refl) fun hfit => ?_
      have hr8 : W.resolve (.uint .u8) = .uint .u8 := rfl
      cases hfit with
      | uint h3 h4 => rw [hr8] at h3; cases h3; exact h2 _ rfl (ufits_iff.2 h4)
      | _ => simp_all [World.isIface]
  · rename_i hn1 hn2
    cases x <;> cases hf
    refine ⟨⟨_, rfl⟩, not_wellFormed .refl fun hfit => ?_⟩
    cases hfit <;> simp_all [World.isIface]

theorem callMarshaler_fails {W : World} {h : Heap} {t : Ty} {b : Bytes} {v : GV} (hf : Fails x (callMarshaler W h t b v)) :
    ((∃ p, x = .panic p) ∧ NilCall W t v) ∨ ∃ t' v', ((t' = t ∧ v' = v ∧ ∀ dt dv, v' ≠ .iface dt dv) ∨ v = .iface t' v') ∧ Fails x (h.marshal t' v') := by
  have done : ∀ t' v', Fails x (h.marshal t' v' >>= fun raw => Res.ok (b ++ raw)) → Fails x (h.marshal t' v') := by
    intro t' v' hd
    rcases fails_bind hd with h1 | ⟨_, _, h1⟩
    · exact h1
    · exact (fails_ok h1).elim
  have pan : ∀ p, Fails x (.panic p : Res Bytes) → (∃ p, x = .panic p) := by
    intro p hd
    cases x <;> cases hd
    exact ⟨_, rfl⟩
  unfold callMarshaler at hf
  simp only [] at hf
  split at hf
  · split at hf
    · rename_i hm; exact .inl ⟨pan _ hf, .ptr hm⟩
    · exact .inr ⟨_, _, .inl ⟨rfl, rfl, by simp⟩, done _ _ hf⟩
  · exact .inl ⟨pan _ hf, .iface⟩
  · split at hf
    · split at hf
      · rename_i hm; exact .inl ⟨pan _ hf, .held hm⟩
      · exact .inr ⟨_, _, .inr rfl, done _ _ hf⟩
    · exact .inr ⟨_, _, .inr rfl, done _ _ hf⟩
  · exact .inr ⟨_, _, .inl ⟨rfl, rfl, by assumption⟩, done _ _ hf⟩

theorem ifaceAsString_fails {W : World} {h : Heap} {f : Nat} {t : Ty} {b : Bytes} {v : GV} (hf : Fails x (ifaceAsString W h f t b v)) :
    (x = .err (.unsupported "as string") ∧ ∃ t' v', Deref W h t v (some (t', v')) ∧ ¬ (Predeclared t' ∧ Fits W h t' v')) ∨ Fails x (derefAll W h f t v) := by
  unfold ifaceAsString at hf
  rcases fails_bind hf with h1 | ⟨o, ho, h1⟩
  · exact .inr h1
  · split at h1
    · exact (fails_ok h1).elim
    · have hd := derefAll_sound ho
      split at h1
      all_goals first
      | exact (fails_ok h1).elim
      | skip
      · split at h1
        · rename_i hk
          cases x <;> cases h1
          exact .inl ⟨rfl, _, _, hd, fun ⟨hp, _⟩ => by rcases hp with h | ⟨_, h⟩ | ⟨_, h, hn⟩ | h | h <;> cases h; exact hn hk⟩
        · exact (fails_ok h1).elim
      · cases x <;> cases h1
        refine .inl ⟨rfl, _, _, hd, fun ⟨hp, hfit⟩ => ?_⟩
        rcases hp with h | ⟨_, h⟩ | ⟨_, h, hn⟩ | h | h <;> subst h <;> cases hfit <;> simp_all [World.isIface, World.resolve]

theorem encodeAsString_fails {W : World} {h : Heap} {f : Nat} {t : Ty} {b : Bytes} {v : GV} (hf : Fails x (encodeAsString W h f t b v)) :
    ((∃ p, x = .panic p) ∧ ¬ Fits W h t v) ∨ (x = .err (.unsupported "as string") ∧ (asStringOk W t = false ∨
      W.isIface t = true ∧ ∃ t' v', Deref W h t v (some (t', v')) ∧ ¬ (Predeclared t' ∧ Fits W h t' v'))) ∨ (W.isIface t = true ∧ Fails x (derefAll W h f t v)) := by
  unfold encodeAsString at hf
  split at hf <;> rename_i hr
  all_goals first
  | exact (fails_ok hf).elim
  | exact (ifaceAsString_fails hf).elim (fun h => .inr (.inl ⟨h.1, .inr ⟨by simp [World.isIface, hr], h.2⟩⟩)) (fun h => .inr (.inr ⟨by simp [World.isIface, hr], h⟩))
  | skip
  · split at hf
    · rename_i hk; cases x <;> cases hf; exact .inr (.inl ⟨rfl, .inl (by simp [asStringOk, hr, hk])⟩)
    · exact (fails_ok hf).elim
  · split at hf
    · rename_i hk
      cases x <;> cases hf
      refine .inl ⟨⟨_, rfl⟩, fun hfit => ?_⟩
      unfold asStringOk at hk
      split at hk <;> rename_i hr'
      all_goals first
      | (cases hk; done)
      | (cases hfit <;> simp_all [World.isIface])
    · rename_i hk; cases x <;> cases hf; exact .inr (.inl ⟨rfl, .inl (by simpa using hk)⟩)

theorem derefAll_panics {W : World} {h : Heap} {f : Nat} {t : Ty} {v : GV} {p : Panic} (hf : Fails (.panic p) (derefAll W h f t v)) : ¬ WellFormed W h t v := by
  induction f generalizing t v with
  | zero => cases hf
  | succ f ih =>
    unfold derefAll at hf
    split at hf <;> rename_i hr
    · split at hf
      · cases hf
      · exact fun hw => ih hf fun t' v' hi => hw t' v' (.step (.ptr hr) hi)
      · exact not_wellFormed .refl fun hfit => by cases hfit <;> simp_all [World.isIface]
    · split at hf
      · cases hf
      · exact fun hw => ih hf fun t' v' hi => hw t' v' (.step (.iface (by simp [World.isIface, hr])) hi)
      · exact not_wellFormed .refl fun hfit => by cases hfit <;> simp_all [World.isIface]
    · split at hf
      · cases hf
      · exact fun hw => ih hf fun t' v' hi => hw t' v' (.step (.iface (by simp [World.isIface, hr])) hi)
      · exact not_wellFormed .refl fun hfit => by cases hfit <;> simp_all [World.isIface]
    · cases hf

/-! ### Levels -/

/-- The run of the model at a place, with fuel `f`. -/
def runAt (W : World) (h : Heap) (cf f : Nat) (y : Place) (b : Bytes) : ER Bytes :=
  match y.m with
  | .typed => (encF W h cf f).comp y.p y.t (ctxOf y.st) b y.v
  | .held => (encF W h cf f).held y.p y.t (ctxOf y.st) b y.v
  | .kind => encodeKind W h f (encF W h cf f) y.p y.t (ctxOf y.st) b y.v
  | .field str => encodeField W h f ((encF W h cf f).comp y.p) { idx := 0, name := [], omitEmpty := false, str := str, ty := y.t } (ctxOf y.st) b y.v

/-- Either there is a reason at the place itself or the failure comes from a place that is visited next. -/
def Next (W : World) (h : Heap) (cf f : Nat) (x : Fail) (y : Place) : Prop :=
  Cause W h cf f x y ∨ ∃ z b, Visit W h y z ∧ Fails x (runAt W h cf f z b).2

theorem restores_comp (W : World) (h : Heap) (cf f : Nat) (st : Stack) (p : Path) (t : Ty) : Restores (ctxOf st) ((encF W h cf f).comp p t) :=
  fun b v c' b' hr => (((encF_sound W h cf f).comp st p t b v).1 c' b' hr).1

theorem restores_held (W : World) (h : Heap) (cf f : Nat) (st : Stack) (p : Path) (t : Ty) : Restores (ctxOf st) ((encF W h cf f).held p t) :=
  fun b v c' b' hr => (((encF_sound W h cf f).held st p t b v).1 c' b' hr).1

variable {W : World} {h : Heap} {cf f : Nat}

/-- Refutes that a value has the form of its type by comparing the two. -/
local macro "nofit" : tactic => `(tactic| (intro hfit; cases hfit <;> simp_all [World.isIface]))

theorem key_misfit {t k e : Ty} {p : Path} {a : Nat} {u w : GV} (ht : W.resolve t = .map k e) (hm : (u, w) ∈ h.iter k e p a) (hn : ¬ Fits W h k u) :
    ¬ Fits W h t (.map a) := by
  intro hfit
  cases hfit with
  | map h1 h2 => rw [ht] at h1; cases h1; exact hn (h2 _ _ _ hm)
  | other h1 => rw [ht] at h1; rcases h1 with h1 | ⟨_, h1⟩ <;> cases h1

theorem field_fails {str : Bool} {st : Stack} {p : Path} {t : Ty} {v : GV} {b : Bytes} (hf : Fails x (runAt W h cf f ⟨.field str, st, p, t, v⟩ b).2) :
    Next W h cf f x ⟨.field str, st, p, t, v⟩ := by
  simp only [runAt] at hf
  unfold encodeField at hf
  simp only [] at hf
  split at hf
  · rename_i e he
    split at hf
    · rename_i hs
      simp only [Bool.and_eq_true, Bool.not_eq_true'] at hs
      obtain ⟨rfl, hs⟩ := hs
      cases v with
      | ptrNil => exact (fails_ok hf).elim
      | ptr a =>
        rcases checkRecursive_fails hf with ⟨rfl, h1⟩ | ⟨h1, h2⟩
        · exact .inl (.blocked rfl (.field he hs h1))
        · exact .inr ⟨_, b, .fieldPtrStruct he hs h1, h2⟩
      | _ => exact .inl (cause_misfit hf (by clear hf; nofit))
    · rename_i hs
      cases str with
      | false =>
        have hns : W.isStruct e = false := by simpa using hs
        simp only [Bool.false_eq_true, if_false] at hf
        cases v with
        | ptrNil => exact (fails_ok hf).elim
        | ptr a => exact .inr ⟨_, b, .fieldPtr he hns, hf⟩
        | _ => exact .inl (cause_misfit hf (by clear hf; nofit))
      | true =>
        simp only [if_true] at hf
        cases v with
        | ptrNil => exact (fails_ok hf).elim
        | ptr a =>
          rcases encodeAsString_fails hf with ⟨⟨p, rfl⟩, h1⟩ | ⟨rfl, h1 | ⟨h1, t', v', h2, h3⟩⟩ | ⟨h1, h2⟩
          · exact .inl (.misfit p rfl (not_wellFormed (.step (.ptr he) .refl) h1))
          · exact .inl (.unsupported _ rfl (.stringPtr rfl he h1))
          · exact .inl (.unsupported _ rfl (.heldStringPtr rfl he rfl h1 h2 h3))
          · exact .inl (.derefStrPtr rfl he rfl h1 h2)
        | _ => exact .inl (cause_misfit hf (by clear hf; nofit))
  · rename_i he
    have hp : W.isPtr t = false := by
      cases hip : W.isPtr t
      · rfl
      · obtain ⟨e, h1⟩ := isPtr_cases hip; exact absurd h1 (he e)
    cases str with
    | false =>
      simp only [Bool.false_eq_true, if_false] at hf
      exact .inr ⟨_, b, .fieldPlain hp, hf⟩
    | true =>
      simp only [if_true] at hf
      rcases encodeAsString_fails hf with ⟨⟨p, rfl⟩, h1⟩ | ⟨rfl, h1 | ⟨h1, t', v', h2, h3⟩⟩ | ⟨h1, h2⟩
      · exact .inl (.misfit p rfl (not_wellFormed .refl h1))
      · exact .inl (.unsupported _ rfl (.string rfl hp h1))
      · exact .inl (.unsupported _ rfl (.heldString rfl h1 h2 h3))
      · exact .inl (.derefStr rfl h1 h2)

theorem field_irrel {r : Ty → Ctx → Bytes → GV → ER Bytes} {fl : EField} : encodeField W h f r fl = encodeField W h f r { idx := 0, name := [], omitEmpty := false, str := fl.str, ty := fl.ty } := rfl

theorem kind_fails {st : Stack} {p : Path} {t : Ty} {v : GV} {b : Bytes} (hf : Fails x (runAt W h cf f ⟨.kind, st, p, t, v⟩ b).2) :
    Next W h cf f x ⟨.kind, st, p, t, v⟩ := by
  simp only [runAt] at hf
  unfold encodeKind at hf
  split at hf
  · rename_i r0 hs
    obtain ⟨⟨q, rfl⟩, h1⟩ := encodeScalar_fails (h := h) hs hf
    exact .inl (.misfit q rfl (not_wellFormed .refl h1))
  · split at hf <;> rename_i ht
    · rcases encodeStruct_fails (fun fl b v c' b' hr => ((encodeField_sound (encF_sound W h cf f) (f := f) (st := st) (p := fl.idx :: p) (fl := fl)).1 c' b' hr).1) ht hf (h := h)
        with ⟨⟨q, rfl⟩, h1⟩ | ⟨vs, fl, g, w, b', rfl, h1, h2, h3, h4, h5, h6⟩
      · exact .inl (.misfit q rfl (not_wellFormed .refl h1))
      · refine .inr ⟨_, b', .field ht h1 h2 h5 h4, ?_⟩
        rw [← h3]
        exact h6
    · split at hf
      · split at hf
        · obtain ⟨j, w, b', h1, h2⟩ := encodeElems_fails (fun i => restores_comp W h cf f st _ _) hf
          exact .inr ⟨_, b', .array ht h1, h2⟩
        · exact .inl (cause_misfit hf (by clear hf; nofit))
      · exact .inl (cause_misfit hf (by clear hf; nofit))
    · cases v with
      | sliceNil => exact (fails_ok hf).elim
      | slice a n =>
        rcases checkRecursive_fails hf with ⟨rfl, h1⟩ | ⟨h1, h2⟩
        · exact .inl (.blocked rfl (.slice ht h1))
        · obtain ⟨j, w, b', h3, h4⟩ := encodeElems_fails (fun i => restores_comp W h cf f ((a, true) :: st) _ _) h2
          exact .inr ⟨_, b', .slice ht h1 h3, h4⟩
      | _ => exact .inl (cause_misfit hf (by clear hf; nofit))
    · cases v with
      | mapNil => exact (fails_ok hf).elim
      | map a =>
        rcases checkRecursive_fails hf with ⟨rfl, h1⟩ | ⟨h1, h2⟩
        · exact .inl (.blocked rfl (.map ht h1))
        · rcases encodeEntries_fails (fun i => restores_comp W h cf f ((a, true) :: st) _ _) h2 with ⟨b', k', w, h0, h3⟩ | ⟨j, k', w, b', h3, h4⟩
          · rcases keyText_fails (h := h) h3 with ⟨rfl, hk⟩ | ⟨⟨q, rfl⟩, h5⟩
            · exact .inl (.unsupported _ rfl (.key rfl ht hk))
            · exact .inl (.misfit q rfl (not_wellFormed .refl (key_misfit ht h0 h5)))
          · exact .inr ⟨_, b', .map ht h1 h3, h4⟩
      | _ => exact .inl (cause_misfit hf (by clear hf; nofit))
    · exact .inr ⟨⟨.held, st, p, t, v⟩, b, .iface (by simp [World.isIface, ht]), hf⟩
    · exact .inr ⟨⟨.held, st, p, t, v⟩, b, .iface (by simp [World.isIface, ht]), hf⟩
    · refine .inl (cause_unsupported hf (.kind rfl ?_))
      rename_i hs _ _ _ _ _ _
      clear hf
      simp only [encodeScalar] at hs
      generalize W.resolve t = r at *
      cases r with
      | uint k => cases k <;> simp_all
      | _ => simp_all

theorem deref_final {t : Ty} {v : GV} {o : Option (Ty × GV)} (hd : Deref W h t v o) {t' : Ty} {v' : GV} (ho : o = some (t', v')) :
    W.isPtr t' = false ∧ W.isIface t' = false := by
  induction hd with
  | ptrNil => cases ho
  | ifaceNil => cases ho
  | ptr _ _ ih => exact ih ho
  | iface _ _ ih => exact ih ho
  | done h1 h2 => cases ho; exact ⟨h1, h2⟩

/-- Held values, after pointers and interfaces have been followed. -/
theorem held_fails {st : Stack} {p : Path} {t : Ty} {v : GV} {b : Bytes} (hf : Fails x (runAt W h cf (f + 1) ⟨.held, st, p, t, v⟩ b).2) :
    Cause W h cf (f + 1) x ⟨.held, st, p, t, v⟩ ∨ ∃ t' v', derefAll W h (f + 1) t v = .ok (some (t', v')) ∧ Next W h cf f x ⟨.held, st, p, t', v'⟩ := by
  simp only [runAt, encF] at hf
  unfold reflectValue at hf
  rcases fails_andThen hf with h1 | ⟨c', o, h1, h2⟩
  · exact .inl (.deref rfl h1)
  · have hc : ctxOf st = c' := by injection h1
    have ho : derefAll W h (f + 1) t v = .ok o := by injection h1
    subst hc
    cases o with
    | none => exact (fails_ok h2).elim
    | some q =>
      obtain ⟨t', v'⟩ := q
      refine .inr ⟨t', v', ho, ?_⟩
      simp only [] at h2
      split at h2
      · rename_i r0 hs
        obtain ⟨⟨q, rfl⟩, h1⟩ := encodeScalar_fails (h := h) hs h2
        exact .inl (.misfit q rfl (not_wellFormed .refl h1))
      · have ha : v'.addr = addrOf v' := by cases v' <;> rfl
        split at h2 <;> rename_i ht
        · rename_i e
          rw [ha] at h2
          rcases reflectRecursive_fails h2 with ⟨rfl, h1⟩ | ⟨h1, h2⟩
          · exact .inl (.blocked rfl (.heldSlice ht h1))
          · unfold reflectSlice at h2
            split at h2
            · rename_i hi
              rcases fails_then h2 with h3 | ⟨s, _, h4⟩
              · exact .inl (.compile rfl (.inr ⟨e, ht, by simpa using hi⟩) h3)
              · exact .inr ⟨_, b, .heldConcreteSlice ht (by simpa using hi) h1, h4⟩
            · rename_i hi
              have hi : W.isIface e = true := by simpa using hi
              cases v' with
              | sliceNil => exact (fails_ok h2).elim
              | slice a n =>
                obtain ⟨j, w, b', h3, h4⟩ := encodeElems_fails (fun i => restores_held W h cf f ((a, false) :: st) _ _) h2
                exact .inr ⟨_, b', .heldSlice ht hi h1 h3, h4⟩
              | _ => exact .inl (cause_misfit h2 (by clear h2 hf h1; nofit))
        · rename_i k e
          rw [ha] at h2
          rcases reflectRecursive_fails h2 with ⟨rfl, h1⟩ | ⟨h1, h2⟩
          · exact .inl (.blocked rfl (.heldMap ht h1))
          · unfold reflectMap at h2
            split at h2
            · rename_i hk; exact .inl (cause_unsupported h2 (.heldKey rfl ht (by simpa using hk)))
            · cases v' with
              | mapNil => exact (fails_ok h2).elim
              | map a =>
                simp only [] at h2
                have key : ∀ {x : Fail}, (∃ b' k' w, (k', w) ∈ h.iter k e p a ∧ Fails x (keyText W k b' k')) → Cause W h cf f x ⟨.held, st, p, t', .map a⟩ := by
                  rintro x ⟨b', k', w, h0, h3⟩
                  rcases keyText_fails (h := h) h3 with ⟨rfl, hk⟩ | ⟨⟨q, rfl⟩, h5⟩
                  · exact .unsupported _ rfl (.heldKey rfl ht hk)
                  · exact .misfit q rfl (not_wellFormed .refl (key_misfit ht h0 h5))
                split at h2
                · exact (fails_ok h2).elim
                · rename_i hne
                  split at h2
                  · rename_i hi
                    rcases encodeEntries_fails (fun i => restores_held W h cf f ((a, false) :: st) _ _) h2 with h3 | ⟨j, k', w, b', h3, h4⟩
                    · exact .inl (key h3)
                    · exact .inr ⟨_, b', .heldMap ht hi h1 h3, h4⟩
                  · rename_i hi
                    rcases fails_then h2 with h3 | ⟨s, _, h4⟩
                    · obtain ⟨⟨u, w⟩, hu⟩ := List.exists_mem_of_ne_nil (h.iter k e p a) (by simpa using hne)
                      exact .inl (.compileElem rfl ht rfl hu (by simpa using hi) h3)
                    · rcases encodeEntries_fails (fun i => restores_comp W h cf f ((a, false) :: st) _ _) h4 with h3 | ⟨j, k', w, b', h3, h4⟩
                      · exact .inl (key h3)
                      · exact .inr ⟨_, b', .heldConcreteMap ht (by simpa using hi) h1 h3, h4⟩
              | _ => exact .inl (cause_misfit h2 (by clear h2 hf h1; nofit))
        · rcases fails_then h2 with h3 | ⟨s, _, h4⟩
          · exact .inl (.compile rfl (.inl (by simp [World.isStruct, ht])) h3)
          · exact .inr ⟨_, b, .heldStruct (by simp [World.isStruct, ht]), h4⟩
        · have hd := derefAll_sound ho
          obtain ⟨hp, hi⟩ := deref_final hd rfl
          refine .inl (cause_unsupported h2 (.held rfl hp hi fun hk => ?_))
          rename_i hs _ _ _
          clear h2 hf
          simp only [encodeScalar] at hs
          unfold HeldKind EncKeyKind at hk
          dsimp only at hk
          generalize W.resolve t' = r at *
          cases r with
          | uint k => cases k <;> simp_all
          | _ => simp_all

theorem typed_fails {st : Stack} {p : Path} {t : Ty} {v : GV} {b : Bytes} (hf : Fails x (runAt W h cf (f + 1) ⟨.typed, st, p, t, v⟩ b).2) :
    Next W h cf f x ⟨.typed, st, p, t, v⟩ := by
  simp only [runAt, encF] at hf
  split at hf
  · rename_i hm
    rcases callMarshaler_fails hf with ⟨⟨q, rfl⟩, h1⟩ | ⟨t', v', h1, h2⟩
    · exact .inl (.nilCall q rfl rfl hm h1)
    · exact .inl (.method _ _ rfl hm h1 h2)
  · rename_i hm
    have hm : W.marOf t = false := by simpa using hm
    split at hf
    · rename_i hb
      subst hb
      obtain ⟨⟨q, rfl⟩, h1⟩ := encodeBytes_fails (W := W) hf
      exact .inl (.misfit q rfl h1)
    · rename_i hb
      split at hf
      · rename_i e ht
        have kind : ∀ {a}, v = .ptr a → directKind W e = true → Fails x (runAt W h cf f ⟨.kind, st, p, e, h.deref e a⟩ b).2 →
            Next W h cf f x ⟨.typed, st, p, t, v⟩ := by
          rintro a rfl he h1
          exact .inr ⟨_, b, .ptrKind hm ht he, h1⟩
        split at hf <;> rename_i he
        · exact .inl (cause_unsupported hf (.nested rfl hm ht he))
        · exact .inr ⟨⟨.held, st, p, t, v⟩, b, .ptrIface hm ht (by simp [World.isIface, he]), hf⟩
        · exact .inr ⟨⟨.held, st, p, t, v⟩, b, .ptrIface hm ht (by simp [World.isIface, he]), hf⟩
        · have hs : W.isStruct e = true := by simp [World.isStruct, he]
          cases v with
          | ptrNil => exact (fails_ok hf).elim
          | ptr a =>
            rcases checkRecursive_fails hf with ⟨rfl, h1⟩ | ⟨h1, h2⟩
            · exact .inl (.blocked rfl (.ptr ht hs h1))
            · exact .inr ⟨_, b, .ptrStruct hm ht hs h1, h2⟩
          | _ => exact .inl (cause_misfit hf (by clear hf; nofit))
        all_goals
          cases v with
          | ptrNil => exact (fails_ok hf).elim
          | ptr a => first
            | exact kind rfl (by simp_all [directKind]) hf
            | exact .inr ⟨_, b, .ptrTyped hm ht (by simp_all [World.isPtr]) (by simp_all [World.isIface]) (by simp_all [World.isStruct]) (by simp_all [directKind]), hf⟩
          | _ => exact .inl (cause_misfit hf (by clear hf; nofit))
      · rename_i hn
        have hp : W.isPtr t = false := by
          cases hip : W.isPtr t
          · rfl
          · obtain ⟨e, h1⟩ := isPtr_cases hip; exact absurd h1 (hn e)
        exact .inr ⟨⟨.kind, st, p, t, v⟩, b, .plain hm hb hp, hf⟩

end Verif

import Verif.Proofs.EncMono
/-
What calls of `Marshal` return, in terms of the specification of encoding.
-/
namespace Verif
open Spec

/-- `Marshal` can prepare the type. -/
def Supported (W : World) (t : Ty) : Prop := ∃ cf, Accepted W cf t

/-- The text of a value as `Marshal` writes it, with the recursion checks. -/
abbrev EncC (W : World) (h : Heap) := EncG W h (Supported W) Fresh

/-- The text of a value, without recursion checks. -/
abbrev EncT (W : World) (h : Heap) := EncG W h (Supported W) (fun _ _ _ => True)

/-- A call of `Marshal`, with a context as it comes from the pool, finishes with `r` (for every sufficient fuel). -/
def MarshalGives (W : World) (h : Heap) (x : Option (Ty × GV)) (r : Res Bytes) : Prop :=
  r ≠ .diverge ∧ ∃ n, ∀ cf f, n ≤ cf → n ≤ f → (marshal W h cf f Ctx.clean x).2 = r

theorem MarshalGives.unique {W : World} {h : Heap} {x : Option (Ty × GV)} {r r' : Res Bytes} (h1 : MarshalGives W h x r)
    (h2 : MarshalGives W h x r') : r = r' := by
  obtain ⟨-, n, hn⟩ := h1
  obtain ⟨-, m, hm⟩ := h2
  rw [← hn (max n m) (max n m) (by omega) (by omega), ← hm (max n m) (max n m) (by omega) (by omega)]

theorem marshalGives_of {W : World} {h : Heap} {cf f : Nat} {x : Option (Ty × GV)} {r : Res Bytes} (hr : r ≠ .diverge)
    (hm : (marshal W h cf f Ctx.clean x).2 = r) : MarshalGives W h x r := by
  refine ⟨hr, max cf f, fun cg g h1 h2 => ?_⟩
  obtain ⟨c, r', h'⟩ : ∃ c r', marshal W h cf f Ctx.clean x = (c, r') := ⟨_, _, rfl⟩
  rw [h'] at hm
  cases hm
  rw [marshal_mono h' hr (by omega) (by omega)]

theorem encG_mono {W : World} {h : Heap} {ok ok' : Ty → Prop} {G G' : Stack → Nat → Bool → Prop} (hok : ∀ t, ok t → ok' t)
    (hG : ∀ st a k, G st a k → G' st a k) {m : Mode} {st : Stack} {p : Path} {t : Ty} {v : GV} {tx : Bytes}
    (he : EncG W h ok G m st p t v tx) : EncG W h ok' G' m st p t v tx := by
  induction he with
  | marshaler a b => exact .marshaler a b
  | bytesNil => exact .bytesNil
  | bytes a => exact .bytes a
  | plain a b c _ ih => exact .plain a b c ih
  | ptrNil a b c d => exact .ptrNil a b c d
  | ptrStruct a b c d _ ih => exact .ptrStruct a b c (hG _ _ _ d) ih
  | ptrKind a b c _ ih => exact .ptrKind a b c ih
  | ptrTyped a b c d e f _ ih => exact .ptrTyped a b c d e f ih
  | ptrIface a b c _ ih => exact .ptrIface a b c ih
  | scalar a => exact .scalar a
  | struct a b _ ih => exact .struct a b ih
  | array a b _ ih => exact .array a b ih
  | sliceNil a => exact .sliceNil a
  | slice a b c _ ih => exact .slice a (hG _ _ _ b) c ih
  | mapNil a => exact .mapNil a
  | map a b c d _ ih => exact .map a (hG _ _ _ b) c d ih
  | iface a _ ih => exact .iface a ih
  | heldNil a => exact .heldNil a
  | heldScalar a b => exact .heldScalar a b
  | heldConcreteSlice a b c d e _ ih => exact .heldConcreteSlice a b c (hG _ _ _ d) (hok _ e) ih
  | heldSliceNil a b c d => exact .heldSliceNil a b c (hG _ _ _ d)
  | heldSlice a b c d e _ ih => exact .heldSlice a b c (hG _ _ _ d) e ih
  | heldMapNil a b c d => exact .heldMapNil a b c (hG _ _ _ d)
  | heldMap a b c d e f g _ ih => exact .heldMap a b c d (hG _ _ _ e) f g ih
  | heldConcreteMap a b c d e f g h _ ih => exact .heldConcreteMap a b c d (hG _ _ _ e) f (fun x => hok _ (g x)) h ih
  | heldStruct a b c _ ih => exact .heldStruct a b (hok _ c) ih
  | fieldPlain a _ ih => exact .fieldPlain a ih
  | fieldPtrNil a => exact .fieldPtrNil a
  | fieldPtrStruct a b c _ ih => exact .fieldPtrStruct a b (hG _ _ _ c) ih
  | fieldPtr a b _ ih => exact .fieldPtr a b ih
  | fieldStr a b => exact .fieldStr a b
  | fieldStrPtr a b => exact .fieldStrPtr a b

/-- One fuel for compilation is enough for a whole value. -/
theorem encG_uniform {W : World} {h : Heap} {G : Stack → Nat → Bool → Prop} {m : Mode} {st : Stack} {p : Path} {t : Ty} {v : GV} {tx : Bytes}
    (he : EncG W h (Supported W) G m st p t v tx) : ∃ cf, ∀ cg, cf ≤ cg → EncG W h (Accepted W cg) G m st p t v tx := by
  induction he with
  | marshaler a b => exact ⟨0, fun _ _ => .marshaler a b⟩
  | bytesNil => exact ⟨0, fun _ _ => .bytesNil⟩
  | bytes a => exact ⟨0, fun _ _ => .bytes a⟩
  | plain a b c _ ih => exact ih.imp fun n hn g hg => .plain a b c (hn g hg)
  | ptrNil a b c d => exact ⟨0, fun _ _ => .ptrNil a b c d⟩
  | ptrStruct a b c d _ ih => exact ih.imp fun n hn g hg => .ptrStruct a b c d (hn g hg)
  | ptrKind a b c _ ih => exact ih.imp fun n hn g hg => .ptrKind a b c (hn g hg)
  | ptrTyped a b c d e f _ ih => exact ih.imp fun n hn g hg => .ptrTyped a b c d e f (hn g hg)
  | ptrIface a b c _ ih => exact ih.imp fun n hn g hg => .ptrIface a b c (hn g hg)
  | scalar a => exact ⟨0, fun _ _ => .scalar a⟩
  | @struct st p t id vs ws tx a b _ ih =>
    obtain ⟨F, hF⟩ := uniform_bound ws (fun j w f => EncG W h (Accepted W f) G (.field w.str) st (w.idx :: p) w.ty w.val (tx j)) ih
    exact ⟨F, fun g hg => .struct a b fun j w hj => hF j w hj g hg⟩
  | @array st p t n e vs tx a b _ ih =>
    obtain ⟨F, hF⟩ := uniform_bound vs (fun j w f => EncG W h (Accepted W f) G .typed st (j :: p) e w (tx j)) ih
    exact ⟨F, fun g hg => .array a b fun j w hj => hF j w hj g hg⟩
  | sliceNil a => exact ⟨0, fun _ _ => .sliceNil a⟩
  | @slice st p t e a' n vs tx a b c _ ih =>
    obtain ⟨F, hF⟩ := uniform_bound vs (fun j w f => EncG W h (Accepted W f) G .typed ((a', true) :: st) (j :: p) e w (tx j)) ih
    exact ⟨F, fun g hg => .slice a b c fun j w hj => hF j w hj g hg⟩
  | mapNil a => exact ⟨0, fun _ _ => .mapNil a⟩
  | @map st p t k e a' es kd tx a b c d _ ih =>
    obtain ⟨F, hF⟩ := uniform_bound es (fun j w f => EncG W h (Accepted W f) G .typed ((a', true) :: st) (j :: p) e w.2 (tx j)) (fun j w hw => ih j w.1 w.2 hw)
    exact ⟨F, fun g hg => .map a b c d fun j x y hj => hF j (x, y) hj g hg⟩
  | iface a _ ih => exact ih.imp fun n hn g hg => .iface a (hn g hg)
  | heldNil a => exact ⟨0, fun _ _ => .heldNil a⟩
  | heldScalar a b => exact ⟨0, fun _ _ => .heldScalar a b⟩
  | heldConcreteSlice a b c d e _ ih =>
    obtain ⟨n, hn⟩ := ih
    obtain ⟨m, hm⟩ := e
    exact ⟨max n m, fun g hg => .heldConcreteSlice a b c d (hm.mono (by omega)) (hn g (by omega))⟩
  | heldSliceNil a b c d => exact ⟨0, fun _ _ => .heldSliceNil a b c d⟩
  | @heldSlice st p t v t' e a' n vs tx a b c d e' _ ih =>
    obtain ⟨F, hF⟩ := uniform_bound vs (fun j w f => EncG W h (Accepted W f) G .held ((a', false) :: st) (j :: p) e w (tx j)) ih
    exact ⟨F, fun g hg => .heldSlice a b c d e' fun j w hj => hF j w hj g hg⟩
  | heldMapNil a b c d => exact ⟨0, fun _ _ => .heldMapNil a b c d⟩
  | @heldMap st p t v t' k e a' es kd tx a b c d e' f' g' _ ih =>
    obtain ⟨F, hF⟩ := uniform_bound es (fun j w f => EncG W h (Accepted W f) G .held ((a', false) :: st) (j :: p) e w.2 (tx j)) (fun j w hw => ih j w.1 w.2 hw)
    exact ⟨F, fun g hg => .heldMap a b c d e' f' g' fun j x y hj => hF j (x, y) hj g hg⟩
  | @heldConcreteMap st p t v t' k e a' es kd tx a b c d e' f' g' h' _ ih =>
    obtain ⟨F, hF⟩ := uniform_bound es (fun j w f => EncG W h (Accepted W f) G .typed ((a', false) :: st) (j :: p) e w.2 (tx j)) (fun j w hw => ih j w.1 w.2 hw)
    by_cases hes : es = []
    · subst hes
      exact ⟨F, fun g hg => .heldConcreteMap a b c d e' f' (fun x => absurd rfl x) h' fun j x y hj => hF j (x, y) hj g hg⟩
    · obtain ⟨m, hm⟩ := g' hes
      exact ⟨max F m, fun g hg => .heldConcreteMap a b c d e' f' (fun _ => hm.mono (by omega)) h' fun j x y hj => hF j (x, y) hj g (by omega)⟩
  | heldStruct a b c _ ih =>
    obtain ⟨n, hn⟩ := ih
    obtain ⟨m, hm⟩ := c
    exact ⟨max n m, fun g hg => .heldStruct a b (hm.mono (by omega)) (hn g (by omega))⟩
  | fieldPlain a _ ih => exact ih.imp fun n hn g hg => .fieldPlain a (hn g hg)
  | fieldPtrNil a => exact ⟨0, fun _ _ => .fieldPtrNil a⟩
  | fieldPtrStruct a b c _ ih => exact ih.imp fun n hn g hg => .fieldPtrStruct a b c (hn g hg)
  | fieldPtr a b _ ih => exact ih.imp fun n hn g hg => .fieldPtr a b (hn g hg)
  | fieldStr a b => exact ⟨0, fun _ _ => .fieldStr a b⟩
  | fieldStrPtr a b => exact ⟨0, fun _ _ => .fieldStrPtr a b⟩

theorem ctxOf_nil : ctxOf [] = Ctx.clean := rfl

/-- A call that succeeds, or fails with an error, leaves the context as it was. -/
theorem marshal_sound {W : World} {h : Heap} {cf f : Nat} {c : Ctx} {t : Ty} {v : GV} {r : Res Bytes}
    (hm : marshal W h cf f Ctx.clean (some (t, v)) = (c, r)) :
    (∀ tx, r = .ok tx → c = Ctx.clean ∧ Accepted W cf t ∧ EncM W h cf .typed [] [] t v tx) ∧ (∀ e, r = .err e → c = Ctx.clean) := by
  simp only [marshal] at hm
  cases hc : compileE W cf [] t with
  | ok seen =>
    rw [hc] at hm
    simp only [andThen] at hm
    have := (encF_sound W h cf f).comp [] [] t [] v
    rw [ctxOf_nil] at this
    refine ⟨fun tx hr => ?_, fun e hr => ?_⟩
    · subst hr
      obtain ⟨h1, tx', h2, h3⟩ := this.1 _ _ hm
      simp only [List.nil_append] at h2
      subst h2
      exact ⟨h1, ⟨seen, hc⟩, h3⟩
    · subst hr
      exact this.2 _ _ hm
  | err e => rw [hc] at hm; simp only [andThen] at hm; cases hm; exact ⟨fun _ h => (by cases h), fun _ _ => rfl⟩
  | panic p => rw [hc] at hm; simp only [andThen] at hm; cases hm; exact ⟨fun _ h => (by cases h), fun _ h => (by cases h)⟩
  | diverge => rw [hc] at hm; simp only [andThen] at hm; cases hm; exact ⟨fun _ h => (by cases h), fun _ h => (by cases h)⟩

/-- `Marshal` succeeds exactly on the values of types it can prepare that have a text. -/
theorem marshalGives_ok_iff {W : World} {h : Heap} {t : Ty} {v : GV} {tx : Bytes} :
    MarshalGives W h (some (t, v)) (.ok tx) ↔ Supported W t ∧ EncC W h .typed [] [] t v tx := by
  constructor
  · rintro ⟨-, n, hn⟩
    have h1 := hn n n (Nat.le_refl _) (Nat.le_refl _)
    obtain ⟨c, r, hm⟩ : ∃ c r, marshal W h n n Ctx.clean (some (t, v)) = (c, r) := ⟨_, _, rfl⟩
    rw [hm] at h1
    cases h1
    obtain ⟨-, h2, h3⟩ := (marshal_sound hm).1 _ rfl
    exact ⟨⟨n, h2⟩, encG_mono (fun _ h => ⟨n, h⟩) (fun _ _ _ h => h) h3⟩
  · rintro ⟨⟨cf, ha⟩, he⟩
    obtain ⟨cg, hg⟩ := encG_uniform he
    obtain ⟨F, hF⟩ := encG_run (R := False) (fun _ h => h) (fun _ _ _ h => .inl h) (hg (max cf cg) (by omega))
    refine marshalGives_of (cf := max cf cg) (f := F) (by simp) ?_
    obtain ⟨seen, hc⟩ := ha.mono (show cf ≤ max cf cg by omega)
    have := hF F (Nat.le_refl _) []
    rw [ctxOf_nil] at this
    simp only [marshal, hc, andThen]
    rcases this with h1 | ⟨h1, -⟩
    · rw [h1]; rfl
    · exact h1.elim

/-- A value that has a text disregarding recursion checks is written, or rejected as recursive. -/
theorem marshalGives_of_encT {W : World} {h : Heap} {t : Ty} {v : GV} {tx : Bytes} (hs : Supported W t)
    (he : EncT W h .typed [] [] t v tx) : MarshalGives W h (some (t, v)) (.ok tx) ∨ MarshalGives W h (some (t, v)) (.err .recursive) := by
  obtain ⟨cf, ha⟩ := hs
  obtain ⟨cg, hg⟩ := encG_uniform he
  obtain ⟨F, hF⟩ := encG_run (R := True) (fun _ h => h) (fun _ _ _ _ => .inr trivial) (hg (max cf cg) (by omega))
  obtain ⟨seen, hc⟩ := ha.mono (show cf ≤ max cf cg by omega)
  have := hF F (Nat.le_refl _) []
  rw [ctxOf_nil] at this
  rcases this with h1 | ⟨-, h1⟩
  · left
    refine marshalGives_of (cf := max cf cg) (f := F) (by simp) ?_
    simp only [marshal, hc, andThen]
    rw [h1]; rfl
  · right
    refine marshalGives_of (cf := max cf cg) (f := F) (by simp) ?_
    simp only [marshal, hc, andThen]
    rw [h1]

end Verif

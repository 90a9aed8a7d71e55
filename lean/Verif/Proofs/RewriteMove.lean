import Verif.Proofs.Rewrite
/-
If a value has a text, then the same value in another memory has one.
-/
namespace Verif
open Spec

variable {W : World} {h h' : Heap}

theorem fmtText64_ex (x : UInt64) : ∃ a, FmtText64 W x a := by
  by_cases hx : Sci64 x
  · exact ⟨_, .inl ⟨hx, rfl⟩⟩
  · exact ⟨_, .inr ⟨hx, rfl⟩⟩

theorem fmtText32_ex (x : UInt32) : ∃ a, FmtText32 W x a := by
  by_cases hx : Sci32 x
  · exact ⟨_, .inl ⟨hx, rfl⟩⟩
  · exact ⟨_, .inr ⟨hx, rfl⟩⟩

theorem scalarDoc_move {t : Ty} {v v' : GV} {d : Doc} (hs : SameIn W h h' t v v') (h1 : ScalarDoc W t v d) : ∃ d', ScalarDoc W t v' d' := by
  cases h1 with
  | f64 r a => cases hs with
    | f64 hf => rcases hf with rfl | ⟨-, n⟩
                · exact ⟨_, .f64 r a⟩
                · exact ⟨_, .f64 r (.nan n)⟩
  | f32 r a => cases hs with
    | f32 hf => rcases hf with rfl | ⟨-, n⟩
                · exact ⟨_, .f32 r a⟩
                · exact ⟨_, .f32 r (.nan n)⟩
  | bool r => cases hs; exact ⟨_, .bool r⟩
  | int r => cases hs; exact ⟨_, .int r⟩
  | uint r n => cases hs; exact ⟨_, .uint r n⟩
  | str r => cases hs; exact ⟨_, .str r⟩

theorem basicText_move {t t' : Ty} {v v' : GV} {a : Bytes} (hs : SameIn W h h' t' v v') (h1 : BasicText W t v a) : ∃ b, BasicText W t v' b := by
  cases h1 with
  | true => cases hs; exact ⟨_, .true⟩
  | false => cases hs; exact ⟨_, .false⟩
  | int => cases hs; exact ⟨_, .int⟩
  | uint n => cases hs; exact ⟨_, .uint n⟩
  | f32 => cases hs; exact (fmtText32_ex _).imp fun _ h => .f32 h
  | f64 => cases hs; exact (fmtText64_ex _).imp fun _ h => .f64 h

theorem deref_move {t : Ty} {v v' : GV} {o : Option (Ty × GV)} (hs : SameIn W h h' t v v') (h1 : Deref W h t v o) :
    ∃ o', Deref W h' t v' o' ∧ OSame W h h' o o' := by
  induction h1 generalizing v' with
  | ptrNil a => cases hs with | ptrNil => exact ⟨_, .ptrNil a, .none⟩
  | ptr a _ ih =>
    cases hs with
    | ptr a' hs =>
      cases a.symm.trans a'
      obtain ⟨o', h1, h2⟩ := ih hs
      exact ⟨o', .ptr a h1, h2⟩
  | ifaceNil a => cases hs with | ifaceNil => exact ⟨_, .ifaceNil a, .none⟩
  | iface a _ ih =>
    cases hs with
    | iface hs =>
      obtain ⟨o', h1, h2⟩ := ih hs
      exact ⟨o', .iface a h1, h2⟩
  | done a b => exact ⟨_, .done a b, .some hs⟩

theorem strField_move {t : Ty} {v v' : GV} {d : Doc} (hs : SameIn W h h' t v v') (h1 : StrFieldDoc W h t v d) : ∃ d', StrFieldDoc W h' t v' d' := by
  cases h1 with
  | str a => cases hs; exact ⟨_, .str a⟩
  | basic a => exact (basicText_move hs a).elim fun _ h => ⟨_, .basic h⟩
  | ifaceNil a x =>
    obtain ⟨o, h1, h2⟩ := deref_move hs x
    cases h2
    exact ⟨_, .ifaceNil a h1⟩
  | iface a x k =>
    obtain ⟨o, h1, h2⟩ := deref_move hs x
    cases h2 with
    | some hs => exact (basicText_move hs k).elim fun _ h => ⟨_, .iface a h1 h⟩

theorem bytesOf_move {xs ys : List GV} (hl : xs.length = ys.length)
    (hs : ∀ (i : Nat) (x y : GV), xs[i]? = some x → ys[i]? = some y → SameIn W h h' (.uint .u8) x y) {a : Bytes} (ha : bytesOf xs = some a) :
    bytesOf ys = some a := by
  induction xs generalizing ys a with
  | nil => cases ys with
    | nil => exact ha
    | cons => simp at hl
  | cons x xs ih => cases ys with
    | nil => simp at hl
    | cons y ys =>
      have h0 := hs 0 x y rfl rfl
      have ht := fun a => ih (ys := ys) (a := a) (by simpa using hl) fun i x y hx hy => hs (i + 1) x y (by simpa using hx) (by simpa using hy)
      cases h0 with
      | @uint _ n =>
        simp only [bytesOf] at ha ⊢
        split at ha
        · rename_i hlt
          simp only [Option.map_eq_some_iff] at ha
          obtain ⟨a', ha', rfl⟩ := ha
          rw [if_pos hlt, ht a' ha']; rfl
        · cases ha
      | _ => simp [bytesOf] at ha

theorem written_ex (i : Nat) (fs : List Field) (vs : List GV) (hl : vs.length = fs.length) : ∃ ws, Written W i fs vs ws := by
  induction fs generalizing i vs with
  | nil => cases vs with
    | nil => exact ⟨_, .nil⟩
    | cons => simp at hl
  | cons f fs ih => cases vs with
    | nil => simp at hl
    | cons v vs =>
      obtain ⟨ws, hw⟩ := ih (i + 1) vs (by simpa using hl)
      have ht : TagMeaning W f (structTag W f).key ((structTag W f).omitEmpty = true) ((structTag W f).isString = true) := tagMeaning_iff.2 ⟨rfl, .rfl, .rfl⟩
      cases he : f.exported with
      | false => exact ⟨_, .hidden (.inl he) hw⟩
      | true =>
        by_cases hk : (structTag W f).key = [45]
        · exact ⟨_, .hidden (.inr ⟨_, _, hk ▸ ht⟩) hw⟩
        · by_cases hz : (structTag W f).omitEmpty = true ∧ ZeroGV v
          · exact ⟨_, .omitted (by rw [eq_true hz.1] at ht; exact ht) hz.2 hw⟩
          · exact ⟨_, .keep he ht hk hz hw⟩

theorem choose_nth {α β : Type} {l : List α} {R : Nat → α → β → Prop} [Nonempty β] (hx : ∀ (i : Nat) (x : α), l[i]? = some x → ∃ y, R i x y) :
    ∃ f : Nat → β, ∀ (i : Nat) (x : α), l[i]? = some x → R i x (f i) := by
  have : ∀ i, ∃ y, ∀ x, l[i]? = some x → R i x y := fun i => by
    cases hi : l[i]? with
    | none => exact ⟨Classical.choice inferInstance, fun x h => by cases h⟩
    | some x => exact (hx i x hi).imp fun y hy x' h => by cases h; exact hy
  exact ⟨fun i => Classical.choose (this i), fun i => Classical.choose_spec (this i)⟩

theorem choose_pairs {β : Type} {l : List (GV × GV)} {R : Nat → GV → GV → β → Prop} [Nonempty β]
    (hx : ∀ (i : Nat) (x y : GV), l[i]? = some (x, y) → ∃ z, R i x y z) :
    ∃ f : Nat → β, ∀ (i : Nat) (x y : GV), l[i]? = some (x, y) → R i x y (f i) := by
  obtain ⟨f, hf⟩ := choose_nth (l := l) (R := fun i x z => R i x.1 x.2 z) fun i x h => hx i x.1 x.2 h
  exact ⟨f, fun i x y h => hf i (x, y) h⟩

/-- The keys of the same map can be written, and every value is the same as one of the other map. -/
theorem entries_move {k e : Ty} {es ord es' : List (GV × GV)} {kd : Nat → Doc} (hp : es.Perm ord) (hl : ord.length = es'.length)
    (hk : ∀ (i : Nat) (x y : GV × GV), ord[i]? = some x → es'[i]? = some y → KeyKind W k → x.1 = y.1)
    (hv : ∀ (i : Nat) (x y : GV × GV), ord[i]? = some x → es'[i]? = some y → SameIn W h h' e x.2 y.2)
    (hkd : ∀ (i : Nat) (x y : GV), es[i]? = some (x, y) → KeyDoc W k x (kd i)) {R : Nat → GV → Bytes → Prop}
    (ht : ∀ (i j : Nat) (x y y' : GV), es[i]? = some (x, y) → SameIn W h h' e y y' → ∃ tx, R j y' tx) :
    ∃ (kd' : Nat → Doc) (tx' : Nat → Bytes), (∀ (i : Nat) (x y : GV), es'[i]? = some (x, y) → KeyDoc W k x (kd' i)) ∧
      ∀ (i : Nat) (x y : GV), es'[i]? = some (x, y) → R i y (tx' i) := by
  haveI : Nonempty Doc := ⟨.null⟩
  have find : ∀ (j : Nat) (x y : GV), es'[j]? = some (x, y) → ∃ (i : Nat) (a : GV × GV), es[i]? = some a ∧ ord[j]? = some a := by
    intro j x y hj
    obtain ⟨a, ha⟩ := get_of_lt (l := ord) (i := j) (by have := (List.getElem?_eq_some_iff.1 hj).1; omega)
    obtain ⟨i, hi⟩ := List.getElem?_of_mem (hp.mem_iff.2 (List.mem_of_getElem? ha))
    exact ⟨i, a, hi, ha⟩
  obtain ⟨kd', hkd'⟩ := choose_pairs (β := Doc) (l := es') (R := fun _ x _ d => KeyDoc W k x d) fun j x y hj => by
    obtain ⟨i, a, ha, ho⟩ := find j x y hj
    have := hkd i a.1 a.2 ha
    rw [hk j a (x, y) ho hj (keyDoc_kind this)] at this
    exact ⟨_, this⟩
  obtain ⟨tx', htx'⟩ := choose_pairs (β := Bytes) (l := es') (R := fun i _ y tx => R i y tx) fun j x y hj => by
    obtain ⟨i, a, ha, ho⟩ := find j x y hj
    exact ht i j a.1 a.2 y ha (hv j a (x, y) ho hj)
  exact ⟨kd', tx', hkd', htx'⟩

/-- If a value has a text, then the same value in another memory has one. -/
theorem encG_move {P : Ty → GV → Prop}
    (hM : ∀ t w w' raw, P t w → W.marOf t = true → SameIn W h h' t w w' → Marshaled W h t w raw → Marshaled W h' t w' raw)
    {ok : Ty → Prop} {G : Stack → Nat → Bool → Prop} {m : Mode} {st st' : Stack}
    {p p' : Path} {t : Ty} {v v' : GV} {tx : Bytes} (he : EncG W h ok G m st p t v tx)
    (hs : SameIn W h h' t v v') (hb : m = .kind → t ≠ .slice (.uint .u8)) (hq : ∀ t' u, Within W h t v t' u → P t' u) :
    ∃ tx', EncG W h' ok (fun _ _ _ => True) m st' p' t v' tx' := by
  induction he generalizing st' p' v' with
  | marshaler a b => exact ⟨_, .marshaler a (hM _ _ _ _ (hq _ _ .refl) a hs b)⟩
  | bytesNil =>
    cases hs with
    | sliceNil => exact ⟨_, .bytesNil⟩
    | bytesNil c => exact ⟨_, .bytes (by rw [c]; rfl)⟩
  | bytes a =>
    cases hs with
    | bytesEmpty => exact ⟨_, .bytesNil⟩
    | slice c d e =>
      simp only [World.resolve, Ty.slice.injEq] at c
      subst c
      exact ⟨_, .bytes (bytesOf_move d e a)⟩
  | plain a b c _ ih => exact (ih hs (fun _ => b) hq).imp fun _ x => .plain a b c x
  | ptrNil a b c d => cases hs with | ptrNil => exact ⟨_, .ptrNil a b c d⟩
  | ptrStruct a b c _ _ ih =>
    cases hs with
    | ptr b1 hs =>
      cases b.symm.trans b1
      exact (ih hs (fun _ => by rintro rfl; simp [World.isStruct, World.resolve] at c) fun t' a' w => hq t' a' (.step (.ptr b) w)).imp
        fun _ x => .ptrStruct a b c trivial x
  | ptrKind a b c _ ih =>
    cases hs with
    | ptr b1 hs =>
      cases b.symm.trans b1
      exact (ih hs (fun _ => by rintro rfl; simp [directKind, World.resolve] at c) fun t' a' w => hq t' a' (.step (.ptr b) w)).imp
        fun _ x => .ptrKind a b c x
  | ptrTyped a b c d e f _ ih =>
    cases hs with
    | ptr b1 hs =>
      cases b.symm.trans b1
      exact (ih hs (fun hh => by cases hh) fun t' a' w => hq t' a' (.step (.ptr b) w)).imp fun _ x => .ptrTyped a b c d e f x
  | ptrIface a b c _ ih => exact (ih hs (fun hh => by cases hh) hq).imp fun _ x => .ptrIface a b c x
  | scalar a => exact (scalarDoc_move hs a).elim fun _ x => ⟨_, .scalar x⟩
  | struct a b _ ih =>
    cases hs with
    | struct a1 hl hsh hv =>
      cases a.symm.trans a1
      obtain ⟨ws', b'⟩ := written_ex (W := W) 0 _ _ (hl.symm.trans (written_length b))
      obtain ⟨g1, g2⟩ := written_same b b' hsh
      obtain ⟨tx', h1⟩ := choose_nth (l := ws') (R := fun j (w : WField) tx => EncG W h' _ (fun _ _ _ => True) (.field w.str) st' (w.idx :: p') w.ty w.val tx)
        fun i w' hw' => by
          obtain ⟨w, hw⟩ := get_of_lt (g1.symm ▸ (List.getElem?_eq_some_iff.1 hw').1)
          obtain ⟨e1, -, e3, e4, n, f, f1, f2, f3, f4, f5⟩ := g2 i w w' hw hw'
          rw [← e3, ← e4]
          exact ih i w hw (f4 ▸ hv n f _ _ f1 f2 f3 f5) (fun hh => by cases hh) fun t' a' ww => hq t' a' (.step (written_part a b hw) ww)
      exact ⟨_, .struct a b' h1⟩
  | array a b _ ih =>
    cases hs with
    | arr a1 hl hv =>
      cases a.symm.trans a1
      obtain ⟨tx', h1⟩ := choose_nth (R := fun j w tx => EncG W h' _ (fun _ _ _ => True) .typed st' (j :: p') _ w tx) fun i w' hw' => by
        obtain ⟨w, hw⟩ := get_of_lt (hl.symm ▸ (List.getElem?_eq_some_iff.1 hw').1)
        exact ih i w hw (hv i w w' hw hw') (fun hh => by cases hh) fun t' a' ww => hq t' a' (.step (.array a (List.mem_of_getElem? hw)) ww)
      exact ⟨_, .array a (hl.symm.trans b) h1⟩
  | sliceNil a =>
    cases hs with
    | bytesNil => exact absurd rfl (hb rfl)
    | sliceNil => exact ⟨_, .sliceNil a⟩
  | slice a _ b _ ih =>
    subst b
    cases hs with
    | bytesEmpty => exact absurd rfl (hb rfl)
    | slice a1 hl hv =>
      rename_i a' n'
      cases a.symm.trans a1
      obtain ⟨tx', h1⟩ := choose_nth (R := fun j w tx => EncG W h' _ (fun _ _ _ => True) .typed ((a', true) :: st') (j :: p') _ w tx) fun i w' hw' => by
        obtain ⟨w, hw⟩ := get_of_lt (hl.symm ▸ (List.getElem?_eq_some_iff.1 hw').1)
        exact ih i w hw (hv i w w' hw hw') (fun hh => by cases hh) fun t' a' ww => hq t' a' (.step (.slice a (List.mem_of_getElem? hw)) ww)
      exact ⟨_, .slice a trivial rfl h1⟩
  | mapNil a => cases hs with | mapNil => exact ⟨_, .mapNil a⟩
  | map a _ b c _ ih =>
    subst b
    cases hs with
    | map ord a1 hp hl hk hv =>
      rename_i a'
      cases a.symm.trans a1
      obtain ⟨kd', tx', h1, h2⟩ := entries_move (R := fun j w tx => EncG W h' _ (fun _ _ _ => True) .typed ((a', true) :: st') (j :: p') _ w tx)
        (hp _ p') (hl _ _) (hk _ _) (hv _ _) c fun i j u v v' hu hs =>
          ih i u v hu hs (fun hh => by cases hh) fun t' a' ww => hq t' a' (.step (.map a (List.mem_of_getElem? hu)) ww)
      exact ⟨_, .map a trivial rfl h1 h2⟩
  | iface a _ ih => exact (ih hs (fun hh => by cases hh) hq).imp fun _ x => .iface a x
  | heldNil a =>
    obtain ⟨o, h1, h2⟩ := deref_move hs a
    cases h2
    exact ⟨_, .heldNil h1⟩
  | heldScalar a s =>
    obtain ⟨o, h1, h2⟩ := deref_move hs a
    cases h2 with
    | some hs => exact (scalarDoc_move hs s).elim fun _ x => ⟨_, .heldScalar h1 x⟩
  | heldConcreteSlice a r i _ o _ ih =>
    obtain ⟨o, h1, h2⟩ := deref_move hs a
    cases h2 with
    | some hs =>
      exact (ih hs (fun hh => by cases hh) fun t' a' w => hq t' a' (within_trans (deref_within a rfl) w)).imp
        fun _ x => .heldConcreteSlice h1 r i trivial (by assumption) x
  | heldSliceNil a r i =>
    obtain ⟨o, h1, h2⟩ := deref_move hs a
    cases h2 with
    | some hs =>
      cases hs with
      | sliceNil => exact ⟨_, .heldSliceNil h1 r i trivial⟩
      | bytesNil => exact absurd rfl (not_bytes r i)
  | heldSlice a r i _ c _ ih =>
    subst c
    obtain ⟨o, h1, h2⟩ := deref_move hs a
    cases h2 with
    | some hs =>
      cases hs with
      | bytesEmpty => exact absurd rfl (not_bytes r i)
      | slice a1 hl hv =>
        rename_i a' n'
        cases r.symm.trans a1
        obtain ⟨tx', h3⟩ := choose_nth (R := fun j w tx => EncG W h' _ (fun _ _ _ => True) .held ((a', false) :: st') (j :: p') _ w tx) fun i w' hw' => by
          obtain ⟨w, hw⟩ := get_of_lt (hl.symm ▸ (List.getElem?_eq_some_iff.1 hw').1)
          exact ih i w hw (hv i w w' hw hw') (fun hh => by cases hh) fun t' a' ww =>
            hq t' a' (within_trans (deref_within a rfl) (.step (.slice r (List.mem_of_getElem? hw)) ww))
        exact ⟨_, .heldSlice h1 r i trivial rfl h3⟩
  | heldMapNil a r i =>
    obtain ⟨o, h1, h2⟩ := deref_move hs a
    cases h2 with
    | some hs => cases hs with | mapNil => exact ⟨_, .heldMapNil h1 r i trivial⟩
  | heldMap a r k i _ b c _ ih =>
    subst b
    obtain ⟨o, h1, h2⟩ := deref_move hs a
    cases h2 with
    | some hs =>
      cases hs with
      | map ord a1 hp hl hk hv =>
        rename_i a'
        cases r.symm.trans a1
        obtain ⟨kd', tx', h3, h4⟩ := entries_move (R := fun j w tx => EncG W h' _ (fun _ _ _ => True) .held ((a', false) :: st') (j :: p') _ w tx)
          (hp _ p') (hl _ _) (hk _ _) (hv _ _) c fun i j u v v' hu hs =>
            ih i u v hu hs (fun hh => by cases hh) fun t' a' ww =>
              hq t' a' (within_trans (deref_within a rfl) (.step (.map r (List.mem_of_getElem? hu)) ww))
        exact ⟨_, .heldMap h1 r k i trivial rfl h3 h4⟩
  | heldConcreteMap a r k i _ b o c _ ih =>
    subst b
    obtain ⟨_, h1, h2⟩ := deref_move hs a
    cases h2 with
    | some hs =>
      cases hs with
      | map ord a1 hp hl hk hv =>
        rename_i a'
        cases r.symm.trans a1
        obtain ⟨kd', tx', h3, h4⟩ := entries_move (R := fun j w tx => EncG W h' _ (fun _ _ _ => True) .typed ((a', false) :: st') (j :: p') _ w tx)
          (hp _ p') (hl _ _) (hk _ _) (hv _ _) c fun i j u v v' hu hs =>
            ih i u v hu hs (fun hh => by cases hh) fun t' a' ww =>
              hq t' a' (within_trans (deref_within a rfl) (.step (.map r (List.mem_of_getElem? hu)) ww))
        refine ⟨_, .heldConcreteMap h1 r k i trivial rfl (fun hne => o fun he => hne ?_) h3 h4⟩
        exact List.length_eq_zero_iff.1 (((hl _ _).symm.trans (hp _ p').length_eq.symm).trans (congrArg List.length he))
  | heldStruct a s o _ ih =>
    obtain ⟨_, h1, h2⟩ := deref_move hs a
    cases h2 with
    | some hs =>
      exact (ih hs (fun hh => by cases hh) fun t' a' w => hq t' a' (within_trans (deref_within a rfl) w)).imp fun _ x => .heldStruct h1 s o x
  | fieldPlain a _ ih => exact (ih hs (fun hh => by cases hh) hq).imp fun _ x => .fieldPlain a x
  | fieldPtrNil a => cases hs with | ptrNil => exact ⟨_, .fieldPtrNil a⟩
  | fieldPtrStruct a b _ _ ih =>
    cases hs with
    | ptr b1 hs =>
      cases a.symm.trans b1
      exact (ih hs (fun hh => by cases hh) fun t' a' w => hq t' a' (.step (.ptr a) w)).imp fun _ x => .fieldPtrStruct a b trivial x
  | fieldPtr a b _ ih =>
    cases hs with
    | ptr b1 hs =>
      cases a.symm.trans b1
      exact (ih hs (fun hh => by cases hh) fun t' a' w => hq t' a' (.step (.ptr a) w)).imp fun _ x => .fieldPtr a b x
  | fieldStr a b => exact (strField_move hs b).elim fun _ x => ⟨_, .fieldStr a x⟩
  | fieldStrPtr a b =>
    cases hs with
    | ptr b1 hs =>
      cases a.symm.trans b1
      exact (strField_move hs b).elim fun _ x => ⟨_, .fieldStrPtr a x⟩

end Verif

import Verif.Proofs.EncRecursive
/-
Values that the recursion checks let through.
-/
namespace Verif
open Spec

variable {W : World} {h : Heap} {T : Ty} {V : GV}

theorem inside_part {t t' t'' : Ty} {v v' v'' : GV} (h1 : Inside W h t v t' v') (h2 : Part W h t' v' t'' v'') : Inside W h t v t'' v'' := by
  obtain ⟨t1, v1, a, b⟩ := h1
  exact ⟨t1, v1, a, within_part b h2⟩

theorem part_inside {t t' : Ty} {v v' : GV} (hp : Part W h t v t' v') : Inside W h t v t' v' := ⟨_, _, hp, .refl⟩

theorem below_within {n : Nat} {t t' : Ty} {v v' : GV} (hb : Below W h n t v t' v') : Within W h t v t' v' := by
  induction hb with
  | refl => exact .refl
  | inner _ a _ ih => exact .step a ih
  | same _ a _ ih => exact .step a ih

theorem below_part {n : Nat} {t t' t'' : Ty} {v v' v'' : GV} (hb : Below W h n t v t' v') (hp : Part W h t' v' t'' v'') :
    Below W h (if Counted W t' then n + 1 else n) t v t'' v'' := by
  induction hb with
  | @refl t v =>
    by_cases hl : Counted W t = true
    · rw [if_pos hl]; exact .inner hl hp .refl
    · rw [if_neg hl]; exact .same (by simpa using hl) hp .refl
  | @inner n t v t1 v1 t2 v2 hl a _ ih =>
    have ih := ih hp
    by_cases hl2 : Counted W t2 = true
    · rw [if_pos hl2] at ih ⊢; exact .inner hl a ih
    · rw [if_neg hl2] at ih ⊢; exact .inner hl a ih
  | same hl a _ ih => exact .same hl a (ih hp)

theorem seenOf_sub {st : Stack} {a : Nat} (h : a ∈ seenOf st) : a ∈ st.map (·.1) := by
  induction st with
  | nil => cases h
  | cons x st ih =>
    obtain ⟨b, c⟩ := x
    rw [seenOf] at h
    split at h
    · exact List.mem_cons_of_mem _ (ih h)
    · rcases List.mem_cons.1 h with rfl | h
      · exact List.mem_cons_self
      · exact List.mem_cons_of_mem _ (ih h)

/-- What is known of a place: how deep it is at least, and that the values whose addresses are on the stack are around it. -/
structure Around (W : World) (h : Heap) (T : Ty) (V : GV) (n : Nat) (st : Stack) (t : Ty) (v : GV) : Prop where
  depth : depthOf st ≤ n
  below : Below W h n T V t v
  addrs : ∀ a ∈ st.map (·.1), ∃ t0 v0, Located W t0 v0 a ∧ Within W h T V t0 v0 ∧ Inside W h t0 v0 t v

theorem Around.part {n : Nat} {st : Stack} {t t' : Ty} {v v' : GV} (hi : Around W h T V n st t v) (hp : Part W h t v t' v') :
    Around W h T V (if Counted W t then n + 1 else n) st t' v' := by
  refine ⟨?_, below_part hi.below hp, fun a ha => ?_⟩
  · have := hi.depth
    split <;> omega
  · obtain ⟨t0, v0, h1, h2, h3⟩ := hi.addrs a ha
    exact ⟨t0, v0, h1, h2, inside_part h3 hp⟩

theorem Around.enter {n : Nat} {st : Stack} {t t' : Ty} {v v' : GV} {a : Nat} {c : Bool} (hi : Around W h T V n st t v) (hl : Counted W t = true)
    (ha : Located W t v a) (hp : Part W h t v t' v') : Around W h T V (n + 1) ((a, c) :: st) t' v' := by
  have := hi.part hp
  rw [if_pos hl] at this
  refine ⟨?_, this.below, fun b hb => ?_⟩
  · have := hi.depth
    cases c
    · rw [depthOf_false]; omega
    · rw [depthOf_true]; omega
  · rcases List.mem_cons.1 hb with rfl | hb
    · exact ⟨t, v, ha, below_within hi.below, part_inside hp⟩
    · exact this.addrs b hb

/-- Along the way addresses do not repeat. -/
def NoRepeat (W : World) (h : Heap) (T : Ty) (V : GV) : Prop :=
  ∀ t1 v1 t2 v2 a, Within W h T V t1 v1 → Inside W h t1 v1 t2 v2 → Located W t1 v1 a → Located W t2 v2 a → False

theorem Around.fresh {n : Nat} {st : Stack} {t : Ty} {v : GV} {a : Nat} {c : Bool} (hn : NoRepeat W h T V) (hi : Around W h T V n st t v)
    (ha : Located W t v a) : Fresh st a c := by
  refine .inr fun hs => ?_
  obtain ⟨t0, v0, h1, h2, h3⟩ := hi.addrs a (seenOf_sub hs)
  exact hn t0 v0 t v a h2 h3 h1 ha

/-- A slice entered twice in a row: from an interface and by its own type. -/
def Twice (W : World) (h : Heap) (T : Ty) (V : GV) (st : Stack) (t : Ty) (v : GV) : Prop :=
  ∃ n st0 e, st = (addrOf v, false) :: st0 ∧ Around W h T V n st0 t v ∧ depthOf st0 < 1000 ∧ W.resolve t = .slice e

/-- How a held value was reached. -/
def FromIface (W : World) (h : Heap) (T : Ty) (V : GV) (st : Stack) (t : Ty) (v : GV) : Prop :=
  W.isIface t = true ∨ (∃ e, W.resolve t = .ptr e ∧ W.isIface e = true) ∨
  ∃ n ti dt dv, W.isIface ti = true ∧ Below W h n T V ti (.iface dt dv) ∧ depthOf st ≤ n ∧ ∀ o, Deref W h t v o → Deref W h dt dv o

/-- What is known of all places visited. -/
def Known (W : World) (h : Heap) (T : Ty) (V : GV) (y : Place) : Prop :=
  match y.m with
  | .typed => (∃ n, Around W h T V n y.st y.t y.v) ∨ Twice W h T V y.st y.t y.v
  | .kind => (∃ n, Around W h T V n y.st y.t y.v) ∨ Twice W h T V y.st y.t y.v
  | .field _ => ∃ n, Around W h T V n y.st y.t y.v
  | .held => (∃ n, Around W h T V n y.st y.t y.v) ∧ FromIface W h T V y.st y.t y.v

theorem levels_slice {t e : Ty} (h : W.resolve t = .slice e) : Counted W t = true := by simp [Counted, h]
theorem levels_map {t k e : Ty} (h : W.resolve t = .map k e) : Counted W t = true := by simp [Counted, h]
theorem levels_ptr {t e : Ty} (h : W.resolve t = .ptr e) (he : W.isStruct e = true) : Counted W t = true := by simp [Counted, h, he]

/-- The moves keep what is known. -/
theorem known_visit (hs : ShallowHeld W h T V) {x y : Place} (hv : Visit W h x y) (hk : Known W h T V x) : Known W h T V y := by
  have noTwice : ∀ {st t v} {e : Ty}, W.resolve t = .ptr e → Twice W h T V st t v → False := by
    rintro st t v e hr ⟨_, _, _, _, _, _, hr'⟩
    rw [hr] at hr'; cases hr'
  cases hv with
  | plain => exact hk
  | ptrStruct _ hr hst _ =>
    rcases hk with ⟨n, hi⟩ | ht
    · exact .inl ⟨_, hi.enter (levels_ptr hr hst) (.ptr hr hst) (.ptr hr)⟩
    · exact (noTwice hr ht).elim
  | ptrKind _ hr _ =>
    rcases hk with ⟨n, hi⟩ | ht
    · exact .inl ⟨_, hi.part (.ptr hr)⟩
    · exact (noTwice hr ht).elim
  | ptrTyped _ hr _ _ _ _ =>
    rcases hk with ⟨n, hi⟩ | ht
    · exact .inl ⟨_, hi.part (.ptr hr)⟩
    · exact (noTwice hr ht).elim
  | ptrIface _ hr hie =>
    rcases hk with ⟨n, hi⟩ | ht
    · exact ⟨⟨n, hi⟩, .inr (.inl ⟨_, hr, hie⟩)⟩
    · exact (noTwice hr ht).elim
  | field h1 h2 h3 h4 _ =>
    rcases hk with ⟨n, hi⟩ | ⟨_, _, _, _, _, _, hr'⟩
    · exact ⟨_, hi.part (shown_part h1 h2 h3 h4)⟩
    · simp only [] at hr'; rw [h1] at hr'; cases hr'
  | array h1 h2 =>
    rcases hk with ⟨n, hi⟩ | ⟨_, _, _, _, _, _, hr'⟩
    · exact .inl ⟨_, hi.part (.array h1 (List.mem_of_getElem? h2))⟩
    · simp only [] at hr'; rw [h1] at hr'; cases hr'
  | @slice st p t e a n v i h1 _ h2 =>
    have hp : Part W h t (.slice a n) e v := .slice h1 (List.mem_of_getElem? h2)
    rcases hk with ⟨n, hi⟩ | ⟨m, st0, e', hst, hi, _, _⟩
    · exact .inl ⟨_, hi.enter (levels_slice h1) (.slice h1) hp⟩
    · simp only [addrOf] at hst
      subst hst
      have h3 : Around W h T V (m + 1) ((a, true) :: st0) e v := hi.enter (levels_slice h1) (.slice h1) hp
      refine .inl ⟨m + 1, ⟨?_, h3.below, fun b hb => ?_⟩⟩
      · have := h3.depth
        rw [depthOf_true] at this ⊢
        rw [depthOf_false]
        exact this
      · simp only [List.map_cons, List.mem_cons] at hb
        rcases hb with rfl | rfl | hb
        · exact h3.addrs _ (by simp)
        · exact h3.addrs _ (by simp)
        · exact h3.addrs _ (List.mem_cons_of_mem _ hb)
  | map h1 _ h2 =>
    rcases hk with ⟨n, hi⟩ | ⟨_, _, _, _, _, _, hr'⟩
    · exact .inl ⟨_, hi.enter (levels_map h1) (.map h1) (.map h1 (List.mem_of_getElem? h2))⟩
    · simp only [] at hr'; rw [h1] at hr'; cases hr'
  | iface h1 =>
    rcases hk with ⟨n, hi⟩ | ⟨_, _, _, _, _, _, hr'⟩
    · exact ⟨⟨n, hi⟩, .inl h1⟩
    · simp only [] at hr'; simp [World.isIface, hr'] at h1
  | @heldPtr st p t e a hr =>
    obtain ⟨⟨n, hi⟩, hf⟩ := hk
    refine ⟨⟨_, hi.part (.ptr hr)⟩, ?_⟩
    rcases hf with hf | ⟨e', hr', hie⟩ | ⟨n, ti, dt, dv, g1, g2, g3, g4⟩
    · simp only [] at hf; simp [World.isIface, hr] at hf
    · simp only [] at hr'; rw [hr] at hr'; cases hr'; exact .inl hie
    · exact .inr (.inr ⟨n, ti, dt, dv, g1, g2, g3, fun o ho => g4 o (.ptr hr ho)⟩)
  | @heldIface st p t dt v hit =>
    obtain ⟨⟨n, hi⟩, hf⟩ := hk
    refine ⟨⟨_, hi.part (.iface hit)⟩, ?_⟩
    exact .inr (.inr ⟨n, t, dt, v, hit, hi.below, hi.depth, fun o ho => ho⟩)
  | @heldConcreteSlice st p t e v hr hie _ =>
    obtain ⟨⟨n, hi⟩, hf⟩ := hk
    refine .inr ⟨n, st, e, rfl, hi, ?_, hr⟩
    rcases hf with hf | ⟨e', hr', _⟩ | ⟨n, ti, dt, dv, g1, g2, g3, g4⟩
    · simp only [] at hf; simp [World.isIface, hr] at hf
    · simp only [] at hr'; rw [hr] at hr'; cases hr'
    · have := hs n t v e ⟨ti, dt, dv, g1, g2, g4 _ (.done (by simp [World.isPtr, hr]) (by simp [World.isIface, hr]))⟩ hr hie
      simp only [] at g3
      omega
  | heldSlice hr hie _ h2 =>
    obtain ⟨⟨n, hi⟩, hf⟩ := hk
    exact ⟨⟨_, hi.enter (levels_slice hr) (.slice hr) (.slice hr (List.mem_of_getElem? h2))⟩, .inl hie⟩
  | heldMap hr hie _ h2 =>
    obtain ⟨⟨n, hi⟩, hf⟩ := hk
    exact ⟨⟨_, hi.enter (levels_map hr) (.map hr) (.map hr (List.mem_of_getElem? h2))⟩, .inl hie⟩
  | heldConcreteMap hr hie _ h2 =>
    obtain ⟨⟨n, hi⟩, hf⟩ := hk
    exact .inl ⟨_, hi.enter (levels_map hr) (.map hr) (.map hr (List.mem_of_getElem? h2))⟩
  | heldStruct => exact .inl hk.1
  | fieldPlain => exact .inl hk
  | fieldPtrStruct hr hst _ =>
    obtain ⟨n, hi⟩ := hk
    exact .inl ⟨_, hi.enter (levels_ptr hr hst) (.ptr hr hst) (.ptr hr)⟩
  | fieldPtr hr _ =>
    obtain ⟨n, hi⟩ := hk
    exact .inl ⟨_, hi.part (.ptr hr)⟩

theorem known_visits (hs : ShallowHeld W h T V) {x y : Place} (hv : Visits W h x y) (hk : Known W h T V x) : Known W h T V y := by
  induction hv with
  | refl => exact hk
  | step a _ ih => exact ih (known_visit hs a hk)

theorem known_not_blocked (hn : NoRepeat W h T V) {y : Place} (hk : Known W h T V y) : ¬ Blocked W y := by
  intro hb
  cases hb with
  | ptr hr hst hf =>
    rcases hk with ⟨n, hi⟩ | ⟨_, _, _, _, _, _, hr'⟩
    · exact hf (hi.fresh hn (.ptr hr hst))
    · simp only [] at hr'; rw [hr] at hr'; cases hr'
  | field hr hst hf =>
    obtain ⟨n, hi⟩ := hk
    exact hf (hi.fresh hn (.ptr hr hst))
  | slice hr hf =>
    rcases hk with ⟨n, hi⟩ | ⟨m, st0, e', hst, hi, hd, _⟩
    · exact hf (hi.fresh hn (.slice hr))
    · simp only [] at hst
      subst hst
      exact hf (.inl ⟨rfl, by rw [depthOf_false]; omega⟩)
  | map hr hf =>
    rcases hk with ⟨n, hi⟩ | ⟨_, _, _, _, _, _, hr'⟩
    · exact hf (hi.fresh hn (.map hr))
    · simp only [] at hr'; rw [hr] at hr'; cases hr'
  | heldSlice hr hf =>
    obtain ⟨⟨n, hi⟩, _⟩ := hk
    exact hf (hi.fresh hn (.slice hr))
  | heldMap hr hf =>
    obtain ⟨⟨n, hi⟩, _⟩ := hk
    exact hf (hi.fresh hn (.map hr))

/-- Values along which addresses do not repeat are not reported as recursive. -/
theorem noRepeat_not_recursive (hm : ∀ t v, h.marshal t v ≠ .err .recursive) (hn : NoRepeat W h T V) (hs : ShallowHeld W h T V) :
    ¬ MarshalGives W h (some (T, V)) (.err .recursive) := by
  intro hg
  obtain ⟨z, hv, hb⟩ := marshal_recursive_ahead hm hg
  exact known_not_blocked hn (known_visits hs hv (.inl ⟨0, by simp [depthOf], .refl, by simp⟩)) hb

/-! ### Shallow values -/

/-- What is known of places of shallow values. -/
def KnownS (W : World) (h : Heap) (T : Ty) (V : GV) (y : Place) : Prop :=
  (∃ n, depthOf y.st ≤ n ∧ Below W h n T V y.t y.v) ∧ (y.m = .held → FromIface W h T V y.st y.t y.v)

theorem fromIface_shallow (hs : Shallow W h T V) {st : Stack} {t : Ty} {v : GV} (hf : FromIface W h T V st t v) :
    (∀ e, W.resolve t ≠ .slice e) ∧ ∀ k e, W.resolve t ≠ .map k e := by
  rcases hf with hf | ⟨e', hr', hie⟩ | ⟨n, ti, dt, dv, g1, g2, g3, g4⟩
  · constructor
    · intro e hr; simp [World.isIface, hr] at hf
    · intro k e hr; simp [World.isIface, hr] at hf
  · constructor
    · intro e hr; rw [hr] at hr'; cases hr'
    · intro k e hr; rw [hr] at hr'; cases hr'
  · constructor
    · intro e hr
      exact (hs.held n t v ⟨ti, dt, dv, g1, g2, g4 _ (.done (by simp [World.isPtr, hr]) (by simp [World.isIface, hr]))⟩).1 e hr
    · intro k e hr
      exact (hs.held n t v ⟨ti, dt, dv, g1, g2, g4 _ (.done (by simp [World.isPtr, hr]) (by simp [World.isIface, hr]))⟩).2 k e hr

theorem knownS_part {n : Nat} {st : Stack} {t t' : Ty} {v v' : GV} (hd : depthOf st ≤ n) (hb : Below W h n T V t v) (hp : Part W h t v t' v') :
    ∃ n, depthOf st ≤ n ∧ Below W h n T V t' v' := by
  refine ⟨_, ?_, below_part hb hp⟩
  split <;> omega

theorem knownS_enter {n : Nat} {st : Stack} {t t' : Ty} {v v' : GV} {a : Nat} (hd : depthOf st ≤ n) (hb : Below W h n T V t v) (hp : Part W h t v t' v')
    (hl : Counted W t = true) : ∃ n, depthOf ((a, true) :: st) ≤ n ∧ Below W h n T V t' v' := by
  have := below_part hb hp
  rw [if_pos hl] at this
  exact ⟨n + 1, by rw [depthOf_true]; omega, this⟩

theorem knownS_visit (hs : Shallow W h T V) {x y : Place} (hv : Visit W h x y) (hk : KnownS W h T V x) : KnownS W h T V y := by
  obtain ⟨⟨n, hd, hb⟩, hf⟩ := hk
  have nm : ∀ {m : Mode} {P : Prop}, m ≠ .held → (m = .held → P) := fun h1 h2 => absurd h2 h1
  cases hv with
  | plain => exact ⟨⟨n, hd, hb⟩, nm (by simp)⟩
  | ptrStruct _ hr hst _ => exact ⟨knownS_enter hd hb (.ptr hr) (levels_ptr hr hst), nm (by simp)⟩
  | ptrKind _ hr _ => exact ⟨knownS_part hd hb (.ptr hr), nm (by simp)⟩
  | ptrTyped _ hr _ _ _ _ => exact ⟨knownS_part hd hb (.ptr hr), nm (by simp)⟩
  | ptrIface _ hr hie => exact ⟨⟨n, hd, hb⟩, fun _ => .inr (.inl ⟨_, hr, hie⟩)⟩
  | field h1 h2 h3 h4 _ => exact ⟨knownS_part hd hb (shown_part h1 h2 h3 h4), nm (by simp)⟩
  | array h1 h2 => exact ⟨knownS_part hd hb (.array h1 (List.mem_of_getElem? h2)), nm (by simp)⟩
  | slice h1 _ h2 => exact ⟨knownS_enter hd hb (.slice h1 (List.mem_of_getElem? h2)) (levels_slice h1), nm (by simp)⟩
  | map h1 _ h2 => exact ⟨knownS_enter hd hb (.map h1 (List.mem_of_getElem? h2)) (levels_map h1), nm (by simp)⟩
  | iface h1 => exact ⟨⟨n, hd, hb⟩, fun _ => .inl h1⟩
  | heldPtr hr =>
    refine ⟨knownS_part hd hb (.ptr hr), fun _ => ?_⟩
    rcases hf rfl with hf | ⟨e', hr', hie⟩ | ⟨n, ti, dt, dv, g1, g2, g3, g4⟩
    · simp only [] at hf; simp [World.isIface, hr] at hf
    · simp only [] at hr'; rw [hr] at hr'; cases hr'; exact .inl hie
    · exact .inr (.inr ⟨n, ti, dt, dv, g1, g2, g3, fun o ho => g4 o (.ptr hr ho)⟩)
  | heldIface hit => exact ⟨knownS_part hd hb (.iface hit), fun _ => .inr (.inr ⟨n, _, _, _, hit, hb, hd, fun o ho => ho⟩)⟩
  | heldConcreteSlice hr _ _ => exact absurd hr ((fromIface_shallow hs (hf rfl)).1 _)
  | heldSlice hr _ _ _ => exact absurd hr ((fromIface_shallow hs (hf rfl)).1 _)
  | heldMap hr _ _ _ => exact absurd hr ((fromIface_shallow hs (hf rfl)).2 _ _)
  | heldConcreteMap hr _ _ _ => exact absurd hr ((fromIface_shallow hs (hf rfl)).2 _ _)
  | heldStruct => exact ⟨⟨n, hd, hb⟩, nm (by simp)⟩
  | fieldPlain => exact ⟨⟨n, hd, hb⟩, nm (by simp)⟩
  | fieldPtrStruct hr hst _ => exact ⟨knownS_enter hd hb (.ptr hr) (levels_ptr hr hst), nm (by simp)⟩
  | fieldPtr hr _ => exact ⟨knownS_part hd hb (.ptr hr), nm (by simp)⟩

theorem knownS_visits (hs : Shallow W h T V) {x y : Place} (hv : Visits W h x y) (hk : KnownS W h T V x) : KnownS W h T V y := by
  induction hv with
  | refl => exact hk
  | step a _ ih => exact ih (knownS_visit hs a hk)

/-- Shallow values are not reported as recursive, whatever their addresses. -/
theorem shallow_not_recursive (hm : ∀ t v, h.marshal t v ≠ .err .recursive) (hs : Shallow W h T V) :
    ¬ MarshalGives W h (some (T, V)) (.err .recursive) := by
  intro hg
  obtain ⟨z, hv, hb⟩ := marshal_recursive_ahead hm hg
  obtain ⟨⟨n, hd, hbl⟩, hf⟩ := knownS_visits hs hv (⟨⟨0, by simp [depthOf], .refl⟩, by simp⟩ : KnownS W h T V _)
  have fresh : Counted W z.t = true → ∀ a, Fresh z.st a true := fun hl a => .inl ⟨rfl, by have := hs.levels _ _ _ hbl hl; omega⟩
  cases hb with
  | ptr hr hst h1 => exact h1 (fresh (levels_ptr hr hst) _)
  | field hr hst h1 => exact h1 (fresh (levels_ptr hr hst) _)
  | slice hr h1 => exact h1 (fresh (levels_slice hr) _)
  | map hr h1 => exact h1 (fresh (levels_map hr) _)
  | heldSlice hr _ => exact (fromIface_shallow hs (hf rfl)).1 _ hr
  | heldMap hr _ => exact (fromIface_shallow hs (hf rfl)).2 _ _ hr

/-! ### From the specification -/

theorem noRepeat_of (ha : Acyclic W h T V) (ht : AddressesTell W h T V) : NoRepeat W h T V := by
  intro t1 v1 t2 v2 a h1 h2 h3 h4
  obtain ⟨rfl, rfl⟩ := ht t1 v1 t2 v2 a h1 h2 h3 h4
  exact ha t1 v1 h1 h2

theorem closed_within {S : Ty → GV → Prop} (hc : ∀ t v t' v', S t v → Part W h t v t' v' → S t' v') {t t' : Ty} {v v' : GV} (hs : S t v)
    (hw : Within W h t v t' v') : S t' v' := by
  induction hw with
  | refl => exact hs
  | step a _ ih => exact ih (hc _ _ _ _ hs a)

/-- Values with a rank that becomes less from each value to its parts are acyclic. -/
theorem acyclic_of_rank {S : Ty → GV → Prop} (r : Ty → GV → Nat) (hc : ∀ t v t' v', S t v → Part W h t v t' v' → S t' v' ∧ r t' v' < r t v)
    (hs : S T V) : Acyclic W h T V := by
  have le : ∀ {t v t' v'}, S t v → Within W h t v t' v' → r t' v' ≤ r t v := by
    intro t v t' v' hs hw
    induction hw with
    | refl => exact Nat.le_refl _
    | step a _ ih => have := hc _ _ _ _ hs a; have := ih this.1; omega
  intro t v hw ⟨t1, v1, h1, h2⟩
  have hs := closed_within (fun t v t' v' a b => (hc t v t' v' a b).1) hs hw
  have h3 := hc _ _ _ _ hs h1
  have := le h3.1 h2
  omega

end Verif

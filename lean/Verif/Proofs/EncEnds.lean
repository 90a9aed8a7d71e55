import Verif.Proofs.EncRecursive
import Verif.Proofs.Acyclic
import Verif.Proofs.EncDet
import Verif.Spec.Loops
/-
Calls of the encoder model end on values whose cycles are guarded.
-/
namespace Verif
open Spec

/-! ### Ranks on finite relations without loops -/

section Rank
variable {α : Type}

/-- One or more steps of a relation. -/
inductive Steps (R : α → α → Prop) : α → α → Prop
  | one {x y} : R x y → Steps R x y
  | step {x y z} : R x y → Steps R y z → Steps R x z

theorem steps_trans {R : α → α → Prop} {x y z : α} (h1 : Steps R x y) (h2 : Steps R y z) : Steps R x z := by
  induction h1 with
  | one a => exact .step a h2
  | step a _ ih => exact .step a (ih h2)

open Classical in
/-- How many members of a list have a property. -/
noncomputable def count (l : List α) (P : α → Prop) : Nat := (l.filter (fun x => decide (P x))).length

theorem count_le {l : List α} {P Q : α → Prop} (h : ∀ x, P x → Q x) : count l P ≤ count l Q := by
  classical
  induction l with
  | nil => exact Nat.le_refl _
  | cons a l ih =>
    unfold count at ih ⊢
    by_cases hp : P a
    · simp only [List.filter_cons, hp, h a hp, decide_true, if_true, List.length_cons]; omega
    · by_cases hq : Q a
      · simp only [List.filter_cons, hp, hq, decide_false, decide_true, if_true, List.length_cons, Bool.false_eq_true, if_false]; omega
      · simp only [List.filter_cons, hp, hq, decide_false, Bool.false_eq_true, if_false]; exact ih

theorem count_lt {l : List α} {P Q : α → Prop} (h : ∀ x, P x → Q x) {a : α} (ha : a ∈ l) (hp : ¬ P a) (hq : Q a) : count l P < count l Q := by
  classical
  induction l with
  | nil => cases ha
  | cons b l ih =>
    by_cases hab : a = b
    · subst hab
      have := count_le (l := l) h
      unfold count at this ⊢
      simp only [List.filter_cons, hp, hq, decide_false, decide_true, if_true, List.length_cons, Bool.false_eq_true, if_false]
      omega
    · have := ih ((List.mem_cons.1 ha).resolve_left hab)
      unfold count at this ⊢
      by_cases hpb : P b
      · simp only [List.filter_cons, hpb, h b hpb, decide_true, if_true, List.length_cons]; omega
      · by_cases hqb : Q b
        · simp only [List.filter_cons, hpb, hqb, decide_false, decide_true, if_true, List.length_cons, Bool.false_eq_true, if_false]; omega
        · simp only [List.filter_cons, hpb, hqb, decide_false, Bool.false_eq_true, if_false]; exact this

/-- How many members of the list can be reached. -/
noncomputable def rankIn (l : List α) (R : α → α → Prop) (x : α) : Nat := count l (Steps R x)

theorem rankIn_lt {l : List α} {R : α → α → Prop} {x y : α} (hy : y ∈ l) (hn : ¬ Steps R y y) (hr : R x y) : rankIn l R y < rankIn l R x :=
  count_lt (fun _ h => .step hr h) hy hn (.one hr)

/-- A bound for all members of a list. -/
theorem bound_all {l : List α} {Q : α → Nat → Prop} (hm : ∀ x n m, Q x n → n ≤ m → Q x m) (hq : ∀ x ∈ l, ∃ n, Q x n) : ∃ n, ∀ x ∈ l, Q x n := by
  induction l with
  | nil => exact ⟨0, by simp⟩
  | cons a l ih =>
    obtain ⟨n, hn⟩ := hq a List.mem_cons_self
    obtain ⟨m, hm'⟩ := ih fun x hx => hq x (List.mem_cons_of_mem _ hx)
    refine ⟨max n m, fun x hx => ?_⟩
    rcases List.mem_cons.1 hx with rfl | hx
    · exact hm _ _ _ hn (by omega)
    · exact hm _ _ _ (hm' x hx) (by omega)

end Rank

variable {W : World} {h : Heap}

/-! ### Ways through a value -/

theorem leads_within {t t' : Ty} {v v' : GV} (hl : Leads W h t v t' v') : Within W h t v t' v' := by
  induction hl with
  | refl => exact .refl
  | ptr hr _ ih => exact .step (.ptr hr) ih
  | iface hi _ ih => exact .step (.iface hi) ih

theorem deref_leads {t : Ty} {v : GV} {o : Option (Ty × GV)} (hd : Deref W h t v o) {t' : Ty} {v' : GV} (ho : o = some (t', v')) : Leads W h t v t' v' := by
  induction hd with
  | ptrNil => cases ho
  | ifaceNil => cases ho
  | ptr hr _ ih => exact .ptr hr (ih ho)
  | iface hi _ ih => exact .iface hi (ih ho)
  | done => cases ho; exact .refl

theorem unguarded_within {t t' : Ty} {v v' : GV} (hu : Unguarded W h t v t' v') : Within W h t v t' v' := by
  cases hu with
  | field h1 h2 h3 h4 h5 => exact .step (.field h1 h2 h3 h4 h5) .refl
  | array h1 h2 => exact .step (.array h1 h2) .refl
  | ptr h1 => exact .step (.ptr h1) .refl
  | iface h1 h2 => exact .step (.iface h1) (leads_within h2)

theorem leads_inside {t t' : Ty} {v v' : GV} (hl : Leads W h t v t' v') : (t = t' ∧ v = v') ∨ Inside W h t v t' v' := by
  cases hl with
  | refl => exact .inl ⟨rfl, rfl⟩
  | ptr hr h1 => exact .inr ⟨_, _, .ptr hr, leads_within h1⟩
  | iface hi h1 => exact .inr ⟨_, _, .iface hi, leads_within h1⟩

theorem unguarded_inside {t t' : Ty} {v v' : GV} (hu : Unguarded W h t v t' v') : Inside W h t v t' v' := by
  cases hu with
  | field h1 h2 h3 h4 h5 => exact ⟨_, _, .field h1 h2 h3 h4 h5, .refl⟩
  | array h1 h2 => exact ⟨_, _, .array h1 h2, .refl⟩
  | ptr h1 => exact ⟨_, _, .ptr h1, .refl⟩
  | iface h1 h2 => exact ⟨_, _, .iface h1, leads_within h2⟩

theorem unguardedPath_inside {t t' : Ty} {v v' : GV} (hu : UnguardedPath W h t v t' v') : Inside W h t v t' v' := by
  induction hu with
  | one a => exact unguarded_inside a
  | step a _ ih =>
    obtain ⟨t1, v1, h1, h2⟩ := unguarded_inside a
    obtain ⟨t2, v2, h3, h4⟩ := ih
    exact ⟨t1, v1, h1, within_trans h2 (.step h3 h4)⟩

/-- Acyclic values have no unguarded cycles. -/
theorem guarded_of_acyclic {t : Ty} {v : GV} (ha : Acyclic W h t v) : Guarded W h t v :=
  fun t' v' hw hu => ha t' v' hw (unguardedPath_inside hu)

/-! ### Ranks of values -/

/-- Unguarded ways as a relation on pairs. -/
def UG (W : World) (h : Heap) (x y : Ty × GV) : Prop := Unguarded W h x.1 x.2 y.1 y.2

theorem steps_unguarded {x y : Ty × GV} (hs : Steps (UG W h) x y) : UnguardedPath W h x.1 x.2 y.1 y.2 := by
  induction hs with
  | one a => exact .one a
  | step a _ ih => exact .step a ih

/-- Preparing the type for encoding ends, whether or not it is supported. -/
def CanPrepare (W : World) (t : Ty) : Prop := ∃ cf, compileE W cf [] t ≠ .diverge

/-- What the proof needs to know about a value: the list of all values within and ranks that go down on unguarded ways. -/
structure Bounded (W : World) (h : Heap) (l : List (Ty × GV)) (ρ : Ty → GV → Nat) : Prop where
  closed : ∀ t v t' v', (t, v) ∈ l → Within W h t v t' v' → (t', v') ∈ l
  rank : ∀ t v t' v', (t, v) ∈ l → Unguarded W h t v t' v' → ρ t' v' < ρ t v
  methods : ∀ t v, h.marshal t v ≠ .diverge
  prepared : ∃ N, ∀ t v, (t, v) ∈ l → ∀ cf, N ≤ cf → compileE W cf [] t ≠ .diverge

/-- Restrict the list to the values within. -/
theorem bounded_of {T : Ty} {V : GV} (hf : FiniteValue W h T V) (hg : Guarded W h T V) (hm : ∀ t v, h.marshal t v ≠ .diverge)
    (hp : ∀ t v, Within W h T V t v → CanPrepare W t) : ∃ l ρ, Bounded W h l ρ ∧ (T, V) ∈ l := by
  classical
  obtain ⟨l0, hl⟩ := hf
  have mem : ∀ t v, (t, v) ∈ l0.filter (fun x => decide (Within W h T V x.1 x.2)) ↔ Within W h T V t v := by
    intro t v
    simp only [List.mem_filter, decide_eq_true_eq]
    exact ⟨fun h => h.2, fun h => ⟨hl _ _ h, h⟩⟩
  refine ⟨l0.filter (fun x => decide (Within W h T V x.1 x.2)), fun t v => rankIn (l0.filter (fun x => decide (Within W h T V x.1 x.2))) (UG W h) (t, v),
    ⟨?_, ?_, hm, ?_⟩, (mem _ _).2 .refl⟩
  · intro t v t' v' h1 h2
    exact (mem _ _).2 (within_trans ((mem _ _).1 h1) h2)
  · intro t v t' v' h1 h2
    have h3 := within_trans ((mem _ _).1 h1) (unguarded_within h2)
    exact rankIn_lt ((mem _ _).2 h3) (fun hs => hg _ _ h3 (steps_unguarded hs)) h2
  · obtain ⟨N, hN⟩ := bound_all (l := l0.filter (fun x => decide (Within W h T V x.1 x.2))) (Q := fun x n => ∀ cf, n ≤ cf → compileE W cf [] x.1 ≠ .diverge)
      (fun x n m hq hnm cf hc => hq cf (by omega)) (by
        rintro ⟨t, v⟩ hx
        obtain ⟨cf, hc⟩ := hp t v ((mem _ _).1 hx)
        exact ⟨cf, fun cg hg => by rw [compileE_mono hc hg]; exact hc⟩)
    exact ⟨N, fun t v hx => hN (t, v) hx⟩

/-! ### Following pointers ends -/

theorem derefAll_not_diverge {f g : Nat} (hg : f ≤ g) {t : Ty} {v : GV} (hd : derefAll W h f t v ≠ .diverge) : derefAll W h g t v ≠ .diverge := by
  rcases derefAll_le (W := W) (h := h) hg t v with h1 | h1
  · exact absurd h1 hd
  · rw [← h1]; exact hd

theorem derefAll_ends {l : List (Ty × GV)} {ρ : Ty → GV → Nat} (hb : Bounded W h l ρ) {n : Nat} {t : Ty} {v : GV} (hn : ρ t v ≤ n) (hl : (t, v) ∈ l) :
    ∃ N, ∀ f, N ≤ f → derefAll W h f t v ≠ .diverge := by
  suffices hs : ∃ N, derefAll W h N t v ≠ .diverge by
    obtain ⟨N, hN⟩ := hs
    exact ⟨N, fun f hf => derefAll_not_diverge hf hN⟩
  induction n using Nat.strongRecOn generalizing t v with
  | ind n ih =>
    have step : ∀ t' v', Unguarded W h t v t' v' → ∃ N, derefAll W h N t' v' ≠ .diverge := fun t' v' hu => by
      have := hb.rank _ _ _ _ hl hu
      exact ih (ρ t' v') (by omega) (Nat.le_refl _) (hb.closed _ _ _ _ hl (unguarded_within hu))
    cases hr : W.resolve t with
    | ptr e =>
      cases v with
      | ptr a =>
        cases hs : W.isStruct e with
        | false =>
          obtain ⟨N, hN⟩ := step _ _ (.ptr hr hs)
          exact ⟨N + 1, by simp only [derefAll, hr]; exact hN⟩
        | true =>
          obtain ⟨id, he⟩ := isStruct_cases hs
          exact ⟨2, by simp [derefAll, hr, he]⟩
      | _ => exact ⟨1, by simp [derefAll, hr]⟩
    | any =>
      cases v with
      | iface dt w =>
        obtain ⟨N, hN⟩ := step _ _ (.iface (by simp [World.isIface, hr]) .refl)
        exact ⟨N + 1, by simp only [derefAll, hr]; exact hN⟩
      | _ => exact ⟨1, by simp [derefAll, hr]⟩
    | iface i =>
      cases v with
      | iface dt w =>
        obtain ⟨N, hN⟩ := step _ _ (.iface (by simp [World.isIface, hr]) .refl)
        exact ⟨N + 1, by simp only [derefAll, hr]; exact hN⟩
      | _ => exact ⟨1, by simp [derefAll, hr]⟩
    | _ => exact ⟨1, by simp [derefAll, hr]⟩

/-! ### The room left by the recursion checks -/

/-- The address at a value. -/
def anyAddr : GV → Nat
  | .ptr a => a
  | v => addrOf v

/-- The addresses in the list, and 0 for nil. -/
def addrs (l : List (Ty × GV)) : List Nat := 0 :: l.map fun x => anyAddr x.2

/-- How often an address can still be entered. -/
noncomputable def room (l : List (Ty × GV)) (st : Stack) : Nat := (1000 - depthOf st) + count (addrs l) (· ∉ seenOf st)

theorem room_true {l : List (Ty × GV)} {st : Stack} {a : Nat} (ha : a ∈ addrs l) (hf : Fresh st a true) :
    room l ((a, true) :: st) < room l st := by
  unfold room
  rw [depthOf_true]
  by_cases hd : depthOf st + 1 ≤ 1000
  · have : seenOf ((a, true) :: st) = seenOf st := by simp [seenOf, hd]
    rw [this]; omega
  · have hs : seenOf ((a, true) :: st) = a :: seenOf st := by simp [seenOf, hd]
    rw [hs]
    have hn : a ∉ seenOf st := by
      rcases hf with ⟨_, h1⟩ | h1
      · exact absurd h1 hd
      · exact h1
    have := count_lt (l := addrs l) (P := (· ∉ a :: seenOf st)) (Q := (· ∉ seenOf st)) (fun x hx hy => hx (List.mem_cons_of_mem _ hy)) ha
      (by simp) hn
    omega

theorem room_false {l : List (Ty × GV)} {st : Stack} {a : Nat} (ha : a ∈ addrs l) (hf : Fresh st a false) :
    room l ((a, false) :: st) < room l st := by
  unfold room
  rw [depthOf_false]
  have hs : seenOf ((a, false) :: st) = a :: seenOf st := by simp [seenOf]
  rw [hs]
  have hn : a ∉ seenOf st := by
    rcases hf with ⟨h1, _⟩ | h1
    · cases h1
    · exact h1
  have := count_lt (l := addrs l) (P := (· ∉ a :: seenOf st)) (Q := (· ∉ seenOf st)) (fun x hx hy => hx (List.mem_cons_of_mem _ hy)) ha
    (by simp) hn
  omega

theorem addr_mem {l : List (Ty × GV)} {t : Ty} {v : GV} (hl : (t, v) ∈ l) : anyAddr v ∈ addrs l :=
  List.mem_cons_of_mem _ (List.mem_map.2 ⟨_, hl, rfl⟩)

/-! ### Finitely many places next -/

/-- Places that may be visited next. -/
def nextPlaces (W : World) (h : Heap) (y : Place) : List Place :=
  let st := y.st
  let both := fun (m : Mode) (p : Path) (t : Ty) (a : Nat) (v : GV) => [(⟨m, st, p, t, v⟩ : Place), ⟨m, (a, true) :: st, p, t, v⟩, ⟨m, (a, false) :: st, p, t, v⟩]
  let all := fun (p : Path) (t : Ty) (a : Nat) (v : GV) => both .typed p t a v ++ both .kind p t a v ++ both .held p t a v
  all y.p y.t (addrOf y.v) y.v ++
  match W.resolve y.t, y.v with
  | .ptr e, .ptr a => all y.p e a (h.deref e a)
  | .struct id, .struct vs => (List.range vs.length).flatMap fun i => match (W.fields id)[i]?, vs[i]? with
    | some f, some v => [⟨.field true, st, i :: y.p, f.ty, v⟩, ⟨.field false, st, i :: y.p, f.ty, v⟩]
    | _, _ => []
  | .array _ e, .arr vs => (List.range vs.length).flatMap fun i => match vs[i]? with
    | some v => all (i :: y.p) e 0 v
    | none => []
  | .slice e, .slice a n => (List.range (h.elems e a n).length).flatMap fun i => match (h.elems e a n)[i]? with
    | some v => all (i :: y.p) e a v
    | none => []
  | .map k e, .map a => (List.range (h.iter k e y.p a).length).flatMap fun i => match (h.iter k e y.p a)[i]? with
    | some (_, v) => all (i :: y.p) e a v
    | none => []
  | .any, .iface dt v => all y.p dt 0 v
  | .iface _, .iface dt v => all y.p dt 0 v
  | _, _ => []

theorem mem_range_of_getElem? {α : Type} {l : List α} {i : Nat} {x : α} (hi : l[i]? = some x) : i ∈ List.range l.length := by
  obtain ⟨h1, -⟩ := List.getElem?_eq_some_iff.1 hi
  exact List.mem_range.2 h1

theorem visit_next {y z : Place} (hv : Visit W h y z) : z ∈ nextPlaces W h y := by
  cases hv with
  | field h1 h2 h3 h4 h5 =>
    rename_i st p t id vs f v i str
    unfold nextPlaces
    simp only [h1]
    refine List.mem_append_right _ (List.mem_flatMap.2 ⟨i, mem_range_of_getElem? h3, ?_⟩)
    simp only [h2, h3]
    cases str <;> simp
  | array h1 h2 =>
    unfold nextPlaces
    simp only [h1]
    refine List.mem_append_right _ (List.mem_flatMap.2 ⟨_, mem_range_of_getElem? h2, ?_⟩)
    simp [h2]
  | slice h1 h2 h3 =>
    unfold nextPlaces
    simp only [h1]
    refine List.mem_append_right _ (List.mem_flatMap.2 ⟨_, mem_range_of_getElem? h3, ?_⟩)
    simp [h3]
  | map h1 h2 h3 =>
    unfold nextPlaces
    simp only [h1]
    refine List.mem_append_right _ (List.mem_flatMap.2 ⟨_, mem_range_of_getElem? h3, ?_⟩)
    simp [h3]
  | heldSlice h1 _ h2 h3 =>
    unfold nextPlaces
    simp only [h1]
    refine List.mem_append_right _ (List.mem_flatMap.2 ⟨_, mem_range_of_getElem? h3, ?_⟩)
    simp [h3]
  | heldMap h1 _ h2 h3 =>
    unfold nextPlaces
    simp only [h1]
    refine List.mem_append_right _ (List.mem_flatMap.2 ⟨_, mem_range_of_getElem? h3, ?_⟩)
    simp [h3]
  | heldConcreteMap h1 _ h2 h3 =>
    unfold nextPlaces
    simp only [h1]
    refine List.mem_append_right _ (List.mem_flatMap.2 ⟨_, mem_range_of_getElem? h3, ?_⟩)
    simp [h3]
  | heldIface hi =>
    unfold nextPlaces
    rcases isIface_cases hi with hr | ⟨i, hr⟩ <;> simp [hr]
  | ptrStruct _ hr => simp [nextPlaces, hr]
  | ptrKind _ hr => simp [nextPlaces, hr]
  | ptrTyped _ hr => simp [nextPlaces, hr]
  | heldPtr hr => simp [nextPlaces, hr]
  | fieldPtrStruct hr => simp [nextPlaces, hr]
  | fieldPtr hr => simp [nextPlaces, hr]
  | _ => simp [nextPlaces]

/-! ### Runs end -/

/-- With enough fuel the run at the place does not run out of it. -/
def EndsBy (W : World) (h : Heap) (y : Place) (n : Nat) : Prop := ∀ cf f, n ≤ cf → n ≤ f → ∀ b, ¬ Fails .diverge (runAt W h cf f y b).2

/-- The run at the place ends. -/
def RunEnds (W : World) (h : Heap) (y : Place) : Prop := ∃ n, EndsBy W h y n

/-- A bound for all places visited next. -/
theorem next_bound {y : Place} (hz : ∀ z, Visit W h y z → RunEnds W h z) : ∃ n, ∀ z, Visit W h y z → EndsBy W h z n := by
  obtain ⟨n, hn⟩ := bound_all (l := nextPlaces W h y) (Q := fun z n => Visit W h y z → EndsBy W h z n)
    (fun z n m hq hnm hv cf f hc hf => hq hv cf f (by omega) (by omega)) (by
      intro z _
      by_cases hv : Visit W h y z
      · obtain ⟨n, hn⟩ := hz z hv
        exact ⟨n, fun _ => hn⟩
      · exact ⟨0, fun hv' => absurd hv' hv⟩)
  exact ⟨n, fun z hv => hn z (visit_next hv) hv⟩

/-- Nothing at the place itself makes a run endless. -/
def Calm (W : World) (h : Heap) (y : Place) : Prop := ∃ n, ∀ cf f, n ≤ cf → n ≤ f → ¬ Cause W h cf f .diverge y

theorem ends_of_next {y : Place} (hc : Calm W h y) (hz : ∀ z, Visit W h y z → RunEnds W h z) (k : Nat)
    (hr : ∀ cf f b, Fails .diverge (runAt W h cf (f + k) y b).2 → Next W h cf f .diverge y) : RunEnds W h y := by
  obtain ⟨n, hn⟩ := hc
  obtain ⟨m, hm⟩ := next_bound hz
  refine ⟨max n m + k, fun cf f h1 h2 b hf => ?_⟩
  obtain ⟨g, rfl⟩ : ∃ g, f = g + k := ⟨f - k, by omega⟩
  rcases hr cf g b hf with h3 | ⟨z, b', h3, h4⟩
  · exact hn cf g (by omega) (by omega) h3
  · exact hm z h3 cf g (by omega) (by omega) b' h4

/-- All runs at this value with these addresses around end. -/
structure AllEnd (W : World) (h : Heap) (st : Stack) (t : Ty) (v : GV) : Prop where
  kind : ∀ p, RunEnds W h ⟨.kind, st, p, t, v⟩
  typed : ∀ p, RunEnds W h ⟨.typed, st, p, t, v⟩
  field : ∀ p str, RunEnds W h ⟨.field str, st, p, t, v⟩
  held : W.isIface t = true → ∀ p, RunEnds W h ⟨.held, st, p, t, v⟩

theorem calm_of {l : List (Ty × GV)} {ρ : Ty → GV → Nat} (hb : Bounded W h l ρ) {y : Place} (hl : (y.t, y.v) ∈ l) : Calm W h y := by
  obtain ⟨N, hN⟩ := hb.prepared
  -- bounds for following pointers, from the value and from what it points to
  obtain ⟨n1, h1⟩ := derefAll_ends hb (Nat.le_refl _) hl
  have h2 : ∃ n2, ∀ e a, W.resolve y.t = .ptr e → y.v = .ptr a → ∀ f, n2 ≤ f → derefAll W h f e (h.deref e a) ≠ .diverge := by
    by_cases hp : ∃ e a, W.resolve y.t = .ptr e ∧ y.v = .ptr a
    · obtain ⟨e, a, hr, hv⟩ := hp
      obtain ⟨n2, h3⟩ := derefAll_ends hb (Nat.le_refl _) (hb.closed _ _ _ _ hl (by rw [hv]; exact .step (.ptr hr) .refl))
      refine ⟨n2, fun e' a' hr' hv' => ?_⟩
      rw [hr] at hr'; rw [hv] at hv'
      cases hr'; cases hv'
      exact h3
    · exact ⟨0, fun e a hr hv => absurd ⟨e, a, hr, hv⟩ hp⟩
  obtain ⟨n2, h2⟩ := h2
  refine ⟨max N (max n1 n2), fun cf f hc hf hcause => ?_⟩
  cases hcause with
  | blocked e => cases e
  | unsupported _ e _ => cases e
  | misfit _ e => cases e
  | nilCall _ e => cases e
  | method t v _ _ _ e => exact hb.methods _ _ e
  | compile _ _ e => exact hN _ _ hl cf (by omega) e
  | compileElem _ hr hv hm _ e =>
    exact hN _ _ (hb.closed _ _ _ _ hl (by rw [hv]; exact .step (.map hr hm) .refl)) cf (by omega) e
  | deref _ e => exact h1 f (by omega) e
  | derefStr _ _ e => exact h1 f (by omega) e
  | derefStrPtr _ hr hv _ e => exact h2 _ _ hr hv f (by omega) e

theorem typed_next {cf f : Nat} {st : Stack} {p : Path} {t : Ty} {v : GV} (b : Bytes) (hf : Fails .diverge (runAt W h cf (f + 1) ⟨.typed, st, p, t, v⟩ b).2) :
    Next W h cf f .diverge ⟨.typed, st, p, t, v⟩ := typed_fails hf

/-- Held values end if what they lead to does. -/
theorem held_ends {l : List (Ty × GV)} {ρ : Ty → GV → Nat} (hb : Bounded W h l ρ) {st : Stack} {p : Path} {t : Ty} {v : GV} (hl : (t, v) ∈ l)
    (hz : ∀ t' v', Deref W h t v (some (t', v')) → ∀ z, Visit W h ⟨.held, st, p, t', v'⟩ z → RunEnds W h z) : RunEnds W h ⟨.held, st, p, t, v⟩ := by
  obtain ⟨n0, h0⟩ := calm_of hb (y := ⟨.held, st, p, t, v⟩) hl
  by_cases hd : ∃ t' v', Deref W h t v (some (t', v'))
  · obtain ⟨t', v', hd⟩ := hd
    have hl' : (t', v') ∈ l := hb.closed _ _ _ _ hl (leads_within (deref_leads hd rfl))
    obtain ⟨N, hN⟩ := calm_of hb (y := ⟨.held, st, p, t', v'⟩) hl'
    obtain ⟨M, hM⟩ := next_bound (hz t' v' hd)
    refine ⟨max n0 (max N M) + 1, fun cf f h1 h2 b hf => ?_⟩
    obtain ⟨g, rfl⟩ : ∃ g, f = g + 1 := ⟨f - 1, by omega⟩
    rcases held_fails hf with h3 | ⟨t2, v2, h3, h4⟩
    · exact h0 cf (g + 1) (by omega) (by omega) h3
    · have := deref_det hd (derefAll_sound h3)
      cases this
      rcases h4 with h4 | ⟨z, b', h4, h5⟩
      · exact hN cf g (by omega) (by omega) h4
      · exact hM z h4 cf g (by omega) (by omega) b' h5
  · refine ⟨n0 + 1, fun cf f h1 h2 b hf => ?_⟩
    obtain ⟨g, rfl⟩ : ∃ g, f = g + 1 := ⟨f - 1, by omega⟩
    rcases held_fails hf with h3 | ⟨t2, v2, h3, h4⟩
    · exact h0 cf (g + 1) (by omega) (by omega) h3
    · exact hd ⟨t2, v2, derefAll_sound h3⟩

theorem deref_end {t t' : Ty} {v v' : GV} (hd : Deref W h t v (some (t', v'))) : W.isPtr t' = false ∧ W.isIface t' = false := by
  generalize ho : some (t', v') = o at hd
  induction hd with
  | ptrNil => cases ho
  | ifaceNil => cases ho
  | ptr _ _ ih => exact ih ho
  | iface _ _ ih => exact ih ho
  | done hp hi => cases ho; exact ⟨hp, hi⟩

theorem shown_unguarded {t : Ty} {id : Nat} {vs : List GV} {f : Field} {v : GV} {i : Nat} (h1 : W.resolve t = .struct id) (h2 : (W.fields id)[i]? = some f)
    (h3 : vs[i]? = some v) (h4 : Shown W f v) : Unguarded W h t (.struct vs) f.ty v := by
  have := shown_part (h := h) h1 h2 h3 h4
  obtain ⟨e1, key, om, str, e2, e3, _⟩ := h4
  refine .field h1 h2 h3 e1 fun hk => ?_
  obtain ⟨om', str', hk⟩ := hk
  exact e3 ((tagMeaning_iff.1 e2).1.trans (tagMeaning_iff.1 hk).1.symm)

/-- Runs at all places of a value with guarded cycles end. -/
theorem all_end {l : List (Ty × GV)} {ρ : Ty → GV → Nat} (hb : Bounded W h l ρ) (n : Nat) :
    ∀ st, room l st ≤ n → ∀ k t v, ρ t v ≤ k → (t, v) ∈ l → AllEnd W h st t v := by
  induction n using Nat.strongRecOn with
  | ind n ihn =>
    intro st hst k
    induction k using Nat.strongRecOn with
    | ind k ihk =>
      intro t v hk hl
      -- into a value whose address is remembered
      have push : ∀ {a c t' v'}, anyAddr v = a ∨ a ∈ addrs l → Fresh st a c → Within W h t v t' v' → AllEnd W h ((a, c) :: st) t' v' := by
        intro a c t' v' ha hf hw
        have hmem : a ∈ addrs l := by
          rcases ha with rfl | ha
          · exact addr_mem hl
          · exact ha
        have : room l ((a, c) :: st) < room l st := by
          cases c
          · exact room_false hmem hf
          · exact room_true hmem hf
        exact ihn (room l ((a, c) :: st)) (by omega) _ (Nat.le_refl _) _ _ _ (Nat.le_refl _) (hb.closed _ _ _ _ hl hw)
      -- on unguarded ways
      have low : ∀ {t' v'}, (t', v') ∈ l → ρ t' v' < ρ t v → AllEnd W h st t' v' := by
        intro t' v' hm hr
        exact ihk (ρ t' v') (by omega) _ _ (Nat.le_refl _) hm
      have loose : ∀ {t' v'}, Unguarded W h t v t' v' → AllEnd W h st t' v' := by
        intro t' v' hu
        exact low (hb.closed _ _ _ _ hl (unguarded_within hu)) (hb.rank _ _ _ _ hl hu)
      have heldAt : (∀ t' v', Deref W h t v (some (t', v')) → (t', v') ∈ l ∧ (W.isStruct t' = true → ρ t' v' < ρ t v)) → ∀ p, RunEnds W h ⟨.held, st, p, t, v⟩ := by
        intro hd p
        refine held_ends hb hl fun t' v' hd' z hv => ?_
        obtain ⟨hm, hr⟩ := hd t' v' hd'
        obtain ⟨hnp, hni⟩ := deref_end hd'
        have hw := leads_within (deref_leads hd' rfl)
        have ha : ∀ {a}, addrOf v' = a → a ∈ addrs l := by
          rintro a rfl
          have := addr_mem hm
          cases v' with
          | ptr x => exact List.mem_cons_self
          | _ => exact this
        generalize hy : (⟨.held, st, p, t', v'⟩ : Place) = y at hv
        cases hv with
        | heldPtr hp => cases hy; simp [World.isPtr, hp] at hnp
        | heldIface hi => cases hy; rw [hi] at hni; cases hni
        | @heldConcreteSlice _ _ _ e _ hs hi hf =>
          cases hy
          exact (push (.inr (ha rfl)) hf hw).typed _
        | heldSlice hs hi hf hx => cases hy; exact (push (.inr (ha rfl)) hf (within_part hw (.slice hs (List.mem_of_getElem? hx)))).held hi _
        | heldMap hs hi hf hx => cases hy; exact (push (.inr (ha rfl)) hf (within_part hw (.map hs (List.mem_of_getElem? hx)))).held hi _
        | heldConcreteMap hs hi hf hx => cases hy; exact (push (.inr (ha rfl)) hf (within_part hw (.map hs (List.mem_of_getElem? hx)))).typed _
        | heldStruct hs => cases hy; exact (low hm (hr hs)).typed _
        | _ => cases hy
      have held : W.isIface t = true → ∀ p, RunEnds W h ⟨.held, st, p, t, v⟩ := by
        intro hi
        refine heldAt fun t' v' hd => ⟨hb.closed _ _ _ _ hl (leads_within (deref_leads hd rfl)), fun _ => ?_⟩
        cases hd with
        | ptr hr => rcases isIface_cases hi with h1 | ⟨_, h1⟩ <;> rw [hr] at h1 <;> cases h1
        | iface _ hd => exact hb.rank _ _ _ _ hl (.iface hi (deref_leads hd rfl))
        | done _ hn => rw [hi] at hn; cases hn
      have heldPtr : ∀ {e}, W.resolve t = .ptr e → W.isIface e = true → ∀ p, RunEnds W h ⟨.held, st, p, t, v⟩ := by
        intro e hr hi
        refine heldAt fun t' v' hd => ⟨hb.closed _ _ _ _ hl (leads_within (deref_leads hd rfl)), fun _ => ?_⟩
        have hns : W.isStruct e = false := by rcases isIface_cases hi with h1 | ⟨_, h1⟩ <;> simp [World.isStruct, h1]
        cases hd with
        | @ptr _ e' a _ hr' hd =>
          rw [hr] at hr'; cases hr'
          have h1 := hb.rank _ _ _ _ hl (.ptr hr hns (a := a))
          have hl' := hb.closed _ _ _ _ hl (unguarded_within (.ptr hr hns (a := a)))
          generalize h.deref e a = w at hd h1 hl'
          cases hd with
          | ptr hr => rcases isIface_cases hi with h1 | ⟨_, h1⟩ <;> rw [hr] at h1 <;> cases h1
          | iface _ hd => have := hb.rank _ _ _ _ hl' (.iface hi (deref_leads hd rfl)); omega
          | done _ hn => rw [hi] at hn; cases hn
        | iface hi' => rcases isIface_cases hi' with h1 | ⟨_, h1⟩ <;> rw [hr] at h1 <;> cases h1
        | done hn => simp [World.isPtr, hr] at hn
      have kind : ∀ p, RunEnds W h ⟨.kind, st, p, t, v⟩ := by
        intro p
        refine ends_of_next (calm_of hb hl) (fun z hv => ?_) 0 (fun cf f b hf => kind_fails hf)
        cases hv with
        | field h1 h2 h3 h4 => exact (loose (shown_unguarded h1 h2 h3 h4)).field _ _
        | array h1 h2 => exact (loose (.array h1 (List.mem_of_getElem? h2))).typed _
        | slice h1 h2 h3 => exact (push (.inl rfl) h2 (.step (.slice h1 (List.mem_of_getElem? h3)) .refl)).typed _
        | map h1 h2 h3 => exact (push (.inl rfl) h2 (.step (.map h1 (List.mem_of_getElem? h3)) .refl)).typed _
        | iface hi => exact held hi _
      have typed : ∀ p, RunEnds W h ⟨.typed, st, p, t, v⟩ := by
        intro p
        refine ends_of_next (calm_of hb hl) (fun z hv => ?_) 1 (fun cf f b hf => typed_fails hf)
        cases hv with
        | plain => exact kind _
        | ptrStruct _ hr hs hf => exact (push (.inl rfl) hf (.step (.ptr hr) .refl)).kind _
        | ptrKind _ hr hd => exact (loose (.ptr hr (by unfold directKind at hd; unfold World.isStruct; split at hd <;> simp_all))).kind _
        | ptrTyped _ hr _ _ hs => exact (loose (.ptr hr hs)).typed _
        | ptrIface _ hr hi => exact heldPtr hr hi _
      refine ⟨kind, typed, fun p str => ?_, held⟩
      refine ends_of_next (calm_of hb hl) (fun z hv => ?_) 0 (fun cf f b hf => field_fails hf)
      cases hv with
      | fieldPlain => exact typed _
      | fieldPtrStruct hr hs hf => exact (push (.inl rfl) hf (.step (.ptr hr) .refl)).typed _
      | fieldPtr hr hs => exact (loose (.ptr hr hs)).typed _

/-- `Marshal` ends on finite values all of whose cycles are guarded. -/
theorem marshal_ends {T : Ty} {V : GV} (hf : FiniteValue W h T V) (hg : Guarded W h T V) (hm : ∀ t v, h.marshal t v ≠ .diverge)
    (hp : ∀ t v, Within W h T V t v → CanPrepare W t) : ∃ r, MarshalGives W h (some (T, V)) r := by
  obtain ⟨l, ρ, hb, hl⟩ := bounded_of hf hg hm hp
  obtain ⟨n, hn⟩ := (all_end hb _ [] (Nat.le_refl _) _ _ _ (Nat.le_refl _) hl).typed []
  obtain ⟨N, hN⟩ := hb.prepared
  have hne : (marshal W h (max n N) (max n N) Ctx.clean (some (T, V))).2 ≠ .diverge := by
    intro hd
    simp only [marshal] at hd
    have hd : Fails .diverge (andThen (Ctx.clean, compileE W (max n N) [] T) fun c _ => (encF W h (max n N) (max n N)).comp [] T c [] V).2 := hd
    rcases fails_then hd with h1 | ⟨s, _, h1⟩
    · exact hN _ _ hl _ (by omega) h1
    · exact hn _ _ (by omega) (by omega) [] h1
  exact ⟨_, marshalGives_of hne rfl⟩

end Verif

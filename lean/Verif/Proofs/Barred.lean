import Verif.Spec.Barred
import Verif.Proofs.Obstacle
import Verif.Proofs.Position
import Verif.Proofs.EncDet
/-
What keeps `Marshal` from writing a value, at the places it gets to: there is such a thing if and only if `Marshal` fails.
-/
namespace Verif
open Spec

variable {W : World} {h : Heap} {t : Ty} {v : GV}

theorem steps_snoc {m m' m'' : Mode} {p p' p'' : Path} {t t' t'' : Ty} {v v' v'' : GV} (h1 : Steps W h m p t v m' p' t' v')
    (h2 : Step W h m' p' t' v' m'' p'' t'' v'') : Steps W h m p t v m'' p'' t'' v'' := by
  induction h1 with
  | refl => exact .step h2 .refl
  | step a _ ih => exact .step a (ih h2)

/-- How a value that is reached in one mode is passed on in another. -/
inductive PassedOn (W : World) (u : Ty) : Mode → Mode → Prop
  | self {m} : PassedOn W u m m
  | field : W.isPtr u = false → PassedOn W u (.field false) .typed
  | struct : W.isStruct u = true → PassedOn W u .held .typed
  | slice {e} : W.resolve u = .slice e → W.isIface e = false → PassedOn W u .held .typed
  | kind {m} : PassedOn W u m .typed → W.marOf u = false → u ≠ .slice (.uint .u8) → W.isPtr u = false → PassedOn W u m .kind
  | iface {m} : PassedOn W u m .kind → W.isIface u = true → PassedOn W u m .held
  | ptr {e} : W.marOf u = false → W.resolve u = .ptr e → W.isIface e = true → PassedOn W u .typed .held

theorem passed_typed {u : Ty} {m : Mode} (hv : PassedOn W u m .typed) :
    m = .typed ∨ (m = .field false ∧ W.isPtr u = false) ∨ (m = .held ∧ (W.isStruct u = true ∨ ∃ e, W.resolve u = .slice e ∧ W.isIface e = false)) := by
  cases hv with
  | self => exact .inl rfl
  | field a => exact .inr (.inl ⟨rfl, a⟩)
  | struct a => exact .inr (.inr ⟨rfl, .inl a⟩)
  | slice a b => exact .inr (.inr ⟨rfl, .inr ⟨_, a, b⟩⟩)

theorem passed_field {u : Ty} {m : Mode} {s : Bool} (hv : PassedOn W u m (.field s)) : m = .field s := by cases hv; rfl

/-- By kind: the value is open, and if held in an interface, a struct or a slice of other things than interfaces. -/
theorem passed_kind {u : Ty} {m : Mode} (hv : PassedOn W u m .kind) :
    Open W m u ∧ (m = .held → W.isStruct u = true ∨ ∃ e, W.resolve u = .slice e ∧ W.isIface e = false) := by
  cases hv with
  | self => exact ⟨⟨by simp, .inl rfl⟩, fun h => by cases h⟩
  | kind a b c d =>
    rcases passed_typed a with rfl | ⟨rfl, -⟩ | ⟨rfl, h2⟩
    · exact ⟨⟨by simp, .inr ⟨b, c⟩⟩, fun h => by cases h⟩
    · exact ⟨⟨by simp, .inr ⟨b, c⟩⟩, fun h => by cases h⟩
    · exact ⟨⟨by simp, .inr ⟨b, c⟩⟩, fun _ => h2⟩

theorem passed_held {u : Ty} {m : Mode} (hv : PassedOn W u m .held) :
    m = .held ∨ (Open W m u ∧ W.isIface u = true) ∨ (m = .typed ∧ W.marOf u = false ∧ ∃ e, W.resolve u = .ptr e ∧ W.isIface e = true) := by
  cases hv with
  | self => exact .inl rfl
  | iface a b => exact .inr (.inl ⟨(passed_kind a).1, b⟩)
  | ptr a b c => exact .inr (.inr ⟨rfl, a, _, b, c⟩)

/-- A place is reached, possibly passed on from another mode. -/
def Reached (W : World) (h : Heap) (t : Ty) (v : GV) (y : Place) : Prop := ∃ m, GetsTo W h t v m y.p y.t y.v ∧ PassedOn W y.t m y.m

theorem reached_held {st : Stack} {p : Path} {u : Ty} {w : GV} (hr : Reached W h t v ⟨.held, st, p, u, w⟩) (hp : W.isPtr u = false) (hi : W.isIface u = false) :
    GetsTo W h t v .held p u w := by
  obtain ⟨m, h1, h2⟩ := hr
  rcases passed_held h2 with rfl | ⟨_, h3⟩ | ⟨_, _, e, h3, _⟩
  · exact h1
  · dsimp only at h3; rw [hi] at h3; cases h3
  · dsimp only at h3; rw [isPtr_iff.2 ⟨e, h3⟩] at hp; cases hp

theorem reached_field {st : Stack} {p : Path} {u : Ty} {w : GV} {s : Bool} (hr : Reached W h t v ⟨.field s, st, p, u, w⟩) : GetsTo W h t v (.field s) p u w := by
  obtain ⟨m, h1, h2⟩ := hr
  rw [passed_field h2] at h1
  exact h1

theorem reached_step {y z : Place} (hr : Reached W h t v y) (hv : Visit W h y z) : Reached W h t v z := by
  obtain ⟨m, h1, h2⟩ := hr
  cases hv with
  | plain a b c => exact ⟨m, h1, .kind h2 a b c⟩
  | ptrStruct a b c d =>
    rcases passed_typed h2 with rfl | ⟨_, h3⟩ | ⟨_, h3 | ⟨e, h3, _⟩⟩
    · exact ⟨_, steps_snoc h1 (.ptrKind a b (.inl c)), .self⟩
    · dsimp only at h3; rw [isPtr_iff.2 ⟨_, b⟩] at h3; cases h3
    · obtain ⟨id, h3⟩ := isStruct_iff.1 h3; dsimp only at h3; rw [b] at h3; cases h3
    · dsimp only at h3; rw [b] at h3; cases h3
  | ptrKind a b c =>
    rcases passed_typed h2 with rfl | ⟨_, h3⟩ | ⟨_, h3 | ⟨e, h3, _⟩⟩
    · exact ⟨_, steps_snoc h1 (.ptrKind a b (.inr c)), .self⟩
    · dsimp only at h3; rw [isPtr_iff.2 ⟨_, b⟩] at h3; cases h3
    · obtain ⟨id, h3⟩ := isStruct_iff.1 h3; dsimp only at h3; rw [b] at h3; cases h3
    · dsimp only at h3; rw [b] at h3; cases h3
  | ptrTyped a b c d e' f =>
    rcases passed_typed h2 with rfl | ⟨_, h3⟩ | ⟨_, h3 | ⟨e, h3, _⟩⟩
    · exact ⟨_, steps_snoc h1 (.ptrTyped a b e' f d), .self⟩
    · dsimp only at h3; rw [isPtr_iff.2 ⟨_, b⟩] at h3; cases h3
    · obtain ⟨id, h3⟩ := isStruct_iff.1 h3; dsimp only at h3; rw [b] at h3; cases h3
    · dsimp only at h3; rw [b] at h3; cases h3
  | ptrIface a b c =>
    rcases passed_typed h2 with rfl | ⟨_, h3⟩ | ⟨_, h3 | ⟨e, h3, _⟩⟩
    · exact ⟨_, h1, .ptr a b c⟩
    · dsimp only at h3; rw [isPtr_iff.2 ⟨_, b⟩] at h3; cases h3
    · obtain ⟨id, h3⟩ := isStruct_iff.1 h3; dsimp only at h3; rw [b] at h3; cases h3
    · dsimp only at h3; rw [b] at h3; cases h3
  | field a b c d e => exact ⟨_, steps_snoc h1 (.field (passed_kind h2).1 a b c d e), .self⟩
  | array a b =>
    obtain ⟨h3, h4⟩ := passed_kind h2
    refine ⟨_, steps_snoc h1 (.array h3 (fun hm => ?_) a b), .self⟩
    dsimp only at h4
    rcases h4 hm with h4 | ⟨e, h4, _⟩
    · obtain ⟨id, h4⟩ := isStruct_iff.1 h4; rw [a] at h4; cases h4
    · rw [a] at h4; cases h4
  | slice a _ c =>
    obtain ⟨h3, h4⟩ := passed_kind h2
    refine ⟨_, steps_snoc h1 (.slice h3 a (fun hm => ?_) c), .self⟩
    dsimp only at h4
    rcases h4 hm with h4 | ⟨e, h4, h5⟩
    · obtain ⟨id, h4⟩ := isStruct_iff.1 h4; rw [a] at h4; cases h4
    · rw [a] at h4; cases h4; exact h5
  | map a _ c =>
    obtain ⟨h3, h4⟩ := passed_kind h2
    refine ⟨_, steps_snoc h1 (.map (.inr h3) a (fun hm => ?_) c), .self⟩
    dsimp only at h4
    rcases h4 hm with h4 | ⟨e, h4, h5⟩
    · obtain ⟨id, h4⟩ := isStruct_iff.1 h4; rw [a] at h4; cases h4
    · rw [a] at h4; cases h4
  | iface a => exact ⟨_, h1, .iface h2 a⟩
  | heldPtr a =>
    rcases passed_held h2 with rfl | ⟨_, h3⟩ | ⟨rfl, h3, e, h4, h5⟩
    · exact ⟨_, steps_snoc h1 (.ptrHeld a), .self⟩
    · exact (iface_ptr_absurd h3 a).elim
    · dsimp only at h4; rw [a] at h4; cases h4; exact ⟨_, steps_snoc h1 (.ptrIface h3 a h5), .self⟩
  | heldIface a =>
    rcases passed_held h2 with rfl | ⟨h3, _⟩ | ⟨_, h3, e, h4, h5⟩
    · exact ⟨_, steps_snoc h1 (.iface (.inl rfl) a), .self⟩
    · exact ⟨_, steps_snoc h1 (.iface (.inr h3) a), .self⟩
    · exact (iface_ptr_absurd a h4).elim
  | heldConcreteSlice a b =>
    exact ⟨_, reached_held (st := []) ⟨m, h1, h2⟩ (by simp [World.isPtr, a]) (by simp [World.isIface, a]), .slice a b⟩
  | heldSlice a b _ c =>
    exact ⟨_, steps_snoc (reached_held (st := []) ⟨m, h1, h2⟩ (by simp [World.isPtr, a]) (by simp [World.isIface, a])) (.sliceHeld a b c), .self⟩
  | heldMap a b _ c =>
    exact ⟨_, steps_snoc (reached_held (st := []) ⟨m, h1, h2⟩ (by simp [World.isPtr, a]) (by simp [World.isIface, a])) (.mapHeld a b c), .self⟩
  | heldConcreteMap a b _ c =>
    exact ⟨_, steps_snoc (reached_held (st := []) ⟨m, h1, h2⟩ (by simp [World.isPtr, a]) (by simp [World.isIface, a])) (.map (.inl rfl) a (fun _ => b) c), .self⟩
  | heldStruct a =>
    obtain ⟨id, hs⟩ := isStruct_iff.1 a
    exact ⟨_, reached_held (st := []) ⟨m, h1, h2⟩ (by simp [World.isPtr, hs]) (by simp [World.isIface, hs]), .struct a⟩
  | fieldPlain a => cases passed_field h2; exact ⟨_, h1, .field a⟩
  | fieldPtrStruct a => cases passed_field h2; exact ⟨_, steps_snoc h1 (.ptrField a), .self⟩
  | fieldPtr a => cases passed_field h2; exact ⟨_, steps_snoc h1 (.ptrField a), .self⟩

/-- What is known of the types at a place that is visited. -/
def Mapped (W : World) (h : Heap) (t : Ty) (v : GV) (y : Place) : Prop :=
  match y.m with
  | .typed => ∃ r, MadeFor W h t v r ∧ (LookedInto W y.t → EncOpens W r y.t)
  | .kind => W.isPtr y.t = false ∧ ((∃ r, MadeFor W h t v r ∧ EncOpens W r y.t) ∨ directKind W y.t = true ∧ ∀ k e, W.resolve y.t ≠ .map k e)
  | .field str => ∃ r u id f, MadeFor W h t v r ∧ EncOpens W r u ∧ W.resolve u = .struct id ∧ f ∈ W.fields id ∧ WrittenField W f ∧
      (str = true ↔ HasString W f) ∧ y.t = f.ty
  | .held => True

theorem mapped_kind {st : Stack} {p : Path} {u : Ty} {w : GV} (hc : Mapped W h t v ⟨.kind, st, p, u, w⟩) (hn : directKind W u = false ∨ ∃ k e, W.resolve u = .map k e) :
    ∃ r, MadeFor W h t v r ∧ EncOpens W r u := by
  rcases hc with ⟨_, h1 | ⟨h1, h2⟩⟩
  · exact h1
  · rcases hn with hn | ⟨k, e, hn⟩
    · rw [hn] at h1; cases h1
    · exact absurd hn (h2 k e)

theorem mapped_step {y z : Place} (hw : Reached W h t v y) (hc : Mapped W h t v y) (hv : Visit W h y z) : Mapped W h t v z := by
  cases hv with
  | plain h1 h2 h3 =>
    obtain ⟨r, hr, ho⟩ := hc
    exact ⟨h3, .inl ⟨r, hr, ho ⟨h1, h2⟩⟩⟩
  | @ptrStruct _ _ u e _ h1 h2 h3 =>
    obtain ⟨r, hr, ho⟩ := hc
    obtain ⟨id, hs⟩ := isStruct_iff.1 h3
    exact ⟨by simp [World.isPtr, hs], .inl ⟨r, hr, .ptrStruct (ho ⟨h1, by rintro rfl; cases h2⟩) h2 hs⟩⟩
  | @ptrKind _ _ u e _ h1 h2 h3 =>
    obtain ⟨r, hr, ho⟩ := hc
    have ho := ho ⟨h1, by rintro rfl; cases h2⟩
    by_cases hm : ∃ k e', W.resolve e = .map k e'
    · obtain ⟨k, e', hm⟩ := hm
      exact ⟨by simp [World.isPtr, hm], .inl ⟨r, hr, .ptrMap ho h2 hm⟩⟩
    · refine ⟨?_, .inr ⟨h3, fun k e' hk => hm ⟨k, e', hk⟩⟩⟩
      cases hp : W.isPtr e
      · rfl
      · obtain ⟨x, hx⟩ := isPtr_iff.1 hp; simp [directKind, hx] at h3
  | ptrTyped h1 h2 =>
    obtain ⟨r, hr, ho⟩ := hc
    exact ⟨r, hr, fun hl => .ptr (ho ⟨h1, by rintro rfl; cases h2⟩) h2 hl⟩
  | ptrIface h1 h2 h3 => trivial
  | @field _ _ u id vs f w i str h1 h2 h3 h4 h5 =>
    obtain ⟨r, hr, ho⟩ := mapped_kind hc (.inl (by simp [directKind, h1]))
    exact ⟨r, u, id, f, hr, ho, h1, List.mem_of_getElem? h2, shown_written h4, h5, rfl⟩
  | array h1 =>
    obtain ⟨r, hr, ho⟩ := mapped_kind hc (.inl (by simp [directKind, h1]))
    exact ⟨r, hr, fun hl => .array ho h1 hl⟩
  | slice h1 =>
    obtain ⟨r, hr, ho⟩ := mapped_kind hc (.inl (by simp [directKind, h1]))
    exact ⟨r, hr, fun hl => .slice ho h1 hl⟩
  | map h1 =>
    obtain ⟨r, hr, ho⟩ := mapped_kind hc (.inr ⟨_, _, h1⟩)
    exact ⟨r, hr, fun hl => .mapVal ho h1 hl⟩
  | iface h1 => trivial
  | heldPtr h1 => trivial
  | heldIface h1 => trivial
  | heldConcreteSlice h1 h2 =>
    exact ⟨_, .slice (reached_held hw (by simp [World.isPtr, h1]) (by simp [World.isIface, h1])) h1 h2, .self⟩
  | heldSlice h1 h2 => trivial
  | heldMap h1 h2 => trivial
  | heldConcreteMap h1 h2 _ h3 =>
    exact ⟨_, .map (reached_held hw (by simp [World.isPtr, h1]) (by simp [World.isIface, h1])) h1 h2 (List.mem_of_getElem? h3), .self⟩
  | heldStruct h1 =>
    obtain ⟨id, hs⟩ := isStruct_iff.1 h1
    exact ⟨_, .struct (reached_held hw (by simp [World.isPtr, hs]) (by simp [World.isIface, hs])) h1, .self⟩
  | fieldPlain h1 =>
    obtain ⟨r, u, id, f, hr, ho, h2, h3, h4, h5, h6⟩ := hc
    dsimp only at h6
    subst h6
    exact ⟨r, hr, fun hl => .field ho h2 h3 h4 (by simp [← h5]) (fun e he => by rw [isPtr_iff.2 ⟨e, he⟩] at h1; cases h1) hl⟩
  | fieldPtrStruct h1 _ _ =>
    obtain ⟨r, u, id, f, hr, ho, h2, h3, h4, h5, h6⟩ := hc
    dsimp only at h6
    subst h6
    exact ⟨r, hr, fun hl => .fieldPtr ho h2 h3 h4 (by simp [← h5]) h1 hl⟩
  | fieldPtr h1 _ =>
    obtain ⟨r, u, id, f, hr, ho, h2, h3, h4, h5, h6⟩ := hc
    dsimp only at h6
    subst h6
    exact ⟨r, hr, fun hl => .fieldPtr ho h2 h3 h4 (by simp [← h5]) h1 hl⟩

theorem mapped_visits {y z : Place} (hv : Visits W h y z) (hw : Reached W h t v y) (hc : Mapped W h t v y) : Reached W h t v z ∧ Mapped W h t v z := by
  induction hv with
  | refl => exact ⟨hw, hc⟩
  | step a _ ih => exact ih (reached_step hw a) (mapped_step hw hc a)

/-- What is not supported at a visited place bars the way. -/
theorem bad_barred {y : Place} {s : String} (hwf : WellFormed W h t v) (hw : Within W h t v y.t y.v) (hre : Reached W h t v y) (hc : Mapped W h t v y)
    (hb : Bad W h y s) : Barred W h t v := by
  obtain ⟨m, st, p, u, w⟩ := y
  have fits : ∀ {u' t' : Ty} {w' v' : GV}, Within W h u w u' w' → Deref W h u' w' (some (t', v')) → Fits W h t' v' :=
    fun h1 hd => hwf _ _ (within_trans hw (within_trans h1 (deref_within hd rfl)))
  cases hb with
  | string hm hp hn =>
    dsimp only at hm hp hn; subst hm
    obtain ⟨r, u', id, f, hr, ho, h2, h3, h4, h5, h6⟩ := hc
    dsimp only at h6
    subst h6
    refine .type hr ho (.string h2 h3 h4 (h5.1 rfl) (fun e he => ?_) fun hk => ?_)
    · rw [isPtr_iff.2 ⟨e, he⟩] at hp; cases hp
    · rw [asStringOk_iff.2 hk] at hn; cases hn
  | stringPtr hm hp hn =>
    dsimp only at hm hp hn; subst hm
    obtain ⟨r, u', id, f, hr, ho, h2, h3, h4, h5, h6⟩ := hc
    dsimp only at h6
    subst h6
    refine .type hr ho (.stringPtr h2 h3 h4 (h5.1 rfl) hp fun hk => ?_)
    rw [asStringOk_iff.2 hk] at hn; cases hn
  | heldString hm hi hd hn =>
    dsimp only at hm hi hd hn; subst hm
    exact .string (reached_field hre) hi hd fun hp => hn ⟨hp, fits .refl hd⟩
  | heldStringPtr hm hr hv hi hd hn =>
    dsimp only at hm hr hv hi hd hn; subst hm hv
    exact .stringPtr (reached_field hre) hr hi hd fun hp => hn ⟨hp, fits (.step (.ptr hr) .refl) hd⟩
  | key hm hr hn =>
    dsimp only at hm hr; subst hm
    obtain ⟨r, h1, h2⟩ := mapped_kind hc (.inr ⟨_, _, hr⟩)
    exact .type h1 h2 (.key hr fun hk => by rw [encKeyKind_iff.2 hk] at hn; cases hn)
  | kind hm hk =>
    dsimp only at hm hk; subst hm
    have hp : W.isPtr u = false := hc.1
    obtain ⟨r, h1, h2⟩ := mapped_kind hc (.inl (by rcases hk with hk | hk | ⟨_, hk⟩ | ⟨_, hk⟩ <;> simp [directKind, hk]))
    refine .type h1 h2 (.kind ?_)
    rcases hk with hk | hk | hk | ⟨e, hk⟩
    · exact .inl hk
    · exact .inr (.inl hk)
    · exact .inr (.inr hk)
    · rw [isPtr_iff.2 ⟨e, hk⟩] at hp; cases hp
  | heldKey hm hr hn =>
    dsimp only at hm hr; subst hm
    exact .key (reached_held hre (by simp [World.isPtr, hr]) (by simp [World.isIface, hr])) hr fun hk => by rw [encKeyKind_iff.2 hk] at hn; cases hn
  | held hm hp hi hk =>
    dsimp only at hm hp hi hk; subst hm
    exact .held (reached_held hre hp hi) hp hi hk
  | nested hm hma hr hr' =>
    dsimp only at hm hma hr hr'; subst hm
    obtain ⟨r, h1, h2⟩ := hc
    exact .type h1 (h2 ⟨hma, by rintro rfl; cases hr⟩) (.ptr hr hr')

theorem compile_fault {r : Ty} {cf : Nat} {e : Err} (hf : compileE W cf [] r = .err e) : ∃ u x, EncOpens W r u ∧ EncFault W u x := by
  rw [← prepE_plain] at hf
  cases hp : prepE W cf [] r with
  | ok s => rw [hp] at hf; cases hf
  | diverge => rw [hp] at hf; cases hf
  | err x =>
    obtain ⟨u, h1, h2⟩ := prepE_blames opens_openSet .self hp
    exact ⟨u, x, h1, h2⟩

/-- A failed preparation. -/
theorem compile_barred {r : Ty} {cf : Nat} {x : Fail} (hx : x ≠ .diverge) (hr : MadeFor W h t v r) (hf : Fails x (compileE W cf [] r)) : Barred W h t v := by
  rcases compileE_res (W := W) cf [] r with ⟨a, h1⟩ | ⟨s, h1⟩ | h1
  · rw [h1] at hf; exact (fails_ok hf).elim
  · obtain ⟨u, y, h2, h3⟩ := compile_fault h1
    exact .type hr h2 h3
  · rw [h1] at hf; cases x with
    | diverge => exact absurd rfl hx
    | err => cases hf
    | panic => cases hf

/-- A method that fails. -/
theorem method_barred {st : Stack} {p : Path} {u : Ty} {w : GV} (hre : Reached W h t v ⟨.typed, st, p, u, w⟩) (hm : W.marOf u = true)
    (hn : ∀ raw, ¬ Marshaled W h u w raw) : Barred W h t v := by
  obtain ⟨m, h1, h2⟩ := hre
  exact .method h1 (marOf_iff.1 hm) (passed_typed h2) hn

/-- Every failure of `Marshal` but the report of recursion has something that bars the way. -/
theorem marshal_barred {cf f : Nat} {x : Fail} (hx : x ≠ .diverge) (hr : x ≠ .err .recursive) (hwf : WellFormed W h t v)
    (hf : Fails x (marshal W h cf f .clean (some (t, v))).2) : Barred W h t v := by
  have ends : ∀ {u w g}, Within W h t v u w → ¬ Fails x (derefAll W h g u w) := fun hw h => by
    cases x with
    | diverge => exact hx rfl
    | err => exact derefAll_no_err h
    | panic => exact derefAll_panics h fun t' v' h => hwf t' v' (within_trans hw h)
  rcases marshal_fails_ahead hx hf with h1 | ⟨z, c, g, h1, h2⟩
  · exact compile_barred hx .top h1
  · have hw : Within W h t v z.t z.v := visits_within h1
    obtain ⟨hre, hc⟩ := mapped_visits (t := t) (v := v) h1 ⟨.typed, .refl, .self⟩ ⟨t, .top, .self⟩
    cases h2 with
    | blocked h => exact absurd h hr
    | unsupported s _ hb => exact bad_barred hwf hw hre hc hb
    | misfit _ _ hn => exact absurd (fun t' v' h => hwf t' v' (within_trans hw h)) hn
    | nilCall p _ hm hma hn =>
      obtain ⟨m, st, p, u, w⟩ := z
      dsimp only at hm hma hn; subst hm
      refine method_barred hre hma fun raw hr => ?_
      cases hr with
      | value a b c => cases hn with
        | iface => exact b rfl
        | ptr hm => exact c _ rfl hm rfl
        | held => exact a _ _ rfl
      | iface a => cases hn with
        | held hm => exact a _ rfl hm rfl
    | method t' v' hm hma hv he =>
      obtain ⟨m, st, p, u, w⟩ := z
      dsimp only at hm hma hv; subst hm
      refine method_barred hre hma fun raw hr => ?_
      have key : h.marshal t' v' ≠ .ok raw := fun h => by rw [h] at he; exact fails_ok he
      cases hr with
      | value a _ _ b =>
        rcases hv with ⟨rfl, rfl, -⟩ | rfl
        · exact key b
        · exact a _ _ rfl
      | iface _ b =>
        rcases hv with ⟨rfl, rfl, a⟩ | hv
        · exact a _ _ rfl
        · cases hv; exact key b
    | compile hm hk he =>
      obtain ⟨m, st, p, u, w⟩ := z
      dsimp only at hm hk he; subst hm
      rcases hk with hs | ⟨e', hr, hi⟩
      · obtain ⟨id, hr⟩ := isStruct_iff.1 hs
        exact compile_barred hx (.struct (reached_held hre (by simp [World.isPtr, hr]) (by simp [World.isIface, hr])) hs) he
      · exact compile_barred hx (.slice (reached_held hre (by simp [World.isPtr, hr]) (by simp [World.isIface, hr])) hr hi) he
    | compileElem hm hr hv hi hn he =>
      obtain ⟨m, st, p, u, w⟩ := z
      dsimp only at hm hr hv hi; subst hm hv
      exact compile_barred hx (.map (reached_held hre (by simp [World.isPtr, hr]) (by simp [World.isIface, hr])) hr hn hi) he
    | deref _ h => exact (ends hw h).elim
    | derefStr _ _ h => exact (ends hw h).elim
    | @derefStrPtr e a _ hr hv _ h =>
      rw [hv] at hw
      exact (ends (within_part hw (.ptr hr)) h).elim

theorem basic_predeclared {u : Ty} {w : GV} {txt : Bytes} (hb : BasicText W u w txt) : Predeclared u := by
  cases hb with
  | true => exact .inl rfl
  | false => exact .inl rfl
  | int => exact .inr (.inl ⟨_, rfl⟩)
  | uint h => exact .inr (.inr (.inl ⟨_, rfl, h⟩))
  | f32 => exact .inr (.inr (.inr (.inl rfl)))
  | f64 => exact .inr (.inr (.inr (.inr rfl)))

theorem strField_predeclared {u u' : Ty} {w w' : GV} {d : Doc} (hs : StrFieldDoc W h u w d) (hi : W.isIface u = true) (hd : Deref W h u w (some (u', w'))) :
    Predeclared u' := by
  cases hs with
  | str hr => simp [World.isIface, hr] at hi
  | basic hb =>
    rcases basic_predeclared hb with h1 | ⟨k, h1⟩ | ⟨k, h1, _⟩ | h1 | h1 <;> simp [World.isIface, h1] at hi
  | ifaceNil _ h1 => cases deref_det hd h1
  | iface _ h1 hb => cases deref_det hd h1; exact basic_predeclared hb

/-- Nothing bars the way of what has a text. -/
theorem text_not_barred {tx : Bytes} (hg : MarshalGives W h (some (t, v)) (.ok tx)) : ¬ Barred W h t v := by
  obtain ⟨hs, he⟩ := marshalGives_ok_iff.1 hg
  have place : ∀ {m p u w}, GetsTo W h t v m p u w → ∃ st tx, EncC W h m st p u w tx := fun ha => by
    obtain ⟨st, tx, -, h1⟩ := encG_steps he ha
    exact ⟨st, tx, h1⟩
  have made : ∀ {r}, MadeFor W h t v r → Supported W r := by
    intro r hr
    cases hr with
    | top => exact hs
    | struct a b =>
      obtain ⟨st, tx, h1⟩ := place a
      obtain ⟨id, hr⟩ := isStruct_iff.1 b
      have fin : ∀ {w : GV} (o : Option (Ty × GV)), Deref W h _ w o → o = some (_, w) := fun o d => deref_done (struct_not hr).1 (struct_not hr).2.1 d
      cases h1 with
      | heldNil d => cases fin _ d
      | heldScalar d s => cases fin _ d; cases s <;> simp_all
      | heldConcreteSlice d r => cases fin _ d; rw [hr] at r; cases r
      | heldSliceNil d r => cases fin _ d; rw [hr] at r; cases r
      | heldSlice d r => cases fin _ d; rw [hr] at r; cases r
      | heldMapNil d r => cases fin _ d; rw [hr] at r; cases r
      | heldMap d r => cases fin _ d; rw [hr] at r; cases r
      | heldConcreteMap d r => cases fin _ d; rw [hr] at r; cases r
      | heldStruct d _ k => cases fin _ d; exact k
    | slice a hr c =>
      obtain ⟨st, tx, h1⟩ := place a
      have fin : ∀ {w : GV} (o : Option (Ty × GV)), Deref W h _ w o → o = some (_, w) := fun o d => deref_done (slice_not hr).1 (slice_not hr).2.1 d
      cases h1 with
      | heldNil d => cases fin _ d
      | heldScalar d s => cases fin _ d; cases s <;> simp_all
      | heldConcreteSlice d _ _ _ k => cases fin _ d; exact k
      | heldSliceNil d r i => cases fin _ d; rw [hr] at r; cases r; rw [c] at i; cases i
      | heldSlice d r i => cases fin _ d; rw [hr] at r; cases r; rw [c] at i; cases i
      | heldMapNil d r => cases fin _ d; rw [hr] at r; cases r
      | heldMap d r => cases fin _ d; rw [hr] at r; cases r
      | heldConcreteMap d r => cases fin _ d; rw [hr] at r; cases r
      | heldStruct d s => cases fin _ d; rw [(slice_not hr).2.2] at s; cases s
    | map a hr c m =>
      obtain ⟨st, tx, h1⟩ := place a
      have fin : ∀ {w : GV} (o : Option (Ty × GV)), Deref W h _ w o → o = some (_, w) := fun o d => deref_done (map_not hr).1 (map_not hr).2.1 d
      cases h1 with
      | heldNil d => cases fin _ d
      | heldScalar d s => cases fin _ d; cases s <;> simp_all
      | heldConcreteSlice d r => cases fin _ d; rw [hr] at r; cases r
      | heldSliceNil d r => cases fin _ d
      | heldSlice d r => cases fin _ d
      | heldMapNil d r => cases fin _ d
      | heldMap d r _ i => cases fin _ d; rw [hr] at r; cases r; rw [c] at i; cases i
      | heldConcreteMap d r _ _ _ hv k =>
        cases fin _ d; rw [hr] at r; cases r; subst hv
        exact k (List.ne_nil_of_mem m)
      | heldStruct d s => cases fin _ d; rw [(map_not hr).2.2] at s; cases s
  intro hb
  cases hb with
  | type a b c => obtain ⟨cf, s, h1⟩ := made a; exact compileE_faultless h1 b _ c
  | held a b c n =>
    obtain ⟨st, tx, h1⟩ := place a
    have fin : ∀ {w : GV} (o : Option (Ty × GV)), Deref W h _ w o → o = some (_, w) := fun o d => deref_done b c d
    refine n ?_
    cases h1 with
    | heldNil d => cases fin _ d
    | heldScalar d s =>
      cases fin _ d
      cases s with
      | bool h => exact .inr (.inl h)
      | int h => exact .inl (.inr (.inl ⟨_, h⟩))
      | uint h k => exact .inl (.inr (.inr ⟨_, h, k⟩))
      | f32 h => exact .inr (.inr (.inl h))
      | f64 h => exact .inr (.inr (.inr (.inl h)))
      | str h => exact .inl (.inl h)
    | heldConcreteSlice d r => cases fin _ d; exact .inr (.inr (.inr (.inr (.inl ⟨_, r⟩))))
    | heldSliceNil d r => cases fin _ d; exact .inr (.inr (.inr (.inr (.inl ⟨_, r⟩))))
    | heldSlice d r => cases fin _ d; exact .inr (.inr (.inr (.inr (.inl ⟨_, r⟩))))
    | heldMapNil d r => cases fin _ d; exact .inr (.inr (.inr (.inr (.inr (.inl ⟨_, _, r⟩)))))
    | heldMap d r => cases fin _ d; exact .inr (.inr (.inr (.inr (.inr (.inl ⟨_, _, r⟩)))))
    | heldConcreteMap d r => cases fin _ d; exact .inr (.inr (.inr (.inr (.inr (.inl ⟨_, _, r⟩)))))
    | heldStruct d s => cases fin _ d; exact .inr (.inr (.inr (.inr (.inr (.inr (isStruct_iff.1 s))))))
  | key a hr n =>
    obtain ⟨st, tx, h1⟩ := place a
    have fin : ∀ {w : GV} (o : Option (Ty × GV)), Deref W h _ w o → o = some (_, w) := fun o d => deref_done (map_not hr).1 (map_not hr).2.1 d
    have kk : ∀ {k}, KeyKind W k → EncKeyKind W k := fun h => by
      cases h with
      | int k h => exact .inr (.inl ⟨k, h⟩)
      | uint k h n => exact .inr (.inr ⟨k, h, n⟩)
      | str h => exact .inl h
    cases h1 with
    | heldNil d => cases fin _ d
    | heldScalar d s => cases fin _ d; cases s <;> simp_all
    | heldConcreteSlice d r => cases fin _ d; rw [hr] at r; cases r
    | heldSliceNil d r => cases fin _ d; rw [hr] at r; cases r
    | heldSlice d r => cases fin _ d; rw [hr] at r; cases r
    | heldMapNil d r k => cases fin _ d; rw [hr] at r; cases r; exact n (kk k)
    | heldMap d r k => cases fin _ d; rw [hr] at r; cases r; exact n (kk k)
    | heldConcreteMap d r k => cases fin _ d; rw [hr] at r; cases r; exact n (kk k)
    | heldStruct d s => cases fin _ d; rw [(map_not hr).2.2] at s; cases s
  | string a i d n =>
    obtain ⟨st, tx, h1⟩ := place a
    cases h1 with
    | fieldPtrNil r => exact iface_ptr_absurd i r
    | fieldStr _ s => exact n (strField_predeclared s i d)
    | fieldStrPtr r => exact iface_ptr_absurd i r
  | stringPtr a r i d n =>
    obtain ⟨st, tx, h1⟩ := place a
    cases h1 with
    | fieldStr p => rw [isPtr_iff.2 ⟨_, r⟩] at p; cases p
    | fieldStrPtr r' s => rw [r] at r'; cases r'; exact n (strField_predeclared s i d)
  | method a b c d =>
    obtain ⟨st, tx, h1⟩ := place a
    exact d _ (honours_marshaled h1 (marOf_iff.2 b) c)

end Verif

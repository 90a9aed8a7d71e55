import Verif.Proofs.EncOpen
import Verif.Props.EncCompile
import Verif.Props.Recursion
/-
Cyclic values (C28) and the end of Marshal on other values (C50). `Cyclic`, `OpenCyclic`, `Guarded` and `FiniteValue` speak of values only, through `Part` and
`Within`; `ArrayGuarded` of types only.
-/
namespace Verif
open Spec

/-! ### C28 -/

/-- C28 where the recursion checks guard all cycles: for a value with a cycle that no MarshalPHP method interrupts `Marshal` ends, and returns an error
unless a method panics. Missing: cycles that only lead over pointers to structs held in interfaces, pointers to interfaces, fields and array elements, see the
counterexamples; and array types that contain themselves, see C34_encoder_diverges. -/
theorem C28_guarded_partial (W : World) (h : Heap) (t : Ty) (v : GV) (hw : WellFormed W h t v) (hf : FiniteValue W h t v) (hs : SteadyMaps h)
    (ha : ∀ t' v', Within W h t v t' v' → ArrayGuarded W t') (hm : ∀ t v, h.marshal t v ≠ .diverge) (hg : Guarded W h t v) (hc : OpenCyclic W h t v) :
    (∃ e, MarshalGives W h (some (t, v)) (.err e)) ∨
    ∃ p t' v', MarshalGives W h (some (t, v)) (.panic p) ∧ Within W h t v t' v' ∧ HasMarshal W t' ∧
      (NilCall W t' v' ∨ h.marshal t' v' = .panic p ∨ ∃ dt dv, v' = .iface dt dv ∧ h.marshal dt dv = .panic p) := by
  obtain ⟨r, hr⟩ := marshal_ends hf hg hm fun t' v' hi => eends_of_guarded (ha t' v' hi)
  cases r with
  | ok tx => exact absurd hr (openCyclic_not_ok hs hc tx)
  | err e => exact .inl ⟨e, hr⟩
  | panic p =>
    obtain ⟨t', v', h1⟩ := C49_panics W h t v hw p hr
    exact .inr ⟨p, t', v', hr, h1⟩
  | diverge => exact absurd rfl hr.1

/-- The same for values without methods: there every cycle counts, and `Marshal` returns an error. -/
theorem C28_no_methods_partial (W : World) (h : Heap) (t : Ty) (v : GV) (hw : WellFormed W h t v) (hf : FiniteValue W h t v) (hs : SteadyMaps h)
    (hn : ∀ t' v', Within W h t v t' v' → ¬ HasMarshal W t') (ha : ∀ t' v', Within W h t v t' v' → ArrayGuarded W t') (hm : ∀ t v, h.marshal t v ≠ .diverge)
    (hg : Guarded W h t v) (hc : Cyclic W h t v) : ∃ e, MarshalGives W h (some (t, v)) (.err e) := by
  rcases C28_guarded_partial W h t v hw hf hs ha hm hg (openCyclic_of hn hc) with he | ⟨p, t', v', -, h1, h2, -⟩
  · exact he
  · exact absurd h2 (hn t' v' h1)

/-- C28, the half that holds of all cyclic values: `Marshal` never returns a text for a value with a cycle that no MarshalPHP method interrupts. -/
theorem C28_no_text_partial (W : World) (h : Heap) (t : Ty) (v : GV) (hs : SteadyMaps h) (hc : OpenCyclic W h t v) (tx : Bytes) :
    ¬ MarshalGives W h (some (t, v)) (.ok tx) :=
  openCyclic_not_ok hs hc tx

namespace Demo

/-- A node of a list that points to itself, and one that holds a pointer to itself in an interface; an interface variable that holds its own
address. -/
def heapC : Heap where
  deref := fun
    | .struct 1, 1 => .struct [.ptr 1, .int 9]
    | .struct 3, 1 => .struct [.iface (.ptr (.struct 3)) (.ptr 1)]
    | .any, 2 => .iface (.ptr .any) (.ptr 2)
    | _, _ => .int 0
  elems := fun _ _ _ => []
  iter := fun _ _ _ _ => []
  marshal := fun _ _ => .ok []

/-- The values in the list. -/
def InC (t : Ty) (v : GV) : Prop :=
  (t = .ptr (.struct 1) ∧ v = .ptr 1) ∨ (t = .struct 1 ∧ v = .struct [.ptr 1, .int 9]) ∨ (t = .int .int ∧ v = .int 9)

theorem inC_part (t : Ty) (v : GV) (t' : Ty) (v' : GV) (hs : InC t v) (hp : Part W heapC t v t' v') : InC t' v' := by
  rcases hs with ⟨rfl, rfl⟩ | ⟨rfl, rfl⟩ | ⟨rfl, rfl⟩
  · cases hp with
    | ptr hr => cases hr; exact .inr (.inl ⟨rfl, rfl⟩)
  · cases hp with
    | @field id vs f _ i hr h2 h3 h4 h5 =>
      cases hr
      rcases i with _ | _ | i
      · cases h2; cases h3; exact .inl ⟨rfl, rfl⟩
      · cases h2; cases h3; exact .inr (.inr ⟨rfl, rfl⟩)
      · simp at h3
  · cases hp

theorem inC_within {t : Ty} {v : GV} (hw : Within W heapC (.ptr (.struct 1)) (.ptr 1) t v) : InC t v := closed_within inC_part (.inl ⟨rfl, rfl⟩) hw

theorem noKey {f : Field} (h : (structTag W f).key ≠ [45]) : ¬ HasKey W f [45] := fun ⟨_, _, hk⟩ => h (tagMeaning_iff.1 hk).1.symm

theorem cyclicC : Cyclic W heapC (.ptr (.struct 1)) (.ptr 1) :=
  ⟨_, _, .refl, _, _, .ptr rfl, .step (.field (i := 0) rfl rfl rfl rfl (noKey (by decide))) .refl⟩

/-- On the way from a node to itself there is a pointer to a struct that is not held in an interface. -/
theorem guardedC : Guarded W heapC (.ptr (.struct 1)) (.ptr 1) := by
  intro t v hw hu
  have hp : ∀ t v t' v', InC t v → Unguarded W heapC t v t' v' → (t = .struct 1 ∧ t' ≠ .struct 1) := by
    intro t v t' v' hs hu
    rcases hs with ⟨rfl, rfl⟩ | ⟨rfl, rfl⟩ | ⟨rfl, rfl⟩
    · cases hu with
      | ptr hr hn => cases hr; cases hn
    · cases hu with
      | @field id vs f _ i hr h2 h3 h4 h5 =>
        cases hr
        rcases i with _ | _ | i
        · cases h2; exact ⟨rfl, by simp⟩
        · cases h2; exact ⟨rfl, by simp⟩
        · simp at h3
    · cases hu
  have hs := inC_within hw
  cases hu with
  | one a => obtain ⟨h1, h2⟩ := hp _ _ _ _ hs a; exact h2 h1
  | step a b =>
    obtain ⟨h1, h2⟩ := hp _ _ _ _ hs a
    have hs' := closed_within inC_part hs (unguarded_within a)
    cases b with
    | one c => exact h2 (hp _ _ _ _ hs' c).1
    | step c => exact h2 (hp _ _ _ _ hs' c).1

theorem list_guarded {t : Ty} (ht : t = .slice (.ptr (.struct 1)) ∨ t = .ptr (.struct 1) ∨ t = .struct 1 ∨ t = .int .int) : ArrayGuarded W t := by
  have key : ∀ t', EncReach W t t' → t' = .slice (.ptr (.struct 1)) ∨ t' = .struct 1 ∨ t' = .ptr (.struct 1) ∨ t' = .int .int := by
    intro t' h
    induction h with
    | refl => rcases ht with rfl | rfl | rfl | rfl <;> simp
    | step _ hc ih =>
      rcases ih with rfl | rfl | rfl | rfl
      · cases hc with
        | slice h => cases h; simp
        | ptr h => cases h
        | array h => cases h
        | mapVal h => cases h
        | field h => cases h
      · exact .inr (demo_list_reach _ (.step .refl hc))
      · exact .inr (demo_list_reach _ (.step (.step .refl (.field (id := 1) rfl
          (f := ⟨[78, 101, 120, 116], [110, 101, 120, 116], true, false, .ptr (.struct 1)⟩) (by simp [W, fields]))) hc))
      · exact .inr (demo_list_reach _ (.step (.step .refl (.field (id := 1) rfl (f := ⟨[78], [110], true, false, .int .int⟩) (by simp [W, fields]))) hc))
  refine ⟨[.struct 1, .slice (.ptr (.struct 1))], fun _ => 0, fun t' h hc => ?_, fun _ _ _ _ => Nat.le_refl _, fun t' n e h hr => ?_⟩
  · rcases key t' h with rfl | rfl | rfl | rfl
    · simp
    · simp
    · simp [Collected, World.resolve] at hc
    · simp [Collected, World.resolve] at hc
  · rcases key t' h with rfl | rfl | rfl | rfl <;> cases hr

end Demo

-- a node that points to itself
example : ∃ e, MarshalGives Demo.W Demo.heapC (some (.ptr (.struct 1), .ptr 1)) (.err e) := by
  refine C28_no_methods_partial _ _ _ _ (fun t v hw => ?_) ⟨[(.ptr (.struct 1), .ptr 1), (.struct 1, .struct [.ptr 1, .int 9]), (.int .int, .int 9)], fun t v hw => ?_⟩
    (fun _ _ _ _ _ _ _ hm => by simp [Demo.heapC] at hm) (fun t v _ => marOf_false_iff.1 (Demo.noMarshaler t)) (fun t v hw => ?_) (by simp [Demo.heapC]) Demo.guardedC Demo.cyclicC
  · rcases Demo.inC_within hw with ⟨rfl, rfl⟩ | ⟨rfl, rfl⟩ | ⟨rfl, rfl⟩
    · exact .ptr rfl
    · exact .struct rfl rfl
    · exact .int rfl
  · rcases Demo.inC_within hw with ⟨rfl, rfl⟩ | ⟨rfl, rfl⟩ | ⟨rfl, rfl⟩ <;> simp
  · rcases Demo.inC_within hw with ⟨rfl, rfl⟩ | ⟨rfl, rfl⟩ | ⟨rfl, rfl⟩ <;> exact Demo.list_guarded (by simp)

/-- A world where the numbers in the list have the method MarshalPHP, and so have lists of lists. -/
def Demo.WCM : World := { Demo.W with
  named := fun | 10 => ⟨.int .int, false, .value⟩ | 11 => ⟨.slice (.ptr (.struct 1)), false, .value⟩ | i => Demo.named i
  fields := fun | 1 => [⟨[78, 101, 120, 116], [110, 101, 120, 116], true, false, .ptr (.struct 1)⟩, ⟨[78], [110], true, false, .named 10⟩] | i => Demo.fields i }

-- a node that points to itself and holds a value with a method
example (tx : Bytes) : ¬ MarshalGives Demo.WCM Demo.heapC (some (.ptr (.struct 1), .ptr 1)) (.ok tx) := by
  have h1 : ¬ HasMarshal Demo.WCM (.ptr (.struct 1)) := fun h => nomatch h
  have h2 : ¬ HasMarshal Demo.WCM (.struct 1) := fun h => nomatch h
  refine C28_no_text_partial _ _ _ _ (fun _ _ _ _ _ _ _ hm => by simp [Demo.heapC] at hm) ⟨_, _, .refl, _, _, .ptr rfl, h1,
    .step (.field (i := 0) (f := ⟨[78, 101, 120, 116], [110, 101, 120, 116], true, false, .ptr (.struct 1)⟩) (vs := [.ptr 1, .int 9]) rfl rfl rfl rfl
      (fun ⟨_, _, hk⟩ => absurd (tagMeaning_iff.1 hk).1.symm (by decide))) h2 .refl⟩ tx

namespace Demo

theorem andThen_diverges {α β : Type} {r : ER α} (k : Ctx → α → ER β) (hr : r.2 = .diverge) : (andThen r k).2 = .diverge := by
  obtain ⟨c, r⟩ := r
  cases hr; rfl

/-- The node that holds a pointer to itself. -/
abbrev loopNode : GV := .struct [.iface (.ptr (.struct 3)) (.ptr 1)]

/-- It is encoded for ever. -/
theorem node_diverges (cf f : Nat) : ∀ p c b, ((encF W heapC cf f).comp p (.struct 3) c b loopNode).2 = .diverge := by
  induction f using Nat.strongRecOn with
  | ind f ih =>
    intro p c b
    rcases f with _ | _ | _ | _ | _ | f
    · rfl
    · rfl
    · rfl
    · rfl
    · rfl
    · have h1 := ih (f + 2) (by omega) (0 :: p) c (appendString [] (b! "any"))
      rcases cf with _ | _ | cf
      · rfl
      · rfl
      · exact andThen_diverges _ (andThen_diverges _ h1)

theorem check_diverges {enc : Ctx → Bytes → ER Bytes} {a : Nat} {b : Bytes} (he : ∀ c b, (enc c b).2 = .diverge) : (checkRecursive enc a Ctx.clean b).2 = .diverge := by
  unfold checkRecursive
  simp only [Ctx.clean, List.contains_nil, Bool.and_false, Bool.false_eq_true, if_false]
  split
  · rename_i h1; have := he _ _ ▸ congrArg Prod.snd h1; cases this
  · rename_i h1; have := he _ _ ▸ congrArg Prod.snd h1; cases this
  · rename_i c' r _ _ h1; have := (he _ _).symm.trans (congrArg Prod.snd h1); exact this.symm

theorem var_diverges (f : Nat) : derefAll W heapC f (.ptr .any) (.ptr 2) = .diverge := by
  induction f using Nat.strongRecOn with
  | ind f ih =>
    rcases f with _ | _ | f
    · rfl
    · rfl
    · exact ih f (by omega)

end Demo

/-- C28 is false of cycles over interfaces: with `type N struct { Any any }` and `n := &N{}; n.Any = n` the call `Marshal(n)` never returns, whatever
fuel the model is given (in Go the stack overflows, which cannot be recovered from). -/
theorem C28_held_counterexample : Cyclic Demo.W Demo.heapC (.ptr (.struct 3)) (.ptr 1) ∧
    ∀ cf f, (marshal Demo.W Demo.heapC cf f Ctx.clean (some (.ptr (.struct 3), .ptr 1))).2 = .diverge := by
  refine ⟨⟨_, _, .refl, _, _, .ptr rfl, .step (.field (i := 0) rfl rfl rfl rfl (Demo.noKey (by decide))) (.step (.iface rfl) .refl)⟩, fun cf f => ?_⟩
  rcases cf with _ | _ | cf
  · rfl
  · rfl
  · rcases f with _ | _ | _ | _ | _ | f
    · rfl
    · rfl
    · rfl
    · rfl
    · rfl
    · exact Demo.check_diverges (enc := fun c b => encodeKind Demo.W Demo.heapC (f + 4) (encF Demo.W Demo.heapC (cf + 2) (f + 4)) [] (.struct 3) c b Demo.loopNode)
        fun c b => Demo.andThen_diverges _ (Demo.andThen_diverges _ (Demo.node_diverges (cf + 2) (f + 2) [0] c _))

/-- C28 is false of pointers to interfaces: after `var x any; x = &x` the call `Marshal(x)` never returns. -/
theorem C28_pointer_counterexample : Cyclic Demo.W Demo.heapC (.ptr .any) (.ptr 2) ∧
    ∀ cf f c, (marshal Demo.W Demo.heapC cf f c (some (.ptr .any, .ptr 2))).2 = .diverge := by
  refine ⟨⟨_, _, .refl, _, _, .ptr rfl, .step (.iface rfl) .refl⟩, fun cf f c => ?_⟩
  rcases cf with _ | cf
  · rfl
  · rcases f with _ | _ | f
    · rfl
    · rfl
    · exact Demo.andThen_diverges _ (r := (c, derefAll Demo.W Demo.heapC (f + 1) (.ptr .any) (.ptr 2))) (Demo.var_diverges (f + 1))

/-! ### C50 -/

/-- C50: `Marshal` ends on every finite acyclic value, if its MarshalPHP methods end and no array type in it contains itself. -/
theorem C50_ends (W : World) (h : Heap) (t : Ty) (v : GV) (hf : FiniteValue W h t v) (hc : Acyclic W h t v) (ha : ∀ t' v', Within W h t v t' v' → ArrayGuarded W t')
    (hm : ∀ t v, h.marshal t v ≠ .diverge) : ∃ r, MarshalGives W h (some (t, v)) r :=
  marshal_ends hf (guarded_of_acyclic hc) hm fun t' v' hi => eends_of_guarded (ha t' v' hi)

-- a slice of two pointers to the same node
example : ∃ r, MarshalGives Demo.W Demo.heapS (some (.slice (.ptr (.struct 1)), .slice 1 2)) r := by
  refine C50_ends _ _ _ _ ⟨[(.slice (.ptr (.struct 1)), .slice 1 2), (.ptr (.struct 1), .ptr 3001), (.ptr (.struct 1), .ptrNil), (.struct 1, .struct [.ptrNil, .int 2]),
    (.int .int, .int 2)], fun t v hw => ?_⟩ (acyclic_of_rank (S := Demo.Shared) (fun _ v => Demo.rankS v) Demo.shared_part (by simp [Demo.Shared])) (fun t v hw => ?_)
    (by simp [Demo.heapS, Demo.heap])
  · rcases Demo.shared_within hw with ⟨rfl, rfl⟩ | ⟨rfl, rfl | rfl⟩ | ⟨rfl, rfl⟩ | ⟨rfl, rfl⟩ <;> simp
  · have : t = .slice (.ptr (.struct 1)) ∨ t = .ptr (.struct 1) ∨ t = .struct 1 ∨ t = .int .int := by
      rcases Demo.shared_within hw with ⟨rfl, rfl⟩ | ⟨rfl, rfl | rfl⟩ | ⟨rfl, rfl⟩ | ⟨rfl, rfl⟩ <;> simp
    exact Demo.list_guarded this

end Verif

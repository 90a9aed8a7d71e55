import Verif.Proofs.Obstacle
import Verif.Props.Cycles
/-
C88: `Marshal` returns an error only for listed obstacles in the value or for recursion, and a text if there is nothing of the kind. `Obstacle`, `HeldIn`,
`Root` and `Within` (Spec/Obstacle.lean, Spec/Values.lean) speak of types and values only.
-/
namespace Verif
open Spec Demo

/-- C88: every error of `Marshal` is that about recursion (C28, C29) or has an obstacle in the value: a fault of the type of the value or of one held in an
interface, something held in an interface that cannot be written, or a method that returned this very error. -/
theorem C88_errors (W : World) (h : Heap) (t : Ty) (v : GV) (e : Err) (hw : WellFormed W h t v) (hg : MarshalGives W h (some (t, v)) (.err e)) :
    e = .recursive ∨ Obstacle W h t v e := by
  obtain ⟨-, n, hn⟩ := hg
  exact marshal_obstacle hw (hn n n (Nat.le_refl _) (Nat.le_refl _))

/-- C88 for values without interfaces and methods: if their type is supported, only recursion is reported. -/
theorem C88_plain (W : World) (h : Heap) (t : Ty) (v : GV) (e : Err) (hw : WellFormed W h t v) (hs : Supported W t)
    (hi : ∀ t' v', Within W h t v t' v' → W.isIface t' = false) (hm : ∀ t' v', Within W h t v t' v' → ¬ HasMarshal W t')
    (hg : MarshalGives W h (some (t, v)) (.err e)) : e = .recursive := by
  have hh : ∀ u w, ¬ HeldIn W h t v u w := fun u w ⟨ti, dt, dv, h1, h2, _⟩ => by rw [hi _ _ h2] at h1; cases h1
  rcases C88_errors W h t v e hw hg with h1 | h1
  · exact h1
  · exfalso
    cases h1 with
    | type s hr ho hx =>
      cases hr with
      | top => obtain ⟨cf, _, hc⟩ := hs; exact compileE_faultless hc ho _ hx
      | struct h1 => exact hh _ _ h1
      | slice h1 => exact hh _ _ h1
      | map h1 => exact hh _ _ h1
    | held h1 => exact hh _ _ h1
    | key h1 => exact hh _ _ h1
    | string h1 h2 =>
      obtain ⟨s, id, vs, f, i, a, b, c, d, e, _, rfl⟩ := h1
      rw [hi _ _ (within_part a (shown_part b c d e))] at h2; cases h2
    | stringPtr h1 h2 h3 =>
      obtain ⟨s, id, vs, f, i, a, b, c, d, e, _, rfl⟩ := h1
      rw [hi _ _ (within_part (within_part a (shown_part b c d e)) (.ptr h2))] at h3; cases h3
    | method h1 h2 => exact hm _ _ h1 h2

/-- C88 and C28: a cyclic value without interfaces and methods is reported as recursive, if its type is supported and every cycle in it has a place where
`Marshal` looks for recursion. -/
theorem C88_cyclic (W : World) (h : Heap) (t : Ty) (v : GV) (hw : WellFormed W h t v) (hf : FiniteValue W h t v) (hm : SteadyMaps h) (hs : Supported W t)
    (hi : ∀ t' v', Within W h t v t' v' → W.isIface t' = false) (hn : ∀ t' v', Within W h t v t' v' → ¬ HasMarshal W t')
    (ha : ∀ t' v', Within W h t v t' v' → ArrayGuarded W t') (hd : ∀ t v, h.marshal t v ≠ .diverge) (hg : Guarded W h t v) (hc : Cyclic W h t v) :
    MarshalGives W h (some (t, v)) (.err .recursive) := by
  obtain ⟨e, he⟩ := C28_no_methods_partial W h t v hw hf hm hn ha hd hg hc
  rw [C88_plain W h t v e hw hs hi hn he] at he
  exact he

-- a node that points to itself
example : MarshalGives Demo.W Demo.heapC (some (.ptr (.struct 1), .ptr 1)) (.err .recursive) := by
  refine C88_cyclic _ _ _ _ (fun t v hw => ?_) ⟨[(.ptr (.struct 1), .ptr 1), (.struct 1, .struct [.ptr 1, .int 9]), (.int .int, .int 9)], fun t v hw => ?_⟩
    (fun _ _ _ _ _ _ _ hm => by simp [Demo.heapC] at hm) ⟨9, _, by rfl⟩ (fun t v hw => ?_) (fun t v _ => marOf_false_iff.1 (Demo.noMarshaler t))
    (fun t v hw => ?_) (by simp [Demo.heapC]) Demo.guardedC Demo.cyclicC
  · rcases Demo.inC_within hw with ⟨rfl, rfl⟩ | ⟨rfl, rfl⟩ | ⟨rfl, rfl⟩
    · exact .ptr rfl
    · exact .struct rfl rfl
    · exact .int rfl
  · rcases Demo.inC_within hw with ⟨rfl, rfl⟩ | ⟨rfl, rfl⟩ | ⟨rfl, rfl⟩ <;> simp
  · rcases Demo.inC_within hw with ⟨rfl, rfl⟩ | ⟨rfl, rfl⟩ | ⟨rfl, rfl⟩ <;> rfl
  · rcases Demo.inC_within hw with ⟨rfl, rfl⟩ | ⟨rfl, rfl⟩ | ⟨rfl, rfl⟩ <;> exact Demo.list_guarded (by simp)

/-- C88: `Marshal` returns a text for every finite acyclic value without obstacles whose methods return, if addresses tell its parts apart, slices of other
things than interfaces are held in interfaces at less than 1000 levels only, and no array type in it contains itself. -/
theorem C88_succeeds (W : World) (h : Heap) (t : Ty) (v : GV) (hw : WellFormed W h t v) (hf : FiniteValue W h t v) (hc : Acyclic W h t v)
    (ht : AddressesTell W h t v) (hs : ShallowHeld W h t v) (ha : ∀ t' v', Within W h t v t' v' → ArrayGuarded W t')
    (hd : ∀ t v, h.marshal t v ≠ .diverge) (hr : ∀ t v, h.marshal t v ≠ .err .recursive)
    (hp : ∀ t' v', Within W h t v t' v' → HasMarshal W t' → ¬ NilCall W t' v' ∧ (∀ p, h.marshal t' v' ≠ .panic p) ∧
      ∀ dt dv, v' = .iface dt dv → ∀ p, h.marshal dt dv ≠ .panic p)
    (ho : ∀ e, ¬ Obstacle W h t v e) : ∃ tx, MarshalGives W h (some (t, v)) (.ok tx) := by
  obtain ⟨r, hg⟩ := C50_ends W h t v hf hc ha hd
  cases r with
  | ok tx => exact ⟨tx, hg⟩
  | err e =>
    rcases C88_errors W h t v e hw hg with rfl | h1
    · exact absurd hg (C29_acyclic_partial W h t v hr hc ht hs)
    · exact absurd h1 (ho e)
  | panic p =>
    obtain ⟨t', v', h1, h2, h3⟩ := C49_panics W h t v hw p hg
    obtain ⟨h4, h5, h6⟩ := hp t' v' h1 h2
    rcases h3 with h3 | h3 | ⟨dt, dv, h3, h7⟩
    · exact absurd h3 h4
    · exact absurd h3 (h5 p)
    · exact absurd h7 (h6 dt dv h3 p)
  | diverge => exact absurd rfl hg.1

namespace Demo

/-- The values in `[]any{1}`. -/
def InObs (t : Ty) (v : GV) : Prop :=
  (t = .slice .any ∧ v = .slice 1700 1) ∨ (t = .any ∧ v = .iface (.int .int) (.int 1)) ∨ (t = .int .int ∧ v = .int 1)

def rankObs : GV → Nat
  | .slice _ _ => 2
  | .iface _ _ => 1
  | _ => 0

theorem inObs_part (t : Ty) (v : GV) (t' : Ty) (v' : GV) (hs : InObs t v) (hp : Part W heapA t v t' v') : InObs t' v' ∧ rankObs v' < rankObs v := by
  rcases hs with ⟨rfl, rfl⟩ | ⟨rfl, rfl⟩ | ⟨rfl, rfl⟩
  · cases hp with
    | slice hr hm =>
      cases hr
      have : v' = .iface (.int .int) (.int 1) := by simpa [heapA] using hm
      subst this
      exact ⟨by simp [InObs], by simp [rankObs]⟩
  · cases hp; exact ⟨by simp [InObs], by simp [rankObs]⟩
  · cases hp

theorem inObs_within {t : Ty} {v : GV} (hw : Within W heapA (.slice .any) (.slice 1700 1) t v) : InObs t v :=
  closed_within (fun t v t' v' a b => (inObs_part t v t' v' a b).1) (by simp [InObs]) hw

theorem inObs_held {t : Ty} {v : GV} (hh : HeldIn W heapA (.slice .any) (.slice 1700 1) t v) : t = .int .int ∧ v = .int 1 := by
  obtain ⟨ti, dt, dv, h1, h2, h3⟩ := hh
  rcases inObs_within h2 with ⟨rfl, h⟩ | ⟨rfl, h⟩ | ⟨rfl, h⟩ <;> cases h
  cases h3 with
  | refl => exact ⟨rfl, rfl⟩

theorem inObs_clear (e : Err) : ¬ Obstacle W heapA (.slice .any) (.slice 1700 1) e := by
  intro ho
  cases ho with
  | type s hr ho hx =>
    cases hr with
    | top => exact compileE_faultless (W := W) (f := 9) (t := .slice .any) (by rfl) ho _ hx
    | struct h1 h2 => obtain ⟨rfl, -⟩ := inObs_held h1; cases h2
    | slice h1 h2 => obtain ⟨rfl, -⟩ := inObs_held h1; cases h2
    | map h1 h2 => obtain ⟨rfl, -⟩ := inObs_held h1; cases h2
  | held h1 _ _ h2 => obtain ⟨rfl, -⟩ := inObs_held h1; exact h2 (.inl (.inr (.inl ⟨_, rfl⟩)))
  | key h1 h2 => obtain ⟨rfl, -⟩ := inObs_held h1; cases h2
  | string h1 =>
    obtain ⟨s, id, vs, f, i, a, b, -⟩ := h1
    rcases inObs_within a with ⟨rfl, h⟩ | ⟨rfl, h⟩ | ⟨rfl, h⟩ <;> cases b
  | stringPtr h1 =>
    obtain ⟨s, id, vs, f, i, a, b, -⟩ := h1
    rcases inObs_within a with ⟨rfl, h⟩ | ⟨rfl, h⟩ | ⟨rfl, h⟩ <;> cases b
  | method h1 h2 =>
    have := marOf_iff.2 h2
    rw [noMarshaler] at this; cases this

theorem inObs_guarded {t : Ty} {v : GV} (hi : InObs t v) : ArrayGuarded W t := by
  have key : ∀ u, EncReach W t u → u = .slice .any ∨ u = .any ∨ u = .int .int := by
    intro u hu
    induction hu with
    | refl => rcases hi with ⟨rfl, -⟩ | ⟨rfl, -⟩ | ⟨rfl, -⟩ <;> simp
    | step _ hc ih =>
      rcases ih with rfl | rfl | rfl
      · cases hc with
        | slice h => cases h; simp
        | _ h => cases h
      · cases hc with | _ h => cases h
      · cases hc with | _ h => cases h
  refine ⟨[.slice .any], fun _ => 0, fun u h hc => ?_, fun _ _ _ _ => Nat.le_refl _, fun u n e h hr => ?_⟩
  · rcases key u h with rfl | rfl | rfl
    · simp
    · simp [Collected, World.resolve] at hc
    · simp [Collected, World.resolve] at hc
  · rcases key u h with rfl | rfl | rfl <;> cases hr

end Demo

namespace Demo

theorem inObs_form : WellFormed W heapA (.slice .any) (.slice 1700 1) := fun t v hw => by
  rcases inObs_within hw with ⟨rfl, rfl⟩ | ⟨rfl, rfl⟩ | ⟨rfl, rfl⟩
  · exact .slice rfl
  · exact .iface rfl
  · exact .int rfl

theorem inObs_finite : FiniteValue W heapA (.slice .any) (.slice 1700 1) :=
  ⟨[(.slice .any, .slice 1700 1), (.any, .iface (.int .int) (.int 1)), (.int .int, .int 1)], fun t v hw => by
    rcases inObs_within hw with ⟨rfl, rfl⟩ | ⟨rfl, rfl⟩ | ⟨rfl, rfl⟩ <;> simp⟩

theorem inObs_tell : AddressesTell W heapA (.slice .any) (.slice 1700 1) := by
  intro t1 v1 t2 v2 a h1 h2 h3 h4
  exfalso
  have h5 := inObs_within (within_trans h1 (h2.elim fun _ x => x.elim fun _ y => .step y.1 y.2))
  have h6 := inObs_within h1
  obtain ⟨t3, v3, h7, h8⟩ := h2
  have h9 := inObs_part _ _ _ _ h6 h7
  have h10 : rankObs v2 ≤ rankObs v3 := by
    have h11 := h9.1
    clear h9 h7 h5 h4
    induction h8 with
    | refl => exact Nat.le_refl _
    | step a _ ih => have := inObs_part _ _ _ _ h11 a; have := ih this.1; omega
  have h11 : rankObs v2 < 2 := by
    have : rankObs v1 ≤ 2 := by rcases h6 with ⟨-, rfl⟩ | ⟨-, rfl⟩ | ⟨-, rfl⟩ <;> simp [rankObs]
    omega
  rcases h5 with ⟨rfl, rfl⟩ | ⟨rfl, rfl⟩ | ⟨rfl, rfl⟩
  · simp [rankObs] at h11
  · cases h4 with | _ h => cases h
  · cases h4 with | _ h => cases h

theorem inObs_shallow : ShallowHeld W heapA (.slice .any) (.slice 1700 1) := by
  rintro n t v e ⟨ti, dt, dv, h1, h2, h3⟩ h4 -
  rcases inObs_within (below_within h2) with ⟨rfl, h⟩ | ⟨rfl, h⟩ | ⟨rfl, h⟩ <;> cases h
  cases h3 with
  | done => cases h4

end Demo

-- `[]any{1}` meets the hypotheses
example : ∃ tx, MarshalGives Demo.W Demo.heapA (some (.slice .any, .slice 1700 1)) (.ok tx) := by
  have nomar : ∀ t, ¬ HasMarshal Demo.W t := fun t h2 => by have := marOf_iff.2 h2; rw [noMarshaler] at this; cases this
  exact C88_succeeds _ _ _ _ inObs_form inObs_finite
    (acyclic_of_rank (S := Demo.InObs) (fun _ v => Demo.rankObs v) Demo.inObs_part (by simp [Demo.InObs])) inObs_tell inObs_shallow
    (fun t v hw => inObs_guarded (inObs_within hw)) (by simp [Demo.heapA]) (by simp [Demo.heapA]) (fun t v _ h2 => absurd h2 (nomar t)) inObs_clear

namespace Demo

/-- Struct 0 has a field of type any with the option `string`. -/
def WO : World := { W with fields := fun | 0 => [⟨b! "A", b! "a,string", true, false, .any⟩] | _ => [] }

end Demo

/-- Obstacles that the types do not show: an array in an interface; and with the option `string` a string in an interface, though a field of type string may
have this option (interface.go:89-119, compile.go:66-85). -/
theorem C88_held_witness :
    (MarshalGives Demo.WO Demo.heapA (some (.array 1 .any, .arr [.iface (.array 1 .bool) (.arr [.bool true])])) (.err (.unsupported "interface value")) ∧
      Obstacle Demo.WO Demo.heapA (.array 1 .any) (.arr [.iface (.array 1 .bool) (.arr [.bool true])]) (.unsupported "interface value")) ∧
    (MarshalGives Demo.WO Demo.heapA (some (.struct 0, .struct [.iface .str (.str (b! "x"))])) (.err (.unsupported "as string")) ∧
      Obstacle Demo.WO Demo.heapA (.struct 0) (.struct [.iface .str (.str (b! "x"))]) (.unsupported "as string")) ∧
    MarshalGives Demo.WO Demo.heapA (some (.struct 0, .struct [.iface (.int .int) (.int 7)])) (.ok (b! "a:1:{s:1:\"a\";s:1:\"7\";}")) := by
  refine ⟨⟨marshalGives_of (cf := 9) (f := 9) (by simp) (by rfl), ?_⟩, ⟨marshalGives_of (cf := 9) (f := 9) (by simp) (by rfl), ?_⟩,
    marshalGives_of (cf := 9) (f := 9) (by simp) (by rfl)⟩
  · refine .held (u := .array 1 .bool) ⟨.any, _, _, rfl, .step (.array rfl (List.mem_cons_self ..)) .refl, .refl⟩ rfl rfl ?_
    simp [HeldKind, EncKeyKind, World.resolve]
  · refine .string (u := .any) ⟨.struct 0, 0, _, ⟨b! "A", b! "a,string", true, false, .any⟩, 0, .refl, rfl, rfl, rfl, ?_, ?_, rfl⟩ rfl
      (.iface rfl (.done rfl rfl)) (by simp [Predeclared])
    · exact ⟨rfl, _, _, _, tagMeaning_iff.2 ⟨rfl, Iff.rfl, Iff.rfl⟩, by decide, fun x => absurd x.1 (by decide)⟩
    · rw [hasString_iff]; decide

-- an array in an interface meets the hypotheses of C88_errors
example : WellFormed Demo.WO Demo.heapA (.array 1 .any) (.arr [.iface (.array 1 .bool) (.arr [.bool true])]) ∧
    MarshalGives Demo.WO Demo.heapA (some (.array 1 .any, .arr [.iface (.array 1 .bool) (.arr [.bool true])])) (.err (.unsupported "interface value")) := by
  refine ⟨fun t v hw => ?_, C88_held_witness.1.1⟩
  have h1 : (t = .array 1 .any ∧ v = .arr [.iface (.array 1 .bool) (.arr [.bool true])]) ∨ (t = .any ∧ v = .iface (.array 1 .bool) (.arr [.bool true])) ∨
      (t = .array 1 .bool ∧ v = .arr [.bool true]) ∨ (t = .bool ∧ v = .bool true) := by
    refine closed_within (W := Demo.WO) (h := Demo.heapA) (S := fun t v => (t = .array 1 .any ∧ v = .arr [.iface (.array 1 .bool) (.arr [.bool true])]) ∨
      (t = .any ∧ v = .iface (.array 1 .bool) (.arr [.bool true])) ∨ (t = .array 1 .bool ∧ v = .arr [.bool true]) ∨ (t = .bool ∧ v = .bool true))
      (fun t v t' v' hs hp => ?_) (.inl ⟨rfl, rfl⟩) hw
    rcases hs with ⟨rfl, rfl⟩ | ⟨rfl, rfl⟩ | ⟨rfl, rfl⟩ | ⟨rfl, rfl⟩
    · cases hp with | array hr hm => cases hr; simp at hm; simp [hm]
    · cases hp; simp
    · cases hp with | array hr hm => cases hr; simp at hm; simp [hm]
    · cases hp
  rcases h1 with ⟨rfl, rfl⟩ | ⟨rfl, rfl⟩ | ⟨rfl, rfl⟩ | ⟨rfl, rfl⟩
  · exact .arr rfl rfl
  · exact .iface rfl
  · exact .arr rfl rfl
  · exact .bool rfl

end Verif

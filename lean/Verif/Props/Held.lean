import Verif.Proofs.Held
import Verif.Props.Recursion
import Verif.Props.Parts
/-
Values in interfaces (C37). The value `v` of type `t` is the only element of a list of type `[]any` at address `a`;
`oneText tx` is the text of a list whose only element has the text `tx`.
-/
namespace Verif
open Spec

theorem supported_anys {W : World} : Supported W (.slice .any) := ⟨2, _, rfl⟩

theorem arrText_one (tx : Nat → Bytes) : arrText 1 idxDoc tx = oneText (tx 0) := by
  simp [arrText, bodyText, idxDoc, oneText, Doc.text, natText, natTextF]

/-- The list in memory and its element. -/
theorem encT_one {W : World} {h : Heap} {t : Ty} {v : GV} {a : Nat} {tx : Bytes} (he : h.elems .any a 1 = [.iface t v]) :
    EncT W h .typed [] [] (.slice .any) (.slice a 1) tx ↔ ∃ tx', tx = oneText tx' ∧ EncT W h .held [] [0] t v tx' := by
  constructor
  · intro hx
    have hk := kind_of_typed (W := W) rfl rfl (by simp) hx
    cases hk with
    | scalar b => cases b
    | slice a b c d =>
      cases a
      rw [he] at c; subst c
      refine ⟨_, arrText_one _, ?_⟩
      have := kind_of_typed (W := W) (t := .any) rfl rfl (by simp) (d 0 _ rfl)
      exact encT_any_stack (held_deref (held_of_kind rfl this) fun o ho => deref_iface rfl ho)
    | iface b => cases b
  · rintro ⟨tx', rfl, hx⟩
    have := EncG.slice (W := W) (h := h) (ok := Supported W) (G := fun _ _ _ => True) (st := []) (p := []) (t := .slice .any) (e := .any)
      (tx := fun _ => tx') rfl trivial he (fun i w hw => by
        rcases i with _ | i
        · cases hw
          exact .plain rfl (by simp) rfl (.iface rfl (held_deref (encT_any_stack hx) fun o ho => .iface rfl ho))
        · simp at hw)
    have h1 : arrText ([GV.iface t v] : List GV).length idxDoc (fun _ => tx') = oneText tx' := arrText_one _
    rw [h1] at this
    exact .plain rfl (by simp) rfl this

/-- C37 for types that are alike: what `Marshal` writes for a value, it writes for the value in an interface, unless it reports recursion.
Missing: types with MarshalPHP methods that are ignored in interfaces, arrays, and false reports of recursion; see the counterexamples. -/
theorem C37_held_partial (W : World) (h : Heap) (t : Ty) (v : GV) (a : Nat) (ha : AlikeHeld W t) (ho : SameOrder h) (he : h.elems .any a 1 = [.iface t v])
    (tx : Bytes) (hg : MarshalGives W h (some (t, v)) (.ok tx)) :
    MarshalGives W h (some (.slice .any, .slice a 1)) (.ok (oneText tx)) ∨ MarshalGives W h (some (.slice .any, .slice a 1)) (.err .recursive) := by
  obtain ⟨hs, hx⟩ := marshalGives_ok_iff.1 hg
  refine marshalGives_of_encT supported_anys ((encT_one he).2 ⟨tx, rfl, ?_⟩)
  exact (encG_first (p := []) ho).2 ((held_iff hs ha).2 (encC_encT hx))

/-- C37 with the value's addresses telling its parts apart: the same bytes. -/
theorem C37_acyclic_partial (W : World) (h : Heap) (t : Ty) (v : GV) (a : Nat) (ha : AlikeHeld W t) (ho : SameOrder h) (he : h.elems .any a 1 = [.iface t v])
    (hm : ∀ t v, h.marshal t v ≠ .err .recursive) (hc : Acyclic W h (.slice .any) (.slice a 1)) (ht : AddressesTell W h (.slice .any) (.slice a 1))
    (hl : ShallowHeld W h (.slice .any) (.slice a 1)) (tx : Bytes) (hg : MarshalGives W h (some (t, v)) (.ok tx)) :
    MarshalGives W h (some (.slice .any, .slice a 1)) (.ok (oneText tx)) :=
  (C37_held_partial W h t v a ha ho he tx hg).resolve_right (C29_acyclic_partial W h _ _ hm hc ht hl)

/-- C37 the other way round: what `Marshal` writes for a value in an interface, it writes for the value itself, if its type is supported,
unless it reports recursion. -/
theorem C37_value_partial (W : World) (h : Heap) (t : Ty) (v : GV) (a : Nat) (ha : AlikeHeld W t) (hs : Supported W t) (ho : SameOrder h)
    (he : h.elems .any a 1 = [.iface t v])
    (tx : Bytes) (hg : MarshalGives W h (some (.slice .any, .slice a 1)) (.ok tx)) :
    ∃ tx', tx = oneText tx' ∧ (MarshalGives W h (some (t, v)) (.ok tx') ∨ MarshalGives W h (some (t, v)) (.err .recursive)) := by
  obtain ⟨-, hx⟩ := marshalGives_ok_iff.1 hg
  obtain ⟨tx', rfl, hx'⟩ := (encT_one he).1 (encC_encT hx)
  refine ⟨tx', rfl, marshalGives_of_encT hs ?_⟩
  exact (encG_first (p := []) ho).1 ((held_iff hs ha).1 hx')

theorem Demo.noSpecial {t : Ty} (ha : ∀ n e, Demo.W.resolve t ≠ .array n e) : NoSpecial Demo.W t :=
  ⟨ha, fun e _ _ hm => by rw [← marOf_iff, Demo.noMarshaler] at hm; cases hm⟩

theorem Demo.alikeHeld {t : Ty} (ha : ∀ n e, Demo.W.resolve t ≠ .array n e) (hp : ∀ u, Demo.W.resolve t = .ptr u → ∀ n e, Demo.W.resolve u ≠ .array n e) :
    AlikeHeld Demo.W t :=
  ⟨Demo.noSpecial ha, fun hm => (by rw [← marOf_iff, Demo.noMarshaler] at hm; cases hm),
    fun u hu => ⟨Demo.noSpecial (hp u hu), fun hm => (by rw [← marOf_iff, Demo.noMarshaler] at hm; cases hm)⟩⟩

namespace Demo

/-- Memory with a few lists that have one element of type any. -/
def heapOne : Heap where
  deref := heapDeref
  elems := fun
    | .any, 1, 1 => [.iface (.ptr (.struct 1)) (.ptr 3000)]
    | .any, 2, 1 => [.iface (.array 2 (.int .int)) (.arr [.int 3, .int 4])]
    | .any, 3, 1 => [.iface (.slice (.slice .any)) (.slice 100 1)]
    | .slice .any, 100, 1 => [.slice 200 1]
    | .any, 200, 1 => [.iface (.slice (.slice .any)) (.slice 100 0)]
    | .any, 4, 1 => [.iface (.slice (.int .int)) (.slice 300 2)]
    | .int .int, 300, 2 => [.int 5, .int 6]
    | _, _, _ => []
  iter := fun k e _ a => heapIter k e [] a
  marshal := fun _ _ => .ok (b! "i:1;")

/-- The values in the list at 4. -/
def InOne (t : Ty) (v : GV) : Prop :=
  (t = .slice .any ∧ v = .slice 4 1) ∨ (t = .any ∧ v = .iface (.slice (.int .int)) (.slice 300 2)) ∨
  (t = .slice (.int .int) ∧ v = .slice 300 2) ∨ (t = .int .int ∧ (v = .int 5 ∨ v = .int 6))

def rankOne : GV → Nat
  | .slice 4 _ => 3
  | .iface _ _ => 2
  | .slice _ _ => 1
  | _ => 0

theorem inOne_part (t : Ty) (v : GV) (t' : Ty) (v' : GV) (hs : InOne t v) (hp : Part W heapOne t v t' v') : InOne t' v' ∧ rankOne v' < rankOne v := by
  rcases hs with ⟨rfl, rfl⟩ | ⟨rfl, rfl⟩ | ⟨rfl, rfl⟩ | ⟨rfl, rfl | rfl⟩
  · cases hp with
    | slice hr hm =>
      cases hr
      have : v' = .iface (.slice (.int .int)) (.slice 300 2) := by simpa [heapOne] using hm
      subst this
      exact ⟨by simp [InOne], by simp [rankOne]⟩
  · cases hp; exact ⟨by simp [InOne], by simp [rankOne]⟩
  · cases hp with
    | slice hr hm =>
      cases hr
      have : v' = .int 5 ∨ v' = .int 6 := by simpa [heapOne] using hm
      rcases this with rfl | rfl <;> exact ⟨by simp [InOne], by simp [rankOne]⟩
  all_goals cases hp

theorem inOne_within {t : Ty} {v : GV} (hw : Within W heapOne (.slice .any) (.slice 4 1) t v) : InOne t v :=
  closed_within (fun t v t' v' a b => (inOne_part t v t' v' a b).1) (by simp [InOne]) hw

theorem inOne_rank {t t' : Ty} {v v' : GV} (hs : InOne t v) (hw : Inside W heapOne t v t' v') : InOne t' v' ∧ rankOne v' < rankOne v := by
  obtain ⟨t1, v1, h1, h2⟩ := hw
  have h3 := inOne_part _ _ _ _ hs h1
  clear h1 hs
  induction h2 with
  | refl => exact h3
  | step a _ ih => have h4 := inOne_part _ _ _ _ h3.1 a; exact ih ⟨h4.1, by omega⟩

end Demo

example : SameOrder Demo.heapOne ∧ AlikeHeld Demo.W (.ptr (.struct 1)) ∧ Demo.heapOne.elems .any 1 1 = [.iface (.ptr (.struct 1)) (.ptr 3000)] ∧
    MarshalGives Demo.W Demo.heapOne (some (.ptr (.struct 1), .ptr 3000)) (.ok (b! "a:2:{s:4:\"next\";a:2:{s:4:\"next\";N;s:1:\"n\";i:2;}s:1:\"n\";i:1;}")) ∧
    MarshalGives Demo.W Demo.heapOne (some (.slice .any, .slice 1 1)) (.ok (oneText (b! "a:2:{s:4:\"next\";a:2:{s:4:\"next\";N;s:1:\"n\";i:2;}s:1:\"n\";i:1;}"))) :=
  ⟨fun _ _ _ _ => rfl, Demo.alikeHeld (by simp [World.resolve]) (by rintro u ⟨⟩; simp [World.resolve]), rfl, marshalGives_of (cf := 9) (f := 9) (by simp) (by rfl), marshalGives_of (cf := 9) (f := 9) (by simp) (by rfl)⟩

-- the hypotheses of `C37_acyclic_partial`
example : SameOrder Demo.heapOne ∧ AlikeHeld Demo.W (.slice (.int .int)) ∧ Demo.heapOne.elems .any 4 1 = [.iface (.slice (.int .int)) (.slice 300 2)] ∧
    (∀ t v, Demo.heapOne.marshal t v ≠ .err .recursive) ∧ Acyclic Demo.W Demo.heapOne (.slice .any) (.slice 4 1) ∧
    AddressesTell Demo.W Demo.heapOne (.slice .any) (.slice 4 1) ∧ ShallowHeld Demo.W Demo.heapOne (.slice .any) (.slice 4 1) ∧
    MarshalGives Demo.W Demo.heapOne (some (.slice (.int .int), .slice 300 2)) (.ok (b! "a:2:{i:0;i:5;i:1;i:6;}")) ∧
    MarshalGives Demo.W Demo.heapOne (some (.slice .any, .slice 4 1)) (.ok (b! "a:1:{i:0;a:2:{i:0;i:5;i:1;i:6;}}")) := by
  refine ⟨fun _ _ _ _ => rfl, Demo.alikeHeld (by simp [World.resolve]) (by simp [World.resolve]), rfl, by simp [Demo.heapOne],
    acyclic_of_rank (S := Demo.InOne) (fun _ v => Demo.rankOne v) Demo.inOne_part (by simp [Demo.InOne]), ?_, ?_,
    marshalGives_of (cf := 9) (f := 9) (by simp) (by rfl), marshalGives_of (cf := 9) (f := 9) (by simp) (by rfl)⟩
  · intro t1 v1 t2 v2 a h1 h2 h3 h4
    exfalso
    have h5 := Demo.inOne_within h1
    obtain ⟨h6, h7⟩ := Demo.inOne_rank h5 h2
    have addr : ∀ {t v}, Demo.InOne t v → Located Demo.W t v a → (v = .slice 4 1 ∧ a = 4) ∨ (v = .slice 300 2 ∧ a = 300) := by
      intro t v hi hl
      rcases hi with ⟨rfl, rfl⟩ | ⟨rfl, rfl⟩ | ⟨rfl, rfl⟩ | ⟨rfl, rfl | rfl⟩
      · generalize hs : GV.slice 4 1 = s at hl
        cases hl with
        | slice => subst hs; exact .inl ⟨rfl, rfl⟩
        | map hr => cases hr
        | ptr hr => cases hr
      · cases hl <;> rename_i hr <;> cases hr
      · generalize hs : GV.slice 300 2 = s at hl
        cases hl with
        | slice => subst hs; exact .inr ⟨rfl, rfl⟩
        | map hr => cases hr
        | ptr hr => cases hr
      · cases hl <;> rename_i hr <;> cases hr
      · cases hl <;> rename_i hr <;> cases hr
    rcases addr h5 h3 with ⟨rfl, rfl⟩ | ⟨rfl, rfl⟩ <;> rcases addr h6 h4 with ⟨rfl, h8⟩ | ⟨rfl, h8⟩ <;> first | omega | simp [Demo.rankOne] at h7
  · rintro n t v e ⟨ti, dt, dv, h1, h2, -⟩ - -
    have lvl : ∀ n t v t' v', Demo.InOne t v → Below Demo.W Demo.heapOne n t v t' v' → n ≤ Demo.rankOne v := by
      intro n t v t' v' hs hb
      induction hb with
      | refl => omega
      | inner _ hp _ ih => have h1 := Demo.inOne_part _ _ _ _ hs hp; have := ih h1.1; omega
      | same _ hp _ ih => have h1 := Demo.inOne_part _ _ _ _ hs hp; have := ih h1.1; omega
    have := lvl _ _ _ _ _ (by simp [Demo.InOne]) h2
    simp only [Demo.rankOne] at this
    omega

/-- C37 is false for arrays: they are rejected in interfaces. -/
theorem C37_array_counterexample :
    MarshalGives Demo.W Demo.heapOne (some (.array 2 (.int .int), .arr [.int 3, .int 4])) (.ok (b! "a:2:{i:0;i:3;i:1;i:4;}")) ∧
    Demo.heapOne.elems .any 2 1 = [.iface (.array 2 (.int .int)) (.arr [.int 3, .int 4])] ∧
    MarshalGives Demo.W Demo.heapOne (some (.slice .any, .slice 2 1)) (.err (.unsupported "interface value")) :=
  ⟨marshalGives_of (cf := 9) (f := 9) (by simp) (by rfl), rfl, marshalGives_of (cf := 9) (f := 9) (by simp) (by rfl)⟩

/-- C37 is false for types with the method MarshalPHP: it is called for a scalar in a variable, not for one in an interface. -/
theorem C37_method_counterexample :
    MarshalGives Demo.WM Demo.heapM (some (.named 10, .int 7)) (.ok (b! "b:1;")) ∧
    Demo.heapM.elems .any 1600 1 = [.iface (.named 10) (.int 7)] ∧
    MarshalGives Demo.WM Demo.heapM (some (.slice .any, .slice 1600 1)) (.ok (b! "a:1:{i:0;i:7;}")) :=
  ⟨marshalGives_of (cf := 9) (f := 9) (by simp) (by rfl), rfl, marshalGives_of (cf := 9) (f := 9) (by simp) (by rfl)⟩

/-- C37 is false where recursion is reported: `y := make([][]any, 1); y[0] = []any{y[:0]}` is a finite value that is written as it is, but reported
as recursive in an interface. -/
theorem C37_recursion_counterexample :
    MarshalGives Demo.W Demo.heapOne (some (.slice (.slice .any), .slice 100 1)) (.ok (b! "a:1:{i:0;a:1:{i:0;a:0:{}}}")) ∧
    AlikeHeld Demo.W (.slice (.slice .any)) ∧ Demo.heapOne.elems .any 3 1 = [.iface (.slice (.slice .any)) (.slice 100 1)] ∧
    MarshalGives Demo.W Demo.heapOne (some (.slice .any, .slice 3 1)) (.err .recursive) :=
  ⟨marshalGives_of (cf := 9) (f := 9) (by simp) (by rfl),
    Demo.alikeHeld (by simp [World.resolve]) (by simp [World.resolve]), rfl,
    marshalGives_of (cf := 9) (f := 9) (by simp) (by rfl)⟩

end Verif

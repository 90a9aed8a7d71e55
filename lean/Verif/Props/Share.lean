import Verif.Proofs.Share
import Verif.Props.Mem
/-
C61: what decoding leaves alone in a memory in which anything may be shared.
-/
namespace Verif
open Spec

/-- C61: whatever refers to what in memory, decoding into a place that holds `h` changes no object but the one with the place and those that
references lead to from `h`. If none leads back to the object with the place, then of this one only the place changes. And afterwards references
lead from the place only to objects that they led to before, and to new ones. This holds as well when decoding fails. -/
theorem C61_frame (W : World) (U : Methods) (hU : Confined U) (fuel : Nat) (data : Bytes) (t : Ty) (m : Mem) (l : Loc) (h : HV) (hr : m.read l = some h) :
    m.length ≤ (unmarshalMem W U fuel data t l m).1.length ∧
    (∀ a, a < m.length → a ≠ l.obj → ¬ LeadsTo m h a → (unmarshalMem W U fuel data t l m).1[a]? = m[a]?) ∧
    (¬ LeadsTo m h l.obj → ∀ x, m[l.obj]? = some (.var x) → ∃ h', (unmarshalMem W U fuel data t l m).1[l.obj]? = some (.var (x.put l.path h'))) ∧
    ∀ h', (unmarshalMem W U fuel data t l m).1.read l = some h' → ∀ a, LeadsTo (unmarshalMem W U fuel data t l m).1 h' a → LeadsTo m h a ∨ m.length ≤ a := by
  have hi : Inv (fun a => LeadsTo m h a ∨ m.length ≤ a) l m := by
    refine ⟨fun a ha => .inr ha, ?_, ?_⟩
    · intro a c ha hc r hr'
      rcases ha with ha | ha
      · exact .inl (.step ha hc hr')
      · have := cell_lt hc
        omega
    · intro g hg r hr'
      rw [hr] at hg
      cases hg
      exact .inl (.here hr')
  obtain ⟨h1, h2⟩ := unmarshalMem_conf (W := W) hU (fuel := fuel) (data := data) (t := t) hi
  have hl := read_lt hr
  refine ⟨h2.grows, ?_, ?_, ?_⟩
  · intro a ha hne hn
    exact h2.same a (fun e => e.elim hn fun e => by omega) hne
  · intro hn x hx
    rcases h2.around (fun e => e.elim hn fun e => by omega) with he | ⟨x', y, e1, e2⟩
    · obtain ⟨x', e1, e2⟩ := read_eq_some.1 hr
      rw [hx] at e1
      cases e1
      exact ⟨h, by rw [he, hx, HV.put_self e2]⟩
    · rw [hx] at e1
      cases e1
      exact ⟨y, e2⟩
  · intro h' hr' a ha
    exact h1.leads (h1.roots h' hr') ha

namespace Demo

theorem demo_confined : Confined U where
  fresh id s m := by
    refine ⟨Nat.le_refl _, fun _ _ => rfl, ?_, ?_⟩
    · intro a c ha hc
      have := cell_lt hc
      simp only [U] at this
      omega
    · intro h hh r hr
      simp only [U] at hh
      split at hh
      · cases hh
        simp [refs] at hr
      · cases hh
  held t h s m := by
    refine ⟨Nat.le_refl _, fun _ _ _ => rfl, ?_⟩
    intro a c ha hc r hr
    rcases ha with ha | ha
    · exact .inl (.step ha hc hr)
    · have := cell_lt hc
      simp only [U] at this
      omega

/-- A node that points to itself, inside an array beside another node, and a variable that nothing refers to. -/
def knot : Mem := [.var (.arr [.struct [.ptr 0 [0], .int 1], .struct [.ptrNil, .int 2]]), .var (.int 7)]

example := C61_frame W U demo_confined 9 (b! "a:1:{s:4:\"next\";a:1:{s:1:\"n\";i:5;}}") (.struct 1) knot ⟨0, [0]⟩ _ rfl

/-- The other node and the variable stay as they are. -/
example : (unmarshalMem W U 9 (b! "a:1:{s:4:\"next\";a:1:{s:1:\"n\";i:5;}}") (.struct 1) ⟨0, [0]⟩ knot).1.take 2 =
    [.var (.arr [.struct [.ptr 0 [0], .int 5], .struct [.ptrNil, .int 2]]), .var (.int 7)] := by krfl

/-- The same with a node that leads to a cycle elsewhere but not back to the array. -/
def lasso : Mem := [.var (.arr [.struct [.ptr 1 [], .int 1], .struct [.ptrNil, .int 2]]), .var (.struct [.ptr 1 [], .int 3])]

example : ¬ LeadsTo lasso (.struct [.ptr 1 [], .int 1]) 0 := by
  suffices h : ∀ a, LeadsTo lasso (.struct [.ptr 1 [], .int 1]) a → a = 1 from fun h0 => absurd (h 0 h0) (by decide)
  intro a ha
  induction ha with
  | here h => simpa [refs, refsAll] using h
  | step _ hc h ih =>
    subst ih
    simp only [lasso, List.getElem?_cons_succ, List.getElem?_cons_zero, Option.some.injEq] at hc
    subst hc
    simpa [refsOf, refs, refsAll] using h

example : (unmarshalMem W U 9 (b! "a:2:{s:4:\"next\";a:1:{s:1:\"n\";i:5;}s:1:\"n\";i:6;}") (.struct 1) ⟨0, [0]⟩ lasso).1.take 2 =
    [.var (.arr [.struct [.ptr 1 [], .int 6], .struct [.ptrNil, .int 2]]), .var (.struct [.ptr 1 [], .int 5])] := by krfl

end Demo

end Verif

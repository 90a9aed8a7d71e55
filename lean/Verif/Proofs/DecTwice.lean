import Verif.Proofs.DecCount
import Verif.Props.Demo
/-
A world in which many struct decoders are made for few struct types.
-/
namespace Verif
open Spec

/-- Struct 0 has one bool; struct `n + 1` has two fields, both of type struct `n`. -/
def Demo.WTwice : World := { Demo.W with
  fields := fun
    | 0 => [⟨[65], [], true, false, .bool⟩]
    | n + 1 => [⟨[65], [], true, false, .struct n⟩, ⟨[66], [], true, false, .struct n⟩] }

theorem lookup_filter (t u : Ty) (l : List (Ty × Nat)) :
    (l.filter (fun p => p.1 ≠ t)).lookup u = if u = t then none else l.lookup u := by
  induction l with
  | nil => simp
  | cons p l ih =>
    obtain ⟨a, n⟩ := p
    by_cases h : a = t
    · subst h
      simp only [List.filter_cons, ne_eq, not_true_eq_false, decide_false, Bool.false_eq_true, if_false]
      simp only [ne_eq] at ih
      rw [ih]
      by_cases h2 : u = a
      · simp [h2]
      · rw [if_neg h2, if_neg h2, List.lookup_cons, beq_eq_false_iff_ne.2 h2]
    · simp only [List.filter_cons, ne_eq, h, not_false_eq_true, decide_true, if_true, List.lookup_cons]
      simp only [ne_eq] at ih
      rw [ih]
      by_cases h2 : u = a
      · subst h2; simp [h]
      · rw [beq_eq_false_iff_ne.2 h2]

/-- The decoders made for struct `n` of that world. -/
theorem twice_made : ∀ n f nm m, (∀ i, i ≤ n → m.busy.lookup (.struct i) = none) →
    ∃ m', makeDec Demo.WTwice (n + 2 + f) nm m (.struct n) = .ok (.struct m.heap.length, m') ∧ (∀ i, m'.busy.lookup (.struct i) = m.busy.lookup (.struct i)) ∧
      m'.heap.length + 1 = m.heap.length + 2 ^ (n + 1)
  | 0, f, nm, m, hb => by
    have h0 := hb 0 (Nat.le_refl _)
    have e : makeDec Demo.WTwice (0 + 2 + f) nm m (.struct 0) = (match m.busy.lookup (.struct 0) with
      | some a => .ok (.struct a, m)
      | none => .ok (.struct m.heap.length, ⟨(m.heap ++ [(⟨nm, []⟩ : StructObj)]).set m.heap.length ⟨nm, [⟨[65], 0, .bool ⟨[], [65]⟩⟩]⟩,
          ((Ty.struct 0, m.heap.length) :: m.busy).filter (fun p => p.1 ≠ .struct 0)⟩)) := by
      rw [show 0 + 2 + f = f + 1 + 1 by omega]
      rfl
    rw [e, h0]
    refine ⟨_, rfl, fun i => ?_, by simp⟩
    rw [lookup_filter, List.lookup_cons]
    by_cases hi : Ty.struct i = .struct 0
    · cases hi; simp [h0]
    · rw [if_neg hi, beq_eq_false_iff_ne.2 hi]
  | n + 1, f, nm, m, hb => by
    have h0 := hb (n + 1) (Nat.le_refl _)
    have e : makeDec Demo.WTwice (n + 1 + 2 + f) nm m (.struct (n + 1)) = (match m.busy.lookup (.struct (n + 1)) with
      | some a => .ok (.struct a, m)
      | none => makeDec Demo.WTwice (n + 2 + f) ⟨[], [65]⟩ ⟨m.heap ++ [⟨nm, []⟩], (.struct (n + 1), m.heap.length) :: m.busy⟩ (.struct n) >>= fun q1 =>
          makeDec Demo.WTwice (n + 2 + f) ⟨[], [66]⟩ q1.2 (.struct n) >>= fun q2 =>
          .ok (.struct m.heap.length, ⟨q2.2.heap.set m.heap.length ⟨nm, [⟨[65], 0, q1.1⟩, ⟨[66], 1, q2.1⟩]⟩,
            q2.2.busy.filter (fun p => p.1 ≠ .struct (n + 1))⟩)) := by
      rw [show n + 1 + 2 + f = (n + 2 + f) + 1 by omega]
      conv => lhs; unfold makeDec
      generalize n + 2 + f = g
      show (match m.busy.lookup (.struct (n + 1)) with
        | some a => Res.ok (Dec.struct a, m)
        | none => _) = _
      cases m.busy.lookup (.struct (n + 1)) with
      | some a => rfl
      | none =>
        dsimp only
        show (makeFields Demo.WTwice [] (makeDec Demo.WTwice g) 0 _ [⟨[65], [], true, false, .struct n⟩, ⟨[66], [], true, false, .struct n⟩] >>= _) = _
        simp only [makeFields]
        generalize makeDec Demo.WTwice g ⟨[], [65]⟩ ⟨m.heap ++ [⟨nm, []⟩], (.struct (n + 1), m.heap.length) :: m.busy⟩ (.struct n) = r1
        cases r1 with
        | ok q1 =>
          obtain ⟨d1, m1⟩ := q1
          show _ = (makeDec Demo.WTwice g ⟨[], [66]⟩ m1 (.struct n) >>= _)
          simp only [Res.bind_ok]
          cases hr : makeDec Demo.WTwice g ⟨[], [66]⟩ m1 (.struct n) with
          | ok q2 =>
            rfl
          | err e => rfl
          | panic e => rfl
          | diverge => rfl
        | err e => rfl
        | panic e => rfl
        | diverge => rfl
    rw [e, h0]
    obtain ⟨m1, e1, b1, l1⟩ := twice_made n f ⟨[], [65]⟩ ⟨m.heap ++ [⟨nm, []⟩], (.struct (n + 1), m.heap.length) :: m.busy⟩ (fun i hi => by
      rw [List.lookup_cons]
      have : ¬ Ty.struct i = .struct (n + 1) := by intro h; cases h; omega
      simp only [beq_eq_false_iff_ne.2 this]
      exact hb i (by omega))
    have k : ∀ i, i ≤ n → m1.busy.lookup (.struct i) = none := by
      intro i hi
      rw [b1 i, List.lookup_cons]
      have : ¬ Ty.struct i = .struct (n + 1) := by intro h; cases h; omega
      simp only [beq_eq_false_iff_ne.2 this]
      exact hb i (by omega)
    obtain ⟨m2, e2, b2, l2⟩ := twice_made n f ⟨[], [66]⟩ m1 k
    simp only [e1, Res.bind_ok, e2]
    refine ⟨_, rfl, fun i => ?_, ?_⟩
    · rw [lookup_filter, b2 i, b1 i, List.lookup_cons]
      by_cases hi : Ty.struct i = .struct (n + 1)
      · cases hi; simp [h0]
      · rw [if_neg hi, beq_eq_false_iff_ne.2 hi]
    · simp only [List.length_set, List.length_append, List.length_singleton] at l1 l2 ⊢
      rw [Nat.pow_succ 2 (n + 1)]
      omega

end Verif

import Verif.Model.Mem
/-
Where the references in a memory lead, for memories in which anything may be shared and references may form cycles.
-/
namespace Verif.Spec
open Verif

mutual
/-- The objects that a value refers to. -/
def refs : HV → List Nat
  | .slice o _ _ => [o]
  | .map o => [o]
  | .ptr o _ => [o]
  | .arr es => refsAll es
  | .struct fs => refsAll fs
  | .iface _ v => refs v
  | _ => []
/-- Element by element. -/
def refsAll : List HV → List Nat
  | [] => []
  | v :: vs => refs v ++ refsAll vs
end

/-- The objects that an object refers to. -/
def refsOf : Cell → List Nat
  | .var v => refs v
  | .map es => es.flatMap fun e => refs e.1 ++ refs e.2

/-- References lead from value `h` to object `a`. -/
inductive LeadsTo (m : Mem) (h : HV) : Nat → Prop
  | here {a} : a ∈ refs h → LeadsTo m h a
  | step {a b c} : LeadsTo m h b → m[b]? = some c → a ∈ refsOf c → LeadsTo m h a

/-- Methods reach only what they are called on: a method called on a new variable builds its value from new objects and leaves old ones alone; a method
called on a held value changes only objects that references lead to from there, and lets them and new objects refer only to such objects. -/
structure Confined (U : Methods) : Prop where
  fresh : ∀ id s m, m.length ≤ (U.fresh id s m).1.length ∧ (∀ a, a < m.length → (U.fresh id s m).1[a]? = m[a]?) ∧
    (∀ a c, m.length ≤ a → (U.fresh id s m).1[a]? = some c → ∀ r ∈ refsOf c, m.length ≤ r) ∧
    ∀ h, (U.fresh id s m).2 = .ok h → ∀ r ∈ refs h, m.length ≤ r
  held : ∀ t h s m, m.length ≤ (U.held t h s m).1.length ∧ (∀ a, a < m.length → ¬ LeadsTo m h a → (U.held t h s m).1[a]? = m[a]?) ∧
    ∀ a c, (LeadsTo m h a ∨ m.length ≤ a) → (U.held t h s m).1[a]? = some c → ∀ r ∈ refsOf c, LeadsTo m h r ∨ m.length ≤ r

end Verif.Spec

import Verif.Spec.Safety
/-
Specification vocabulary for the memory a call asks for: which numbers stand in the input, which types take their size from the input, and
lists of integers.
-/
namespace Verif.Spec
open Verif

/-- No declared length or number of entries in the input is larger than `X`: lengths are decimal numbers between two colons. -/
def LengthsUpTo (X : Nat) (data : Bytes) : Prop :=
  ∀ ds, IsDigits ds → (58 :: ds ++ [58]) <:+: data → digitsVal ds ≤ X

/-- No array index in the input is larger than `X`: indexes have the form `i:` … `;`. -/
def IndexesUpTo (X : Nat) (data : Bytes) : Prop :=
  ∀ t (n : Nat), IntText t (n : Int) → (105 :: 58 :: t ++ [59]) <:+: data → n ≤ X

/-- The type contains no slice, no map and no `any`: nothing takes its size from the input. -/
def Uncounted (W : World) (t : Ty) : Prop :=
  ∀ t', Reach W t t' → (∀ e, ¬ Plain W t' (.slice e)) ∧ (∀ k v, ¬ Plain W t' (.map k v)) ∧ ¬ Plain W t' .any

/-- There is a slice in the type. -/
def HasSlice (W : World) (t : Ty) : Prop := ∃ t' e, Reach W t t' ∧ Plain W t' (.slice e)

/-- The entries of a list of integers, the first of which has index `i`. -/
def IntList : Nat → List (Doc × Doc) → Prop
  | _, [] => True
  | i, (k, v) :: es =>
    (∃ t, k = .int t ∧ IntText t (i : Int)) ∧ (∃ u x, v = .int u ∧ IntText u x ∧ InRange .i64 x) ∧ IntList (i + 1) es

end Verif.Spec

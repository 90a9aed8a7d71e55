import Verif.Spec.Typing
/-
Vocabulary for what decoding does to a destination that already holds something.
-/
namespace Verif.Spec
open Verif

/-- The types of the variables that decoding into a variable of type `t` may write to where they are: through pointers
and the visible fields of structs. -/
inductive InPlace (W : World) (t : Ty) : Ty → Prop
  | refl : InPlace W t t
  | ptr {t' e} : InPlace W t t' → Plain W t' (.ptr e) → InPlace W t e
  | field {t' id f} : InPlace W t t' → Plain W t' (.struct id) → f ∈ W.fields id → Visible f → InPlace W t f.ty

end Verif.Spec

import Verif.Model.Scribble
import Verif.Spec.Alias
/-
Vocabulary for what `UnmarshalPHP` methods write to their argument.
-/
namespace Verif.Spec

/-- Methods write to no byte behind their argument, and leave the bytes they keep as they are. -/
structure Tidy (W : World) (S : Hands) : Prop where
  unm : ∀ id s rest, (S.unm id s rest).length ≤ s.length
  dyn : ∀ t v s rest, (S.dyn t v s rest).length ≤ s.length
  kept : ∀ id s rest v, W.unmarshal id s = .ok v → ∀ obj off, ∀ w ∈ wins (W.kept id obj off s v),
    ((S.unm id s rest ++ s.drop (S.unm id s rest).length).drop (w.off - off)).take w.len = (s.drop (w.off - off)).take w.len

end Verif.Spec

import Verif.Model.DecPool
/- Who uses which context and which copy of an input (C53). -/
namespace Verif.Spec
open Verif

/-- From `TakeRuntimeContext` to the end of `ReleaseRuntimeContext` a call uses its context. -/
inductive UsesCtx : DGor → Nat → Prop
  | took {x a k} : UsesCtx (.took x a k) k
  | run {x a k p} : UsesCtx (.run x a k p) k
  | ending {x a k r} : UsesCtx (.ending x a k r) k
  | cleared {x a k r} : UsesCtx (.cleared x a k r) k

/-- From the moment it is made to the return, a call uses its copy of the input. -/
inductive UsesSrc : DGor → Nat → Prop
  | copied {x a} : UsesSrc (.copied x a) a
  | took {x a k} : UsesSrc (.took x a k) a
  | run {x a k p} : UsesSrc (.run x a k p) a
  | ending {x a k r} : UsesSrc (.ending x a k r) a
  | cleared {x a k r} : UsesSrc (.cleared x a k r) a

end Verif.Spec

import Verif.Model.Pool
/- Who uses which pooled object (C43). -/
namespace Verif.Spec
open Verif

/-- From `newCtx` to `freeCtx`, or to the end of a panic that reaches the caller of the encoder, a call uses its context. -/
inductive HoldsCtx : Gor → Nat → Prop
  | run {x c0 k fs as out} : HoldsCtx (.run x c0 k fs as out) k
  | fail {x k fs e} : HoldsCtx (.fail x k fs e) k
  | copy {x k} : HoldsCtx (.copy x k) k
  | keep {x k dst} : HoldsCtx (.keep x k dst) k

/-- From `newBuffer` to `freeBuffer` a call uses a struct buffer; `n` is its place among those it uses. -/
inductive HoldsBuf : Gor → Nat → Nat → Prop
  | run {x c0 k fs as out n b} : fs[n]? = some b → HoldsBuf (.run x c0 k fs as out) n b
  | fail {x k fs e n b} : fs[n]? = some b → HoldsBuf (.fail x k fs e) n b
  | crash {x fs p n b} : fs[n]? = some b → HoldsBuf (.crash x fs p) n b

end Verif.Spec

import Verif.Model.Unmarshal
/-
Model of the pool of decoder contexts, /repo/internal/decoder/context.go:10-33, as used by `Unmarshal` (unmarshal.go:21-52) in any number of
goroutines at once. Contexts and copies of inputs are objects in a shared memory; decoders read the input through the context.
-/
namespace Verif

/-- A call of `Unmarshal`: its input and its destination. -/
abbrev DCall := Bytes × Dst

/-- What a call leaves behind: the variable pointed to (if there is one) and the outcome. -/
abbrev DOut := Option Val × Res Unit

/-- What decoders do with the context: every `Decode` begins with `buf := ctx.Buf` (struct.go:50, slice.go:52, ptr.go:31, bytes.go:52,
interface.go:135, 174 and 248, float.go:40, map.go:32, array.go:33, bool.go:19, unmarshal_php.go:46) or passes `ctx.Buf` on (string.go:32,
int.go:125, uint.go:53, wrapped_string.go:52). The fields `MaxMapSize` and `MaxSliceSize` are never read. -/
inductive Reads where
  /-- `ctx.Buf` is read, what follows depends on it -/
  | read (k : Bytes → Reads)
  /-- `Decode` and `validateEndBuf` are done (unmarshal.go:47-51), or an error or a panic leaves `unmarshal` -/
  | done (r : DOut)

/-- The reads of a call that finds `b` in `ctx.Buf` each time. -/
def Reads.alone (b : Bytes) : Reads → DOut
  | .read k => (k b).alone b
  | .done r => r

/-- `Unmarshal` (unmarshal.go:21-52) with this input and destination ends with `r`, whatever the bound on the nesting of `compile`, if it is large enough. -/
def UnmarshalGives (W : World) (x : DCall) (r : DOut) : Prop := ∃ n, ∀ f, n ≤ f → unmarshal W f x.1 x.2 = r

/-- `CompileToGetDecoder` (unmarshal.go:40-43) ends with `r`, whatever the bound on the nesting of `compile`, if it is large enough. -/
def CompileGives (W : World) (t : Ty) (r : Res Unit) : Prop := ∃ n, ∀ f, n ≤ f → compileD W f [] t = r

/-- A call of `Unmarshal` that returned: goroutine, call, the copy of the input it made, and how it ended. -/
structure DEntry where
  gor : Nat
  call : DCall
  src : Option Nat
  res : DOut

/-- Where a goroutine is in `unmarshal`, unmarshal.go:29-52. `a` is its copy of the input, `k` its context. A call of `Unmarshal` made by an
UnmarshalPHP method counts as another goroutine. -/
inductive DGor where
  /-- outside -/
  | idle
  /-- before the checks, unmarshal.go:22-36 -/
  | start (x : DCall)
  /-- the input is copied, unmarshal.go:37-38 -/
  | copied (x : DCall) (a : Nat)
  /-- the context is taken, unmarshal.go:44 -/
  | took (x : DCall) (a k : Nat)
  /-- decoding, unmarshal.go:47-51 -/
  | run (x : DCall) (a k : Nat) (p : Reads)
  /-- the deferred `ReleaseRuntimeContext` begins, unmarshal.go:45 and context.go:28 -/
  | ending (x : DCall) (a k : Nat) (r : DOut)
  /-- `ctx.Buf = nil` is done, before `Put`, context.go:29-32 -/
  | cleared (x : DCall) (a k : Nat) (r : DOut)

/-- Copies of inputs (unmarshal.go:37), contexts (`ctx k` is the array `Buf` refers to, `none` for nil; context.go:10-14), the pool
(context.go:16-22), goroutines, and the calls that have returned. Addresses from `anext` and `cnext` on are unused. -/
structure DState where
  arr : Nat → Bytes
  anext : Nat
  ctx : Nat → Option Nat
  cnext : Nat
  pool : List Nat
  go : Nat → DGor
  log : List DEntry

/-- The beginning: an empty pool. -/
def DState.init : DState := { arr := fun _ => [], anext := 0, ctx := fun _ => none, cnext := 0, pool := [], go := fun _ => .idle, log := [] }

/-- Goroutine `i` continues at `g`. -/
def DState.at (s : DState) (i : Nat) (g : DGor) : DState := { s with go := fun j => if j = i then g else s.go j }

/-- `ctx.Buf` of context `k` becomes `o`. -/
def DState.setCtx (s : DState) (k : Nat) (o : Option Nat) : DState := { s with ctx := fun j => if j = k then o else s.ctx j }

/-- Array `a` becomes `bs`. -/
def DState.setArr (s : DState) (a : Nat) (bs : Bytes) : DState := { s with arr := fun j => if j = a then bs else s.arr j }

/-- Goroutine `i` returns from `Unmarshal`. -/
def DState.ret (s : DState) (i : Nat) (x : DCall) (a : Option Nat) (r : DOut) : DState := { s.at i .idle with log := ⟨i, x, a, r⟩ :: s.log }

/-- What a decoder finds in `ctx.Buf`. -/
def DState.buf (s : DState) (k : Nat) : Bytes :=
  match s.ctx k with
  | none => []
  | some a => s.arr a

/-- One step of goroutine `i`. -/
inductive DStep (W : World) (i : Nat) : DState → DState → Prop
  /-- `Unmarshal` is called, unmarshal.go:21 -/
  | call {s x} : s.go i = .idle → DStep W i s (s.at i (.start x))
  /-- the checks fail, unmarshal.go:22-24 and 34-36 with 65-70; a nil interface panics in line 32 and 34 -/
  | refuse {s x r} : s.go i = .start x → (x.1 = [] ∨ ∀ t v, x.2 ≠ .ptr t v) → UnmarshalGives W x r → DStep W i s (s.ret i x none r)
  /-- the input is copied, unmarshal.go:37-38 -/
  | copy {s x t v} : s.go i = .start x → x.1 ≠ [] → x.2 = .ptr t v →
      DStep W i s { (s.setArr s.anext x.1).at i (.copied x s.anext) with anext := s.anext + 1 }
  /-- the type cannot be decoded, unmarshal.go:40-43 -/
  | compileErr {s x a t v e} : s.go i = .copied x a → x.2 = .ptr t v → CompileGives W t (.err e) → DStep W i s (s.ret i x (some a) (some v, .err e))
  /-- `TakeRuntimeContext`, unmarshal.go:44 and context.go:24-26, with a context from the pool -/
  | take {s x a t v k} : s.go i = .copied x a → x.2 = .ptr t v → CompileGives W t (.ok ()) → k ∈ s.pool →
      DStep W i s { s.at i (.took x a k) with pool := s.pool.erase k }
  /-- `TakeRuntimeContext` with a new context, context.go:17-21 -/
  | takeNew {s x a t v} : s.go i = .copied x a → x.2 = .ptr t v → CompileGives W t (.ok ()) →
      DStep W i s { (s.setCtx s.cnext none).at i (.took x a s.cnext) with cnext := s.cnext + 1 }
  /-- `ctx.Buf = src`, unmarshal.go:46. Any reads that lead to the outcome of `unmarshal` are allowed for what follows. -/
  | buf {s x a k p} : s.go i = .took x a k → UnmarshalGives W x (p.alone x.1) → DStep W i s ((s.setCtx k (some a)).at i (.run x a k p))
  /-- a decoder reads `ctx.Buf` -/
  | read {s x a k f} : s.go i = .run x a k (.read f) → DStep W i s (s.at i (.run x a k (f (s.buf k))))
  /-- `unmarshal` returns or a panic passes through it, unmarshal.go:47-51 -/
  | done {s x a k r} : s.go i = .run x a k (.done r) → DStep W i s (s.at i (.ending x a k r))
  /-- context.go:29 -/
  | clear {s x a k r} : s.go i = .ending x a k r → DStep W i s ((s.setCtx k none).at i (.cleared x a k r))
  /-- context.go:32, and the return -/
  | put {s x a k r} : s.go i = .cleared x a k r → DStep W i s { s.ret i x (some a) r with pool := k :: s.pool }
  /-- the collector empties the pool (package sync) -/
  | drop {s k} : DStep W i s { s with pool := s.pool.erase k }
  /-- the program writes to byte slices that came out of a call that returned: they are parts of the copy that call made (Model/Alias.lean).
  Writing during the call, to the argument of an UnmarshalPHP method, is left out. -/
  | scribble {s e a bs} : e ∈ s.log → e.src = some a → DStep W i s (s.setArr a bs)

/-- States reached by any number of goroutines in any interleaving. -/
inductive DReach (W : World) : DState → Prop
  | init : DReach W .init
  | step {s s' i} : DReach W s → DStep W i s s' → DReach W s'

end Verif

import Verif.Model.Encode
/-
Model of the pools of contexts and struct buffers, context.go:8-36 and buffer.go:9-22, as used by `Marshal` (marshal.go:7-23) and by the
struct encoders (struct.go:67-101) in any number of goroutines at once. Contexts and buffers are objects in a shared memory;
what a call writes goes there, and its result is read from there.
-/
namespace Verif

/-- A pooled object: `Ctx`, context.go:20-25 (with `Buf` as `buf`), or `buffer`, buffer.go:5-7 (`ctx` unused). The contents of `buf`
are those of the array behind the slice: that `append` may move them to a new array is left out. `smallBuffer` is used within
single statements only (float.go:82-86, interface.go:111-113) and left out. -/
structure Obj where
  ctx : Ctx
  buf : Bytes

/-- What a call does to its objects while it encodes: every encoder of the package appends to the buffer it is given. -/
inductive Act where
  /-- `append` to the buffer in use (all encoders) -/
  | write (bs : Bytes)
  /-- `newBuffer`, struct.go:67: a struct begins, its fields are written to a buffer of their own -/
  | push
  /-- struct.go:97-98 and 101: the fields of a struct are copied behind its header (and followed by the closing brace) -/
  | join (pre post : Bytes)
  /-- the deferred `freeBuffer`, struct.go:68 -/
  | free
  /-- changes of `Seen` and `StackDepth`: ptr.go:58-74 and 86-102, interface.go:60-65 -/
  | ctx (c : Ctx)

/-- A call of `Marshal`: the memory it sees and its argument. -/
abbrev Call := Heap × Option (Ty × GV)

/-- The actions of a call that has the objects for itself: context and contents of the buffers, innermost first; the last one is
`ctx.Buf`. -/
def solo : List Act → Ctx × List Bytes → Option (Ctx × List Bytes)
  | [], s => some s
  | .write bs :: as, (c, b :: st) => solo as (c, (b ++ bs) :: st)
  | .push :: as, (c, st) => solo as (c, [] :: st)
  | .join pre post :: as, (c, b :: b' :: st) => solo as (c, b :: (b' ++ (pre ++ b ++ post)) :: st)
  | .free :: as, (c, _ :: b' :: st) => solo as (c, b' :: st)
  | .ctx c :: as, (_, st) => solo as (c, st)
  | _, _ => none

/-- What is left when the encoder returns or panics (marshal.go:10): the text if there is one, and the context. -/
def CallEnds (W : World) (x : Call) (c0 : Ctx) (out : Res Bytes) (r : Option (Ctx × List Bytes)) : Prop :=
  ∃ c st, r = some (c, st) ∧ match out with
    | .ok tx => st = [tx] ∧ ∃ n, ∀ cf f, n ≤ cf → n ≤ f → marshal W x.1 cf f c0 x.2 = (c, .ok tx)
    | .err e => ∃ n, ∀ cf f, n ≤ cf → n ≤ f → marshal W x.1 cf f c0 x.2 = (c, .err e)
    | .panic p => ∃ n, ∀ cf f, n ≤ cf → n ≤ f → (marshal W x.1 cf f c0 x.2).2 = .panic p
    | .diverge => True

/-- A way for a call to do its work, for the context `c0` it begins with: the actions `as` and the outcome `out`. Any list of actions
that leads to the outcome of `marshal` is allowed. -/
def Script (W : World) (x : Call) (c0 : Ctx) (as : List Act) (out : Res Bytes) : Prop := CallEnds W x c0 out (solo as (c0, [[]]))

/-- Where a goroutine is in `Marshal`, marshal.go:7-23. `k` is its context, `fs` are the struct buffers it holds, innermost first. A call of `Marshal` made
by a MarshalPHP method counts as another goroutine. -/
inductive Gor where
  /-- outside -/
  | idle
  /-- before `newCtx`, marshal.go:8 -/
  | start (x : Call)
  /-- encoding, marshal.go:10, with the actions still to be done -/
  | run (x : Call) (c0 : Ctx) (k : Nat) (fs : List Nat) (as : List Act) (out : Res Bytes)
  /-- an error is returned, the deferred calls are made: struct.go:93 and 68, marshal.go:11-13 -/
  | fail (x : Call) (k : Nat) (fs : List Nat) (e : Err)
  /-- a panic, the deferred calls are made: struct.go:68 -/
  | crash (x : Call) (fs : List Nat) (p : Panic)
  /-- before the text is copied, marshal.go:16-17 -/
  | copy (x : Call) (k : Nat)
  /-- before `freeCtx`, marshal.go:19-20 -/
  | keep (x : Call) (k : Nat) (dst : Bytes)

/-- Memory, pools (context.go:8, buffer.go:9), goroutines, and the calls that have returned with their results. Addresses from `next` on are unused. -/
structure PState where
  mem : Nat → Obj
  next : Nat
  cpool : List Nat
  bpool : List Nat
  go : Nat → Gor
  log : List (Nat × Call × Res Bytes)

/-- The beginning: empty pools. -/
def PState.init : PState := { mem := fun _ => { ctx := .clean, buf := [] }, next := 0, cpool := [], bpool := [], go := fun _ => .idle, log := [] }

/-- Goroutine `i` continues at `g`. -/
def PState.at (s : PState) (i : Nat) (g : Gor) : PState := { s with go := fun j => if j = i then g else s.go j }

/-- Object `k` becomes `o`. -/
def PState.set (s : PState) (k : Nat) (o : Obj) : PState := { s with mem := fun j => if j = k then o else s.mem j }

/-- The buffer in use: that of the innermost struct, otherwise `ctx.Buf` (the parameter `b` of the encoders). -/
def topBuf (k : Nat) : List Nat → Nat
  | [] => k
  | f :: _ => f

/-- One step of goroutine `i`. -/
inductive PStep (W : World) (i : Nat) : PState → PState → Prop
  /-- `Marshal` is called, marshal.go:7 -/
  | call {s x} : s.go i = .idle → PStep W i s (s.at i (.start x))
  /-- `newCtx` with a context from the pool, context.go:27-32, and `ctx.Buf[:0]`, marshal.go:10 -/
  | get {s x k as out} : s.go i = .start x → k ∈ s.cpool → Script W x (s.mem k).ctx as out →
      PStep W i s { (s.set k { s.mem k with buf := [] }).at i (.run x (s.mem k).ctx k [] as out) with cpool := s.cpool.erase k }
  /-- `newCtx` with a new context, context.go:9-15 -/
  | new {s x as out} : s.go i = .start x → Script W x .clean as out →
      PStep W i s { (s.set s.next { ctx := .clean, buf := [] }).at i (.run x .clean s.next [] as out) with next := s.next + 1 }
  /-- the collector empties the pool (package sync) -/
  | drop {s k} : PStep W i s { s with cpool := s.cpool.erase k, bpool := s.bpool.erase k }
  | write {s x c0 k fs bs as out} : s.go i = .run x c0 k fs (.write bs :: as) out →
      PStep W i s ((s.set (topBuf k fs) { s.mem (topBuf k fs) with buf := (s.mem (topBuf k fs)).buf ++ bs }).at i (.run x c0 k fs as out))
  /-- `newBuffer` with a buffer from the pool, buffer.go:13-18 -/
  | push {s x c0 k fs as out b} : s.go i = .run x c0 k fs (.push :: as) out → b ∈ s.bpool →
      PStep W i s { (s.set b { s.mem b with buf := [] }).at i (.run x c0 k (b :: fs) as out) with bpool := s.bpool.erase b }
  /-- `newBuffer` with a new buffer, buffer.go:9-11 -/
  | pushNew {s x c0 k fs as out} : s.go i = .run x c0 k fs (.push :: as) out →
      PStep W i s { (s.set s.next { ctx := .clean, buf := [] }).at i (.run x c0 k (s.next :: fs) as out) with next := s.next + 1 }
  | join {s x c0 k b fs pre post as out} : s.go i = .run x c0 k (b :: fs) (.join pre post :: as) out →
      PStep W i s ((s.set (topBuf k fs) { s.mem (topBuf k fs) with buf := (s.mem (topBuf k fs)).buf ++ (pre ++ (s.mem b).buf ++ post) }).at i
        (.run x c0 k (b :: fs) as out))
  /-- `freeBuffer`, buffer.go:20-22 -/
  | free {s x c0 k b fs as out} : s.go i = .run x c0 k (b :: fs) (.free :: as) out →
      PStep W i s { s.at i (.run x c0 k fs as out) with bpool := b :: s.bpool }
  | ctx {s x c0 k fs c as out} : s.go i = .run x c0 k fs (.ctx c :: as) out →
      PStep W i s ((s.set k { s.mem k with ctx := c }).at i (.run x c0 k fs as out))
  /-- `encode` has returned a text, marshal.go:10 -/
  | ok {s x c0 k fs tx} : s.go i = .run x c0 k fs [] (.ok tx) → PStep W i s (s.at i (.copy x k))
  /-- an encoder returns an error -/
  | err {s x c0 k fs e} : s.go i = .run x c0 k fs [] (.err e) → PStep W i s (s.at i (.fail x k fs e))
  /-- a method of the program panics -/
  | panic {s x c0 k fs p} : s.go i = .run x c0 k fs [] (.panic p) → PStep W i s (s.at i (.crash x fs p))
  /-- deferred `freeBuffer`, struct.go:68 -/
  | failBuf {s x k b fs e} : s.go i = .fail x k (b :: fs) e → PStep W i s { s.at i (.fail x k fs e) with bpool := b :: s.bpool }
  /-- marshal.go:12-13 -/
  | failEnd {s x k e} : s.go i = .fail x k [] e → PStep W i s { s.at i .idle with cpool := k :: s.cpool, log := (i, x, .err e) :: s.log }
  /-- deferred `freeBuffer`, struct.go:68 -/
  | crashBuf {s x b fs p} : s.go i = .crash x (b :: fs) p → PStep W i s { s.at i (.crash x fs p) with bpool := b :: s.bpool }
  /-- the panic leaves `Marshal`, which has no deferred calls: the context is lost -/
  | crashEnd {s x p} : s.go i = .crash x [] p → PStep W i s { s.at i .idle with log := (i, x, .panic p) :: s.log }
  /-- marshal.go:16-17 -/
  | copy {s x k} : s.go i = .copy x k → PStep W i s (s.at i (.keep x k (s.mem k).buf))
  /-- marshal.go:19-22 -/
  | keep {s x k dst} : s.go i = .keep x k dst → PStep W i s { s.at i .idle with cpool := k :: s.cpool, log := (i, x, .ok dst) :: s.log }

/-- States reached by any number of goroutines in any interleaving. -/
inductive PReach (W : World) : PState → Prop
  | init : PReach W .init
  | step {s s' i} : PReach W s → PStep W i s s' → PReach W s'

end Verif

import Verif.Model.Encode
import Verif.Model.DecCompile
/-
Model of the two caches of prepared types, encoder/compile_cache.go and decoder/compile.go:13-49, used by any number of
goroutines at once. A prepared encoder or decoder is represented by the type it was prepared for (it is a function of that type).
-/
namespace Verif

/-- The answer to a request for the encoder or decoder of a type: (codeSet, err) of compile_cache.go:21, (dec, err) of
decoder/compile.go:22. -/
abbrev Answer := Except Err Ty

/-- `map[reflect.Type]encoder`, compile_cache.go:9, and `map[reflect.Type]Decoder`, decoder/compile.go:13. -/
abbrev CMap := List (Ty × Ty)

/-- Reading a map entry, compile_cache.go:23, decoder/compile.go:23 (Go's map type). -/
def CMap.get (m : CMap) (t : Ty) : Option Ty := List.lookup t m

/-- Writing a map entry, compile_cache.go:35 and 38, decoder/compile.go:41 and 44 (Go's map type). -/
def CMap.put (m : CMap) (t c : Ty) : CMap := (t, c) :: m.filter (fun e => !decide (e.1 = t))

/-- The compiler behind a cache: `fin t as r` means that `compileType` (compile.go:10-12) or `compileHead` (decoder/compile.go:51-56)
can end with `r` for type `t` when the requests it makes in turn are answered by `as`. `newFirst`: whether the new entry
is written before the old ones are copied (compile_cache.go:35-39) or after (decoder/compile.go:40-44). -/
structure Proto where
  fin : Ty → List (Ty × Answer) → Answer → Prop
  newFirst : Bool

/-- A request in progress. `a` is the address of the map loaded at its beginning, `b` that of the map being built.
compile_cache.go:21-43, decoder/compile.go:21-49. -/
inductive Req where
  /-- before `Load`: compile_cache.go:22, decoder/compile.go:22 -/
  | load (t : Ty)
  /-- before the lookup: compile_cache.go:23, decoder/compile.go:23 -/
  | look (t : Ty) (a : Nat)
  /-- in the compiler, with the answers it has received so far: compile_cache.go:26, decoder/compile.go:27 -/
  | compiling (t : Ty) (a : Nat) (as : List (Ty × Answer))
  /-- before `make`: compile_cache.go:34, decoder/compile.go:39 -/
  | make (t : Ty) (a : Nat) (c : Ty)
  /-- filling the new map, with the entries still to be written: compile_cache.go:35-39, decoder/compile.go:40-44 -/
  | fill (t c : Ty) (b : Nat) (ws : List (Ty × Ty))
  /-- before `Store`: compile_cache.go:41, decoder/compile.go:46 -/
  | publish (t c : Ty) (b : Nat)

/-- Memory and goroutines. `maps` are all maps ever made, by address; `cur` is the value of the atomic pointer
(`cachedEncoderMap`, compile_cache.go:9, `cachedDecoderMap`, decoder/compile.go:13). A goroutine is a stack of requests, those of the compiler
on top of those it serves. `log` lists the requests that have been answered. -/
structure CState where
  maps : List CMap
  cur : Nat
  go : Nat → List Req
  log : List (Nat × Ty × Answer)

/-- The initial state, compile_cache.go:12-15, decoder/compile.go:16-19: an empty map; no goroutine in a request. -/
def CState.init : CState := { maps := [[]], cur := 0, go := fun _ => [], log := [] }

/-- Goroutine `i` continues with the requests `rs`. -/
def CState.next (s : CState) (i : Nat) (rs : List Req) : CState := { s with go := fun j => if j = i then rs else s.go j }

/-- A request for `t` made by goroutine `i` is answered with `r` (`return`, compile_cache.go:24, 28 and 31, decoder/compile.go:24, 29 and 34): the request below continues,
or the caller. -/
def CState.answer (s : CState) (i : Nat) (t : Ty) (r : Answer) : List Req → CState
  | .compiling t' a as :: rs => s.next i (.compiling t' a ((t, r) :: as) :: rs)
  | rs => { s.next i rs with log := (i, t, r) :: s.log }

/-- The entries written to the new map: the range loops of compile_cache.go:37-39 and decoder/compile.go:40-42 deliver
the entries of the old map in any order. -/
def Writes (P : Proto) (m : CMap) (t c : Ty) (ws : List (Ty × Ty)) : Prop :=
  ∃ m' : CMap, m'.Perm m ∧ ws = if P.newFirst then (t, c) :: m' else m' ++ [(t, c)]

/-- One step of goroutine `i`. The scheduler may choose any goroutine at any time. -/
inductive CStep (P : Proto) (i : Nat) : CState → CState → Prop
  /-- a new request by the program: `compileWithCache`, compile_cache.go:45-47, `CompileToGetDecoder`, decoder/compile.go:21 -/
  | call {s t} : s.go i = [] → CStep P i s (s.next i [.load t])
  /-- `Load`: compile_cache.go:22, decoder/compile.go:22 -/
  | load {s t rs} : s.go i = .load t :: rs → CStep P i s (s.next i (.look t s.cur :: rs))
  /-- found: compile_cache.go:23-25, decoder/compile.go:23-25 -/
  | hit {s t a c rs m} : s.go i = .look t a :: rs → s.maps[a]? = some m → m.get t = some c → CStep P i s (s.answer i t (.ok c) rs)
  /-- not found: compile_cache.go:26, decoder/compile.go:27 -/
  | miss {s t a rs m} : s.go i = .look t a :: rs → s.maps[a]? = some m → m.get t = none → CStep P i s (s.next i (.compiling t a [] :: rs))
  /-- the compiler makes a request: array.go:14 and 19. Which ones it makes is left open. -/
  | ask {s t a as t' rs} : s.go i = .compiling t a as :: rs → CStep P i s (s.next i (.load t' :: .compiling t a as :: rs))
  /-- the compiler fails: compile_cache.go:27-29, decoder/compile.go:28-30 -/
  | fail {s t a as e rs} : s.go i = .compiling t a as :: rs → P.fin t as (.error e) → CStep P i s (s.answer i t (.error e) rs)
  /-- the compiler succeeds: compile_cache.go:30, decoder/compile.go:32 -/
  | done {s t a as c rs} : s.go i = .compiling t a as :: rs → P.fin t as (.ok c) → CStep P i s (s.next i (.make t a c :: rs))
  /-- `make`: compile_cache.go:34, decoder/compile.go:39 -/
  | make {s t a c ws rs m} : s.go i = .make t a c :: rs → s.maps[a]? = some m → Writes P m t c ws →
      CStep P i s { s.next i (.fill t c s.maps.length ws :: rs) with maps := s.maps ++ [[]] }
  /-- an assignment to the new map: compile_cache.go:35 and 38, decoder/compile.go:41 and 44 -/
  | write {s t c b k v ws rs m} : s.go i = .fill t c b ((k, v) :: ws) :: rs → s.maps[b]? = some m →
      CStep P i s { s.next i (.fill t c b ws :: rs) with maps := s.maps.set b (m.put k v) }
  /-- the new map is complete -/
  | filled {s t c b rs} : s.go i = .fill t c b [] :: rs → CStep P i s (s.next i (.publish t c b :: rs))
  /-- `Store`: compile_cache.go:41, decoder/compile.go:46 -/
  | store {s t c b rs} : s.go i = .publish t c b :: rs → CStep P i s ({ s with cur := b }.answer i t (.ok c) rs)

/-- States reached from the start by any number of goroutines in any interleaving. -/
inductive CReach (P : Proto) : CState → Prop
  | init : CReach P .init
  | step {s s' i} : CReach P s → CStep P i s s' → CReach P s'

/-- `compile` of the encoder, compile.go:14-51, with `compileArray` (array.go:7-25) asking the cache for its element type (`orc`); otherwise like
`compileE`. -/
def compileEV (W : World) (orc : Ty → Res Unit) : Nat → List Ty → Ty → Res (List Ty)
  | 0, _, _ => .diverge
  | f + 1, seen, t =>
    if W.marOf t then .ok seen
    else if t = .slice (.uint .u8) then .ok seen
    else match W.resolve t with
      | .bool | .int _ | .f32 | .f64 | .str | .any | .iface _ => .ok seen
      | .uint k => if k = .uptr then .err (.unsupported "uintptr") else .ok seen
      | .struct id => compileEStruct W (compileEV W orc f) seen t (W.fields id)
      | .array _ e => orc e >>= fun _ => .ok seen
      | .slice e => compileESlice (compileEV W orc f) seen t e
      | .map k v => compileEMap W (compileEV W orc f) seen t k v
      | .ptr e => compileEPtr W (compileEV W orc f) seen e
      | .other | .named _ => .err (.unsupported "type")

/-- The answers received so far (array.go:14-22); the compiler cannot go on without an answer. -/
def answered (as : List (Ty × Answer)) (t : Ty) : Res Unit :=
  match List.lookup t as with
  | some (.ok _) => .ok ()
  | some (.error e) => .err e
  | none => .diverge

/-- The encoder's compiler, `compileType`, compile.go:10-12. -/
def encProto (W : World) : Proto where
  fin := fun t as r => match r with
    | .ok c => c = t ∧ ∃ n seen, compileEV W (answered as) n [] t = .ok seen
    | .error e => ∃ n, compileEV W (answered as) n [] t = .err e
  newFirst := true

/-- The decoder's compiler, `compileHead`, decoder/compile.go:51-56, which makes no requests; types stand for the pointers to them, which are
the keys of the decoder's cache. -/
def decProto (W : World) : Proto where
  fin := fun t _ r => match r with
    | .ok c => c = t ∧ ∃ n, compileD W n [] t = .ok ()
    | .error e => ∃ n, compileD W n [] t = .err e
  newFirst := false

end Verif

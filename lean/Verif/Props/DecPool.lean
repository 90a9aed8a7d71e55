import Verif.Proofs.DecPool
import Verif.Props.Demo
/-
C53: calls of `Unmarshal` do not disturb each other. `DReach W s`: the state `s` is reached by any number of goroutines that call `Unmarshal`
in any interleaving; `s.log` lists the calls that returned, with what they left behind.
-/
namespace Verif
open Spec

/-- C53: whatever other calls did before, do meanwhile, or did with the slices they got, a call ends as it does alone in a new program. -/
theorem C53_history (W : World) (s : DState) (hr : DReach W s) (e : DEntry) (he : e ∈ s.log) : UnmarshalGives W e.call e.res :=
  (reach_dinv hr).log e he

/-- C53: the same call leaves the same behind after any two histories. -/
theorem C53_same (W : World) (s s' : DState) (hr : DReach W s) (hr' : DReach W s') (e e' : DEntry) (he : e ∈ s.log) (he' : e' ∈ s'.log)
    (hx : e.call = e'.call) : e.res = e'.res :=
  (C53_history W s hr e he).unique (hx ▸ C53_history W s' hr' e' he')

/-- C53: no two calls in progress use the same context. -/
theorem C53_contexts (W : World) (s : DState) (hr : DReach W s) (i j k : Nat) (hi : UsesCtx (s.go i) k) (hj : UsesCtx (s.go j) k) : i = j :=
  (reach_dinv hr).cTwo i j k hi hj

/-- C53: a context in the pool is there once, no call uses it, and it holds no input. -/
theorem C53_pooled (W : World) (s : DState) (hr : DReach W s) :
    s.pool.Nodup ∧ ∀ k ∈ s.pool, s.ctx k = none ∧ ∀ i, ¬ UsesCtx (s.go i) k :=
  ⟨(reach_dinv hr).nd, fun k hk => ⟨((reach_dinv hr).pool k hk).2, fun i hu => ((reach_dinv hr).cOld i k hu).2 hk⟩⟩

/-- C53: a decoder that reads `ctx.Buf` finds the input of its own call there. -/
theorem C53_reads (W : World) (s : DState) (hr : DReach W s) (i : Nat) (x : DCall) (a k : Nat) (p : Reads) (hi : s.go i = .run x a k p) :
    s.buf k = x.1 := by
  have := (reach_dinv hr).gor i
  rw [hi] at this
  unfold DState.buf
  rw [this.2.2.1]
  exact this.1

/-- C53: a step of a goroutine changes neither the context nor the copy of the input of a call in progress in another. -/
theorem C53_untouched (W : World) (s s' : DState) (hr : DReach W s) (i j : Nat) (hij : i ≠ j) (hs : DStep W i s s') :
    (∀ k, UsesCtx (s.go j) k → s'.ctx k = s.ctx k) ∧ ∀ a, UsesSrc (s.go j) a → s'.arr a = s.arr a := by
  have h := reach_dinv hr
  have m := step_dmoves h hs
  refine ⟨fun k hk => ?_, fun a ha => ?_⟩
  · rcases m.memC k with h1 | h1 | h1
    · exact h1
    · exact (hij (h.cTwo i j k h1 hk)).elim
    · have := (h.cOld j k hk).1; omega
  · rcases m.memA a with h1 | h1 | h1
    · exact h1
    · have := (h.aOld j a ha).1; omega
    · exact ((h.aOld j a ha).2 h1).elim

/-- C53: every call has a copy of its input for itself: no two calls that returned have the same, and a call in progress has one that no other call
in progress has and no call that returned. -/
theorem C53_private (W : World) (s : DState) (hr : DReach W s) :
    (∀ (n m : Nat) (e e' : DEntry) (a : Nat), s.log[n]? = some e → s.log[m]? = some e' → e.src = some a → e'.src = some a → n = m) ∧
    ∀ i a, UsesSrc (s.go i) a → (∀ j, UsesSrc (s.go j) a → i = j) ∧ ∀ e ∈ s.log, e.src ≠ some a := by
  have h := reach_dinv hr
  refine ⟨?_, fun i a ha => ⟨fun j hj => h.aTwo i j a ha hj, fun e he hs => (h.aOld i a ha).2 (List.mem_filterMap.2 ⟨e, he, hs⟩)⟩⟩
  have nd := h.outNd
  unfold DState.out at nd
  generalize s.log = l at nd
  clear h hr
  induction l with
  | nil => intro n m e e' a hn; simp at hn
  | cons d l ih =>
    intro n m e e' a hn hm he he'
    have tl : (l.filterMap (·.src)).Nodup := by
      cases hd : d.src with
      | none => simpa [hd] using nd
      | some b => rw [List.filterMap_cons_some hd] at nd; exact (List.nodup_cons.1 nd).2
    have ne : ∀ (k : Nat) (f : DEntry), d.src = some a → l[k]? = some f → f.src = some a → False := by
      intro k f hd hk hf
      rw [List.filterMap_cons_some hd] at nd
      exact (List.nodup_cons.1 nd).1 (List.mem_filterMap.2 ⟨f, List.mem_of_getElem? hk, hf⟩)
    cases n with
    | zero =>
      cases m with
      | zero => rfl
      | succ m => cases hn; exact (ne m e' he hm he').elim
    | succ n =>
      cases m with
      | zero => cases hm; exact (ne n e he' hn he).elim
      | succ m => rw [ih tl n m e e' a hn hm he he']

/-- C53: no call waits for another: a goroutine inside `Unmarshal` can take its next step whatever the others do, unless the preparation of its type
does not come to an end. -/
theorem C53_not_blocked (W : World) (s : DState) (hr : DReach W s) (i : Nat) (hi : s.go i ≠ .idle)
    (hc : ∀ d a t v, s.go i = .copied (d, .ptr t v) a → CompileGives W t (.ok ()) ∨ ∃ e, CompileGives W t (.err e)) :
    ∃ s', DStep W i s s' ∧ s'.go i ≠ s.go i := by
  have ok := (reach_dinv hr).gor i
  cases hg : s.go i with
  | idle => exact (hi hg).elim
  | start x =>
    obtain ⟨d, dst⟩ := x
    by_cases hd : d = []
    · subst hd
      exact ⟨_, .refuse hg (.inl rfl) ⟨0, fun f _ => rfl⟩, by simp [DState.at, DState.ret]⟩
    · have hl : ¬ d.length = 0 := by simpa using hd
      cases dst with
      | ptr t v => exact ⟨_, .copy hg hd rfl, by simp [DState.at, DState.setArr]⟩
      | nilIface => exact ⟨_, .refuse (r := (none, .panic .zeroValue)) hg (.inr (by simp)) ⟨0, fun f _ => by simp [unmarshal, hl]⟩, by simp [DState.at, DState.ret]⟩
      | nonPtr => exact ⟨_, .refuse (r := (none, .err .invalidUnmarshal)) hg (.inr (by simp)) ⟨0, fun f _ => by simp [unmarshal, hl]⟩, by simp [DState.at, DState.ret]⟩
      | nilPtr => exact ⟨_, .refuse (r := (none, .err .invalidUnmarshal)) hg (.inr (by simp)) ⟨0, fun f _ => by simp [unmarshal, hl]⟩, by simp [DState.at, DState.ret]⟩
  | copied x a =>
    rw [hg] at ok
    obtain ⟨d, dst⟩ := x
    obtain ⟨-, -, t, v, e⟩ := ok
    cases e
    rcases hc d a t v hg with h | ⟨e, h⟩
    · exact ⟨_, .takeNew hg rfl h, by simp [DState.at]⟩
    · exact ⟨_, .compileErr hg rfl h, by simp [DState.at, DState.ret]⟩
  | took x a k =>
    rw [hg] at ok
    obtain ⟨d, dst⟩ := x
    obtain ⟨-, hx, t, v, e, n, hn⟩ := ok
    cases e
    refine ⟨_, .buf (p := .done (unmarshal W n d (.ptr t v))) hg ⟨n, fun f hf => ?_⟩, by simp [DState.at]⟩
    have hl : ¬ d.length = 0 := by simpa using hx
    simp only [Reads.alone, unmarshal, hl, if_false, unmarshalInto, hn n (Nat.le_refl _), hn f hf]
  | run x a k p =>
    cases p with
    | read f =>
      by_cases e : f (s.buf k) = .read f
      · exact (no_loop e).elim
      · exact ⟨_, .read hg, by simp [DState.at, e]⟩
    | done r => exact ⟨_, .done hg, by simp [DState.at]⟩
  | ending x a k r => exact ⟨_, .clear hg, by simp [DState.at]⟩
  | cleared x a k r => exact ⟨_, .put hg, by simp [DState.at, DState.ret]⟩

namespace Demo

/-- An input that ends too early, after a decoder has begun to read. -/
def cutCall : DCall := (b! "s:3:\"ab", .ptr .str (.str []))

/-- A complete input. -/
def wholeCall : DCall := (b! "s:2:\"xy\";", .ptr .str (.str []))

/-- Reads of a call: the context is looked at twice. -/
def twice (t : Ty) (v : Val) : Reads := .read fun _ => .read fun b => .done (match unmarshalInto W 1 b t v with | (v', r) => (some v', r))

theorem compile_str : CompileGives W .str (.ok ()) := ⟨1, fun f hf => by obtain ⟨f, rfl⟩ : ∃ g, f = g + 1 := ⟨f - 1, by omega⟩; rfl⟩

theorem cut_gives : UnmarshalGives W cutCall ((twice .str (.str [])).alone cutCall.1) :=
  ⟨1, fun f hf => by obtain ⟨f, rfl⟩ : ∃ g, f = g + 1 := ⟨f - 1, by omega⟩; rfl⟩

theorem whole_gives : UnmarshalGives W wholeCall ((twice .str (.str [])).alone wholeCall.1) :=
  ⟨1, fun f hf => by obtain ⟨f, rfl⟩ : ∃ g, f = g + 1 := ⟨f - 1, by omega⟩; rfl⟩

end Demo

/-- The hypotheses can be met: goroutine 0 fails; goroutine 1 gets its context, and while it decodes, goroutine 2 calls `Unmarshal` with a new context
and the bytes of the first input are overwritten. -/
example : ∃ s, DReach Demo.W s ∧ s.cnext = 2 ∧ s.pool = [1, 0] ∧ s.arr 0 = b! "gone" ∧
    (s.log.map fun e => (e.gor, e.src)) = [(2, some 2), (1, some 1), (0, some 0)] ∧
    s.log.map (·.res) = [(some (.str []), .err (.unexpectedEnd "string" 5)), (some (.str (b! "xy")), .ok ()), (some (.str []), .err (.unexpectedEnd "string" 5))] := by
  have h := DReach.init (W := Demo.W)
  have h := h.step (.call (i := 0) (x := Demo.cutCall) rfl)
  have h := h.step (.copy (i := 0) (x := Demo.cutCall) rfl (by decide) rfl)
  have h := h.step (.takeNew (i := 0) rfl rfl Demo.compile_str)
  have h := h.step (.buf (i := 0) (x := Demo.cutCall) rfl Demo.cut_gives)
  have h := h.step (.read (i := 0) rfl)
  have h := h.step (.read (i := 0) rfl)
  have h := h.step (.done (i := 0) rfl)
  have h := h.step (.clear (i := 0) rfl)
  have h := h.step (.put (i := 0) rfl)
  have h := h.step (.call (i := 1) (x := Demo.wholeCall) rfl)
  have h := h.step (.copy (i := 1) (x := Demo.wholeCall) rfl (by decide) rfl)
  have h := h.step (.take (i := 1) (k := 0) rfl rfl Demo.compile_str (by exact List.mem_cons_self))
  have h := h.step (.buf (i := 1) (x := Demo.wholeCall) rfl Demo.whole_gives)
  have h := h.step (.read (i := 1) rfl)
  have h := h.step (.call (i := 2) (x := Demo.cutCall) rfl)
  have h := h.step (.copy (i := 2) (x := Demo.cutCall) rfl (by decide) rfl)
  have h := h.step (.takeNew (i := 2) rfl rfl Demo.compile_str)
  have h := h.step (.buf (i := 2) (x := Demo.cutCall) rfl Demo.cut_gives)
  have h := h.step (.scribble (i := 3) (a := 0) (bs := b! "gone") (by exact List.mem_cons_self) rfl)
  have h := h.step (.read (i := 1) rfl)
  have h := h.step (.done (i := 1) rfl)
  have h := h.step (.clear (i := 1) rfl)
  have h := h.step (.read (i := 2) rfl)
  have h := h.step (.put (i := 1) rfl)
  have h := h.step (.read (i := 2) rfl)
  have h := h.step (.done (i := 2) rfl)
  have h := h.step (.clear (i := 2) rfl)
  have h := h.step (.put (i := 2) rfl)
  refine ⟨_, h, rfl, rfl, rfl, rfl, ?_⟩
  rfl

end Verif

import Verif.Spec.Pool
import Verif.Proofs.Pool
import Verif.Props.DemoEnc
/-
Reuse of contexts and buffers (C30, C43). `PReach W s`: the state `s` is reached by any number of goroutines that call `Marshal` in any
interleaving; `s.log` lists the calls that returned (or panicked), with their results.
-/
namespace Verif
open Spec

theorem holdsCtx_held {g : Gor} {k : Nat} (h : HoldsCtx g k) : k ∈ held g := by cases h <;> simp [held]

theorem holdsBuf_held {g : Gor} {n b : Nat} (h : HoldsBuf g n b) : b ∈ held g := by
  cases h with
  | run h => exact List.mem_append_left _ (List.mem_of_getElem? h)
  | fail h => exact List.mem_append_left _ (List.mem_of_getElem? h)
  | crash h => exact List.mem_of_getElem? h

/-- C43: no two running calls use the same context. -/
theorem C43_contexts (W : World) (s : PState) (hr : PReach W s) (i j k : Nat) (hi : HoldsCtx (s.go i) k) (hj : HoldsCtx (s.go j) k) : i = j := by
  by_cases e : i = j
  · exact e
  · exact ((reach_psep hr).two i j e k (holdsCtx_held hi) (holdsCtx_held hj)).elim

theorem nodup_getElem? {l : List Nat} (h : l.Nodup) {n m b : Nat} (hn : l[n]? = some b) (hm : l[m]? = some b) : n = m := by
  obtain ⟨h1, h2⟩ := List.getElem?_eq_some_iff.1 hn
  obtain ⟨h3, h4⟩ := List.getElem?_eq_some_iff.1 hm
  exact (List.getElem_inj h).1 (h2.trans h4.symm)

/-- C43: no two structs being encoded, by the same call or by two, use the same buffer, nor is it the buffer of a context. -/
theorem C43_buffers (W : World) (s : PState) (hr : PReach W s) (i j n m b : Nat) (hi : HoldsBuf (s.go i) n b) :
    (HoldsBuf (s.go j) m b → i = j ∧ n = m) ∧ ¬ HoldsCtx (s.go j) b := by
  have sep := reach_psep hr
  have key : b ∈ held (s.go j) → i = j := fun hb => by
    by_cases e : i = j
    · exact e
    · exact (sep.two i j e b (holdsBuf_held hi) hb).elim
  refine ⟨fun hj => ?_, fun hj => ?_⟩
  · have e := key (holdsBuf_held hj)
    subst e
    refine ⟨rfl, ?_⟩
    have hn := (List.nodup_append.1 (sep.own i)).1
    generalize s.go i = g at *
    cases hi with
    | run h1 => cases hj with | run h2 => exact nodup_getElem? (List.nodup_append.1 hn).1 h1 h2
    | fail h1 => cases hj with | fail h2 => exact nodup_getElem? (List.nodup_append.1 hn).1 h1 h2
    | crash h1 => cases hj with | crash h2 => exact nodup_getElem? hn h1 h2
  · have e := key (holdsCtx_held hj)
    subst e
    have hn := (List.nodup_append.1 (sep.own i)).1
    generalize s.go i = g at *
    cases hi with
    | run h1 => cases hj; exact (List.nodup_append.1 hn).2.2 b (List.mem_of_getElem? h1) b (by simp) rfl
    | fail h1 => cases hj; exact (List.nodup_append.1 hn).2.2 b (List.mem_of_getElem? h1) b (by simp) rfl
    | crash h1 => cases hj

/-- C43: what is in a pool is in no use, is there once, and in one pool only. -/
theorem C43_pooled (W : World) (s : PState) (hr : PReach W s) : (s.cpool ++ s.bpool).Nodup ∧
    ∀ o ∈ s.cpool ++ s.bpool, ∀ i n, ¬ HoldsCtx (s.go i) o ∧ ¬ HoldsBuf (s.go i) n o := by
  have sep := reach_psep hr
  refine ⟨(List.nodup_append.1 (sep.own 0)).2.1, fun o ho i n => ⟨fun h => ?_, fun h => ?_⟩⟩
  · exact (List.nodup_append.1 (sep.own i)).2.2 o (holdsCtx_held h) o ho rfl
  · exact (List.nodup_append.1 (sep.own i)).2.2 o (holdsBuf_held h) o ho rfl

/-- C43: every pooled context is clean. -/
theorem C43_clean (W : World) (s : PState) (hr : PReach W s) (k : Nat) (hk : k ∈ s.cpool) : (s.mem k).ctx.seen = [] ∧ (s.mem k).ctx.depth = 0 := by
  rw [(reach_pinv hr).pool k hk]; exact ⟨rfl, rfl⟩

/-- C43: a step of a goroutine changes no object another one uses. -/
theorem C43_untouched (W : World) (s s' : PState) (hr : PReach W s) (i j o n : Nat) (hij : i ≠ j) (hs : PStep W i s s')
    (ho : HoldsCtx (s.go j) o ∨ HoldsBuf (s.go j) n o) : s'.mem o = s.mem o := by
  have mv := step_moves hs
  have sep := (reach_psep hr).move mv
  have ho : o ∈ held (s'.go j) := by
    rw [mv.go j (fun e => hij e.symm)]
    exact ho.elim holdsCtx_held holdsBuf_held
  exact mv.mem o (sep.two j i (fun e => hij e.symm) o ho)

/-- C43: no call waits for another: a goroutine inside `Marshal` can take its next step whatever the others do, unless its encoder runs
on without end. -/
theorem C43_not_blocked (W : World) (s : PState) (hr : PReach W s) (i : Nat) (hi : s.go i ≠ .idle)
    (hd : ∀ x c0 k fs, s.go i ≠ .run x c0 k fs [] .diverge) : ∃ s', PStep W i s s' ∧ s'.go i ≠ s.go i := by
  have ok := (reach_pinv hr).gor i
  cases hg : s.go i with
  | idle => exact (hi hg).elim
  | start x =>
    refine ⟨_, .new (as := []) (out := .diverge) hg ?_, by simp [PState.at]⟩
    exact ⟨_, _, rfl, trivial⟩
  | run x c0 k fs as out =>
    rw [hg] at ok
    obtain ⟨-, c, st, h1, h2⟩ := ok
    cases as with
    | nil =>
      cases out with
      | ok tx => exact ⟨_, .ok hg, by simp [PState.at]⟩
      | err e => exact ⟨_, .err hg, by simp [PState.at]⟩
      | panic p => exact ⟨_, .panic hg, by simp [PState.at]⟩
      | diverge => exact (hd x c0 k fs hg).elim
    | cons a as =>
      cases a with
      | write bs => exact ⟨_, .write hg, by simp [PState.at]⟩
      | push => exact ⟨_, .pushNew hg, by simp [PState.at]⟩
      | join pre post =>
        cases fs with
        | nil => simp [solo] at h1
        | cons b fs => exact ⟨_, .join hg, by simp [PState.at]⟩
      | free =>
        cases fs with
        | nil => simp [solo] at h1
        | cons b fs => exact ⟨_, .free hg, by simp [PState.at]⟩
      | ctx c => exact ⟨_, .ctx hg, by simp [PState.at]⟩
  | fail x k fs e =>
    cases fs with
    | nil => exact ⟨_, .failEnd hg, by simp [PState.at]⟩
    | cons b fs => exact ⟨_, .failBuf hg, by simp [PState.at]⟩
  | crash x fs p =>
    cases fs with
    | nil => exact ⟨_, .crashEnd hg, by simp [PState.at]⟩
    | cons b fs => exact ⟨_, .crashBuf hg, by simp [PState.at]⟩
  | copy x k => exact ⟨_, .copy hg, by simp [PState.at]⟩
  | keep x k dst => exact ⟨_, .keep hg, by simp [PState.at]⟩

/-- C30: after any history of calls, in any number of goroutines, including calls that failed or panicked half-way, `Marshal` returns what
it returns with a new context and new buffers. -/
theorem C30_history (W : World) (s : PState) (hr : PReach W s) (i : Nat) (h : Heap) (x : Option (Ty × GV)) (r : Res Bytes)
    (hl : (i, (h, x), r) ∈ s.log) : MarshalGives W h x r :=
  (reach_pinv hr).log i (h, x) r hl

/-- C30: the same call returns the same after any two histories. -/
theorem C30_same (W : World) (s s' : PState) (hr : PReach W s) (hr' : PReach W s') (i j : Nat) (x : Call) (r r' : Res Bytes)
    (hl : (i, x, r) ∈ s.log) (hl' : (j, x, r') ∈ s'.log) : r = r' :=
  (C30_history W s hr i x.1 x.2 r hl).unique (C30_history W s' hr' j x.1 x.2 r' hl')

/-- C30 without goroutines: a call that starts with the context another one left when it returned a text or an error returns what it
returns with a new context. -/
theorem C30_next (W : World) (h h' : Heap) (x x' : Option (Ty × GV)) (cf f cf' f' : Nat) (hn : ∀ p, (marshal W h cf f .clean x).2 ≠ .panic p)
    (hd : (marshal W h cf f .clean x).2 ≠ .diverge) :
    marshal W h' cf' f' (marshal W h cf f .clean x).1 x' = marshal W h' cf' f' .clean x' := by
  suffices hc : (marshal W h cf f .clean x).1 = .clean by rw [hc]
  cases x with
  | none => rfl
  | some tv =>
    obtain ⟨t, v⟩ := tv
    generalize hm : marshal W h cf f .clean (some (t, v)) = q at *
    obtain ⟨c, r⟩ := q
    cases r with
    | ok tx => exact ((marshal_sound hm).1 tx rfl).1
    | err e => exact (marshal_sound hm).2 e rfl
    | panic p => exact (hn p rfl).elim
    | diverge => exact (hd rfl).elim

namespace Demo

/-- A struct whose field `any` holds a uintptr, which `Marshal` rejects after it has begun to write. -/
def badCall : Call := (heap, some (.struct 3, .struct [.iface (.uint .uptr) (.uint 1)]))

/-- A struct with an int in field `any`. -/
def goodCall : Call := (heap, some (.struct 3, .struct [.iface (.int .int) (.int 5)]))

theorem badScript : Script W badCall .clean [.push, .write (b! "s:3:\"any\";")] (.err (.unsupported "interface value")) :=
  ⟨.clean, _, rfl, 9, fun cf f h1 h2 => marshal_mono (cf := 9) (f := 9) (by rfl) (by simp) h1 h2⟩

theorem goodScript : Script W goodCall .clean
    [.push, .write (b! "s:3:\"any\";"), .write (b! "i:5;"), .join (b! "a:1:{") (b! "}"), .free] (.ok (b! "a:1:{s:3:\"any\";i:5;}")) :=
  ⟨.clean, _, rfl, rfl, 9, fun cf f h1 h2 => marshal_mono (cf := 9) (f := 9) (by rfl) (by simp) h1 h2⟩

end Demo

/-- The hypotheses can be met: goroutine 0 fails while it writes a struct; goroutine 1 then gets the same context and the same buffer, with
the text left in them, and returns the right text. -/
example : ∃ s, PReach Demo.W s ∧ s.next = 2 ∧ s.cpool = [0] ∧ s.bpool = [1] ∧
    s.log = [(1, Demo.goodCall, .ok (b! "a:1:{s:3:\"any\";i:5;}")), (0, Demo.badCall, .err (.unsupported "interface value"))] := by
  have h := PReach.init (W := Demo.W)
  have h := h.step (.call (i := 0) (x := Demo.badCall) rfl)
  have h := h.step (.new (i := 0) (x := Demo.badCall) rfl Demo.badScript)
  have h := h.step (.pushNew (i := 0) rfl)
  have h := h.step (.write (i := 0) rfl)
  have h := h.step (.err (i := 0) rfl)
  have h := h.step (.failBuf (i := 0) rfl)
  have h := h.step (.failEnd (i := 0) rfl)
  have h := h.step (.call (i := 1) (x := Demo.goodCall) rfl)
  have h := h.step (.get (i := 1) (k := 0) (x := Demo.goodCall) rfl (by exact List.mem_cons_self) Demo.goodScript)
  have h := h.step (.push (i := 1) (b := 1) rfl (by exact List.mem_cons_self))
  have h := h.step (.write (i := 1) rfl)
  have h := h.step (.write (i := 1) rfl)
  have h := h.step (.join (i := 1) rfl)
  have h := h.step (.free (i := 1) rfl)
  have h := h.step (.ok (i := 1) rfl)
  have h := h.step (.copy (i := 1) rfl)
  have h := h.step (.keep (i := 1) rfl)
  exact ⟨_, h, rfl, rfl, rfl, rfl⟩

end Verif

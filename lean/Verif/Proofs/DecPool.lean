import Verif.Spec.DecPool
import Verif.Proofs.DecSafe
/- Invariants of the pool of decoder contexts: contexts and copies have one owner, and what a call reads is its own input. -/
namespace Verif
open Spec

/-- The copies of inputs that calls have left to the program. -/
def DState.out (s : DState) : List Nat := s.log.filterMap (·.src)

/-- What is known of a goroutine by itself. -/
def DGorOk (W : World) (s : DState) : DGor → Prop
  | .idle | .start _ => True
  | .copied x a => s.arr a = x.1 ∧ x.1 ≠ [] ∧ ∃ t v, x.2 = .ptr t v
  | .took x a _ => s.arr a = x.1 ∧ x.1 ≠ [] ∧ ∃ t v, x.2 = .ptr t v ∧ CompileGives W t (.ok ())
  | .run x a k p => s.arr a = x.1 ∧ x.1 ≠ [] ∧ s.ctx k = some a ∧ UnmarshalGives W x (p.alone x.1)
  | .ending x a _ r => s.arr a = x.1 ∧ UnmarshalGives W x r
  | .cleared x a k r => s.arr a = x.1 ∧ s.ctx k = none ∧ UnmarshalGives W x r

structure DInv (W : World) (s : DState) : Prop where
  nd : s.pool.Nodup
  pool : ∀ k ∈ s.pool, k < s.cnext ∧ s.ctx k = none
  cOld : ∀ i k, UsesCtx (s.go i) k → k < s.cnext ∧ k ∉ s.pool
  cTwo : ∀ i j k, UsesCtx (s.go i) k → UsesCtx (s.go j) k → i = j
  aOld : ∀ i a, UsesSrc (s.go i) a → a < s.anext ∧ a ∉ s.out
  aTwo : ∀ i j a, UsesSrc (s.go i) a → UsesSrc (s.go j) a → i = j
  outNd : s.out.Nodup
  outOld : ∀ a ∈ s.out, a < s.anext
  gor : ∀ i, DGorOk W s (s.go i)
  log : ∀ e ∈ s.log, UnmarshalGives W e.call e.res

theorem DGorOk.frame {W : World} {s s' : DState} {g : DGor} (h : DGorOk W s g) (hc : ∀ k, UsesCtx g k → s'.ctx k = s.ctx k)
    (ha : ∀ a, UsesSrc g a → s'.arr a = s.arr a) : DGorOk W s' g := by
  cases g with
  | idle => trivial
  | start => trivial
  | copied x a => exact ⟨(ha _ .copied).trans h.1, h.2⟩
  | took x a k => exact ⟨(ha _ .took).trans h.1, h.2⟩
  | run x a k p => exact ⟨(ha _ .run).trans h.1, h.2.1, (hc _ .run).trans h.2.2.1, h.2.2.2⟩
  | ending x a k r => exact ⟨(ha _ .ending).trans h.1, h.2⟩
  | cleared x a k r => exact ⟨(ha _ .cleared).trans h.1, (hc _ .cleared).trans h.2.1, h.2.2⟩

/-- What a step of goroutine `i` may do. -/
structure DMoves (W : World) (i : Nat) (s s' : DState) : Prop where
  go : ∀ j, j ≠ i → s'.go j = s.go j
  nd : s'.pool.Nodup
  pool : ∀ k ∈ s'.pool, (k ∈ s.pool ∧ s'.ctx k = s.ctx k ∨ UsesCtx (s.go i) k ∧ s'.ctx k = none) ∧ ¬ UsesCtx (s'.go i) k
  cnext : s.cnext ≤ s'.cnext
  ctx : ∀ k, UsesCtx (s'.go i) k → UsesCtx (s.go i) k ∨ k ∈ s.pool ∨ k = s.cnext ∧ s'.cnext = s.cnext + 1
  anext : s.anext ≤ s'.anext
  src : ∀ a, UsesSrc (s'.go i) a → UsesSrc (s.go i) a ∧ a ∉ s'.out ∨ a = s.anext ∧ s'.anext = s.anext + 1
  out : s'.out = s.out ∨ ∃ a, UsesSrc (s.go i) a ∧ s'.out = a :: s.out
  memC : ∀ k, s'.ctx k = s.ctx k ∨ UsesCtx (s.go i) k ∨ k = s.cnext
  memA : ∀ a, s'.arr a = s.arr a ∨ a = s.anext ∨ a ∈ s.out
  gor : DGorOk W s' (s'.go i)
  log : ∀ e ∈ s'.log, UnmarshalGives W e.call e.res

theorem DInv.move {W : World} {i : Nat} {s s' : DState} (h : DInv W s) (m : DMoves W i s s') : DInv W s' := by
  have key : ∀ j, j ≠ i → ∀ k, UsesCtx (s.go j) k → ¬ UsesCtx (s'.go i) k := by
    intro j hj k h1 h2
    rcases m.ctx k h2 with h2 | h2 | h2
    · exact hj (h.cTwo j i k h1 h2)
    · exact (h.cOld j k h1).2 h2
    · have := (h.cOld j k h1).1; omega
  have keyA : ∀ j, j ≠ i → ∀ a, UsesSrc (s.go j) a → ¬ UsesSrc (s'.go i) a := by
    intro j hj a h1 h2
    rcases m.src a h2 with h2 | h2
    · exact hj (h.aTwo j i a h1 h2.1)
    · have := (h.aOld j a h1).1; omega
  refine ⟨m.nd, ?_, ?_, ?_, ?_, ?_, ?_, ?_, ?_, m.log⟩
  · intro k hk
    have := m.cnext
    rcases (m.pool k hk).1 with ⟨h1, h2⟩ | ⟨h1, h2⟩
    · have := h.pool k h1; exact ⟨by omega, h2.trans this.2⟩
    · have := (h.cOld i k h1).1; exact ⟨by omega, h2⟩
  · intro j k hk
    have := m.cnext
    by_cases e : j = i
    · subst e
      refine ⟨?_, fun hp => (m.pool k hp).2 hk⟩
      rcases m.ctx k hk with h1 | h1 | h1
      · have := (h.cOld j k h1).1; omega
      · have := (h.pool k h1).1; omega
      · omega
    · rw [m.go j e] at hk
      have h1 := h.cOld j k hk
      refine ⟨by omega, fun hp => ?_⟩
      rcases (m.pool k hp).1 with h2 | h2
      · exact h1.2 h2.1
      · exact e (h.cTwo j i k hk h2.1)
  · intro j l k hj hl
    by_cases ej : j = i
    · by_cases el : l = i
      · rw [ej, el]
      · subst ej
        rw [m.go l el] at hl
        exact (key l el k hl hj).elim
    · rw [m.go j ej] at hj
      by_cases el : l = i
      · subst el
        exact (key j ej k hj hl).elim
      · rw [m.go l el] at hl
        exact h.cTwo j l k hj hl
  · intro j a ha
    have := m.anext
    by_cases e : j = i
    · subst e
      rcases m.src a ha with ⟨h1, h2⟩ | h1
      · exact ⟨by have := (h.aOld j a h1).1; omega, h2⟩
      · refine ⟨by omega, fun ho => ?_⟩
        rcases m.out with h2 | ⟨b, h2, h3⟩
        · rw [h2] at ho; have := h.outOld a ho; omega
        · rw [h3] at ho
          rcases List.mem_cons.1 ho with rfl | ho
          · have := (h.aOld j _ h2).1; omega
          · have := h.outOld a ho; omega
    · rw [m.go j e] at ha
      have h1 := h.aOld j a ha
      refine ⟨by omega, fun ho => ?_⟩
      rcases m.out with h2 | ⟨b, h2, h3⟩
      · rw [h2] at ho; exact h1.2 ho
      · rw [h3] at ho
        rcases List.mem_cons.1 ho with rfl | ho
        · exact e (h.aTwo j i _ ha h2)
        · exact h1.2 ho
  · intro j l a hj hl
    by_cases ej : j = i
    · by_cases el : l = i
      · rw [ej, el]
      · subst ej
        rw [m.go l el] at hl
        exact (keyA l el a hl hj).elim
    · rw [m.go j ej] at hj
      by_cases el : l = i
      · subst el
        exact (keyA j ej a hj hl).elim
      · rw [m.go l el] at hl
        exact h.aTwo j l a hj hl
  · rcases m.out with h2 | ⟨b, h2, h3⟩
    · rw [h2]; exact h.outNd
    · rw [h3]; exact List.nodup_cons.2 ⟨(h.aOld i b h2).2, h.outNd⟩
  · intro a ha
    have := m.anext
    rcases m.out with h2 | ⟨b, h2, h3⟩
    · rw [h2] at ha; have := h.outOld a ha; omega
    · rw [h3] at ha
      rcases List.mem_cons.1 ha with rfl | ha
      · have := (h.aOld i _ h2).1; omega
      · have := h.outOld a ha; omega
  · intro j
    by_cases e : j = i
    · subst e; exact m.gor
    · rw [m.go j e]
      refine (h.gor j).frame (fun k hk => ?_) (fun a ha => ?_)
      · rcases m.memC k with h1 | h1 | h1
        · exact h1
        · exact (e (h.cTwo j i k hk h1)).elim
        · have := (h.cOld j k hk).1; omega
      · rcases m.memA a with h1 | h1 | h1
        · exact h1
        · have := (h.aOld j a ha).1; omega
        · exact ((h.aOld j a ha).2 h1).elim

theorem compileErr_gives {W : World} {x : DCall} {t : Ty} {v : Val} {e : Err} (hx : x.1 ≠ []) (ht : x.2 = .ptr t v)
    (h : CompileGives W t (.err e)) : UnmarshalGives W x (some v, .err e) := by
  obtain ⟨n, h⟩ := h
  refine ⟨n, fun f hf => ?_⟩
  unfold unmarshal
  rw [if_neg (by simpa using hx), ht]
  simp only [unmarshalInto, h f hf, onOk]

theorem step_dmoves {W : World} {i : Nat} {s s' : DState} (h : DInv W s) (st : DStep W i s s') : DMoves W i s s' := by
  have hok := h.gor i
  cases st with
  | @call x hg =>
    refine ⟨fun j hj => by simp [DState.at, hj], h.nd, fun k hk => ⟨.inl ⟨hk, rfl⟩, ?_⟩, Nat.le_refl _, fun k hk => ?_, Nat.le_refl _, fun a ha => ?_, .inl rfl,
      fun k => .inl rfl, fun a => .inl rfl, ?_, h.log⟩ <;> simp only [DState.at, if_true] at *
    · intro hk; cases hk
    · cases hk
    · cases ha
    · trivial
  | @refuse x r hg _ hr =>
    refine ⟨fun j hj => by simp [DState.at, DState.ret, hj], h.nd, fun k hk => ⟨.inl ⟨hk, rfl⟩, ?_⟩, Nat.le_refl _, fun k hk => ?_, Nat.le_refl _, fun a ha => ?_, .inl rfl,
      fun k => .inl rfl, fun a => .inl rfl, ?_, fun e he => ?_⟩ <;> simp only [DState.at, DState.ret, if_true] at *
    · intro hk; cases hk
    · cases hk
    · cases ha
    · trivial
    · rcases List.mem_cons.1 he with rfl | he
      · exact hr
      · exact h.log e he
  | @copy x t v hg hx ht =>
    refine ⟨fun j hj => by simp [DState.at, DState.setArr, hj], h.nd, fun k hk => ⟨.inl ⟨hk, rfl⟩, ?_⟩, Nat.le_refl _, fun k hk => ?_, Nat.le_succ _, fun a ha => ?_, .inl rfl,
      fun k => .inl rfl, fun a => ?_, ?_, h.log⟩ <;> simp only [DState.at, DState.setArr, if_true] at *
    · intro hk; cases hk
    · cases hk
    · cases ha; exact .inr ⟨rfl, trivial⟩
    · by_cases e : a = s.anext
      · exact .inr (.inl e)
      · exact .inl (by simp [e])
    · exact ⟨by simp, hx, t, v, ht⟩
  | @compileErr x a t v e hg ht hc =>
    rw [hg] at hok
    refine ⟨fun j hj => by simp [DState.at, DState.ret, hj], h.nd, fun k hk => ⟨.inl ⟨hk, rfl⟩, ?_⟩, Nat.le_refl _, fun k hk => ?_, Nat.le_refl _, fun a ha => ?_,
      .inr ⟨a, by rw [hg]; exact .copied, rfl⟩,
      fun k => .inl rfl, fun a => .inl rfl, ?_, fun e' he => ?_⟩ <;> simp only [DState.at, DState.ret, if_true] at *
    · intro hk; cases hk
    · cases hk
    · cases ha
    · trivial
    · rcases List.mem_cons.1 he with rfl | he
      · exact compileErr_gives hok.2.1 ht hc
      · exact h.log e' he
  | @take x a t v k hg ht hc hk =>
    rw [hg] at hok
    refine ⟨fun j hj => by simp [DState.at, hj], h.nd.erase k, fun k' hk' => ⟨.inl ⟨List.mem_of_mem_erase hk', rfl⟩, ?_⟩, Nat.le_refl _, fun k hk => ?_, Nat.le_refl _,
      fun a ha => ?_, .inl rfl, fun k => .inl rfl, fun a => .inl rfl, ?_, h.log⟩ <;> simp only [DState.at, if_true] at *
    · intro hu; cases hu
      exact (h.nd.mem_erase_iff.1 hk').1 rfl
    · cases hk; exact .inr (.inl ‹_›)
    · cases ha; exact .inl ⟨by rw [hg]; exact .copied, (h.aOld i _ (by rw [hg]; exact .copied)).2⟩
    · exact ⟨hok.1, hok.2.1, t, v, ht, hc⟩
  | @takeNew x a t v hg ht hc =>
    rw [hg] at hok
    refine ⟨fun j hj => by simp [DState.at, DState.setCtx, hj], h.nd, fun k hk => ⟨.inl ⟨hk, ?_⟩, ?_⟩, Nat.le_succ _, fun k hk => ?_, Nat.le_refl _,
      fun a ha => ?_, .inl rfl, fun k => ?_, fun a => .inl rfl, ?_, h.log⟩ <;> simp only [DState.at, DState.setCtx, if_true] at *
    · have := (h.pool k hk).1
      rw [if_neg (by omega)]
    · intro hu; cases hu
      have := (h.pool _ hk).1; omega
    · cases hk; exact .inr (.inr ⟨rfl, trivial⟩)
    · cases ha; exact .inl ⟨by rw [hg]; exact .copied, (h.aOld i _ (by rw [hg]; exact .copied)).2⟩
    · by_cases e : k = s.cnext
      · exact .inr (.inr e)
      · exact .inl (by simp [e])
    · exact ⟨hok.1, hok.2.1, t, v, ht, hc⟩
  | @buf x a k p hg hp =>
    rw [hg] at hok
    have hu : UsesCtx (s.go i) k := by rw [hg]; exact .took
    have hs : UsesSrc (s.go i) a := by rw [hg]; exact .took
    refine ⟨fun j hj => by simp [DState.at, DState.setCtx, hj], h.nd, fun k' hk => ⟨.inl ⟨hk, ?_⟩, ?_⟩, Nat.le_refl _, fun k hk => ?_, Nat.le_refl _,
      fun a ha => ?_, .inl rfl, fun k' => ?_, fun a => .inl rfl, ?_, h.log⟩ <;> simp only [DState.at, DState.setCtx, if_true] at *
    · rw [if_neg (fun e : k' = k => (h.cOld i k hu).2 (e ▸ hk))]
    · intro hu'; cases hu'
      exact (h.cOld i _ hu).2 hk
    · cases hk; exact .inl hu
    · cases ha; exact .inl ⟨hs, (h.aOld i _ hs).2⟩
    · by_cases e : k' = k
      · exact .inr (.inl (e ▸ hu))
      · exact .inl (by simp [e])
    · exact ⟨hok.1, hok.2.1, by simp, hp⟩
  | @read x a k f hg =>
    rw [hg] at hok
    have hu : UsesCtx (s.go i) k := by rw [hg]; exact .run
    have hs : UsesSrc (s.go i) a := by rw [hg]; exact .run
    refine ⟨fun j hj => by simp [DState.at, hj], h.nd, fun k' hk => ⟨.inl ⟨hk, rfl⟩, ?_⟩, Nat.le_refl _, fun k hk => ?_, Nat.le_refl _,
      fun a ha => ?_, .inl rfl, fun k' => .inl rfl, fun a => .inl rfl, ?_, h.log⟩ <;> simp only [DState.at, if_true] at *
    · intro hu'; cases hu'
      exact (h.cOld i _ hu).2 hk
    · cases hk; exact .inl hu
    · cases ha; exact .inl ⟨hs, (h.aOld i _ hs).2⟩
    · have hb : s.buf k = x.1 := by unfold DState.buf; rw [hok.2.2.1]; exact hok.1
      rw [hb]
      exact hok
  | @done x a k r hg =>
    rw [hg] at hok
    have hu : UsesCtx (s.go i) k := by rw [hg]; exact .run
    have hs : UsesSrc (s.go i) a := by rw [hg]; exact .run
    refine ⟨fun j hj => by simp [DState.at, hj], h.nd, fun k' hk => ⟨.inl ⟨hk, rfl⟩, ?_⟩, Nat.le_refl _, fun k hk => ?_, Nat.le_refl _,
      fun a ha => ?_, .inl rfl, fun k' => .inl rfl, fun a => .inl rfl, ?_, h.log⟩ <;> simp only [DState.at, if_true] at *
    · intro hu'; cases hu'
      exact (h.cOld i _ hu).2 hk
    · cases hk; exact .inl hu
    · cases ha; exact .inl ⟨hs, (h.aOld i _ hs).2⟩
    · exact ⟨hok.1, hok.2.2.2⟩
  | @clear x a k r hg =>
    rw [hg] at hok
    have hu : UsesCtx (s.go i) k := by rw [hg]; exact .ending
    have hs : UsesSrc (s.go i) a := by rw [hg]; exact .ending
    refine ⟨fun j hj => by simp [DState.at, DState.setCtx, hj], h.nd, fun k' hk => ⟨.inl ⟨hk, ?_⟩, ?_⟩, Nat.le_refl _, fun k hk => ?_, Nat.le_refl _,
      fun a ha => ?_, .inl rfl, fun k' => ?_, fun a => .inl rfl, ?_, h.log⟩ <;> simp only [DState.at, DState.setCtx, if_true] at *
    · rw [if_neg (fun e : k' = k => (h.cOld i k hu).2 (e ▸ hk))]
    · intro hu'; cases hu'
      exact (h.cOld i _ hu).2 hk
    · cases hk; exact .inl hu
    · cases ha; exact .inl ⟨hs, (h.aOld i _ hs).2⟩
    · by_cases e : k' = k
      · exact .inr (.inl (e ▸ hu))
      · exact .inl (by simp [e])
    · exact ⟨hok.1, by simp, hok.2⟩
  | @put x a k r hg =>
    rw [hg] at hok
    have hu : UsesCtx (s.go i) k := by rw [hg]; exact .cleared
    have hs : UsesSrc (s.go i) a := by rw [hg]; exact .cleared
    refine ⟨fun j hj => by simp [DState.at, DState.ret, hj], List.nodup_cons.2 ⟨(h.cOld i k hu).2, h.nd⟩, fun k' hk => ⟨?_, ?_⟩, Nat.le_refl _, fun k hk => ?_, Nat.le_refl _,
      fun a ha => ?_, .inr ⟨a, hs, rfl⟩, fun k' => .inl rfl, fun a => .inl rfl, ?_, fun e he => ?_⟩ <;> simp only [DState.at, DState.ret, if_true] at *
    · rcases List.mem_cons.1 hk with rfl | hk
      · exact .inr ⟨hu, hok.2.1⟩
      · exact .inl ⟨hk, trivial⟩
    · intro hu'; cases hu'
    · cases hk
    · cases ha
    · trivial
    · rcases List.mem_cons.1 he with rfl | he
      · exact hok.2.2
      · exact h.log e he
  | @drop k =>
    exact ⟨fun j hj => rfl, h.nd.erase k, fun k' hk' => ⟨.inl ⟨List.mem_of_mem_erase hk', rfl⟩, fun hu => (h.cOld i k' hu).2 (List.mem_of_mem_erase hk')⟩, Nat.le_refl _,
      fun k hk => .inl hk, Nat.le_refl _, fun a ha => .inl ⟨ha, (h.aOld i a ha).2⟩, .inl rfl, fun k => .inl rfl, fun a => .inl rfl, hok.frame (fun _ _ => rfl) (fun _ _ => rfl), h.log⟩
  | @scribble e a bs he ha =>
    have hout : a ∈ s.out := List.mem_filterMap.2 ⟨e, he, ha⟩
    refine ⟨fun j hj => rfl, h.nd, fun k' hk' => ⟨.inl ⟨hk', rfl⟩, fun hu => (h.cOld i k' hu).2 hk'⟩, Nat.le_refl _,
      fun k hk => .inl hk, Nat.le_refl _, fun a ha => .inl ⟨ha, (h.aOld i a ha).2⟩, .inl rfl, fun k => .inl rfl, fun a' => ?_, hok.frame (fun _ _ => rfl) (fun a' ha' => ?_), h.log⟩
    · by_cases e : a' = a
      · exact .inr (.inr (e ▸ hout))
      · exact .inl (by simp [DState.setArr, e])
    · have : a' ≠ a := fun e => (h.aOld i a' ha').2 (e ▸ hout)
      simp [DState.setArr, this]

theorem reach_dinv {W : World} {s : DState} (h : DReach W s) : DInv W s := by
  induction h with
  | init =>
    refine ⟨by simp [DState.init], by simp [DState.init], ?_, ?_, ?_, ?_, by simp [DState.init, DState.out], by simp [DState.init, DState.out], fun i => trivial,
      by simp [DState.init]⟩
    · intro i k hk; cases hk
    · intro i j k hk; cases hk
    · intro i k hk; cases hk
    · intro i j k hk; cases hk
  | step _ st ih => exact ih.move (step_dmoves ih st)

theorem no_loop {f : Bytes → Reads} {b : Bytes} : f b ≠ .read f := by
  suffices h : ∀ p f (b : Bytes), p = Reads.read f → f b ≠ .read f from h _ f b rfl
  intro p
  induction p with
  | read k ih => intro f b e hb; cases e; exact ih b _ b hb hb
  | done r => intro f b e; cases e

theorem UnmarshalGives.unique {W : World} {x : DCall} {r r' : DOut} (h : UnmarshalGives W x r) (h' : UnmarshalGives W x r') : r = r' := by
  obtain ⟨n, h⟩ := h
  obtain ⟨n', h'⟩ := h'
  rw [← h (n + n') (by omega), ← h' (n + n') (by omega)]

end Verif

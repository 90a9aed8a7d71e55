import Verif.Model.Pool
import Verif.Proofs.Marshal
/- Invariants of the pools: objects have one owner, memory agrees with the actions of each call alone. -/
namespace Verif

/-- The objects a goroutine holds. -/
def held : Gor → List Nat
  | .idle | .start _ => []
  | .run _ _ k fs _ _ => fs ++ [k]
  | .fail _ k fs _ => fs ++ [k]
  | .crash _ fs _ => fs
  | .copy _ k => [k]
  | .keep _ k _ => [k]

/-- Every object has at most one owner: a goroutine or a pool. -/
structure PSep (s : PState) : Prop where
  own : ∀ i, (held (s.go i) ++ (s.cpool ++ s.bpool)).Nodup
  two : ∀ i j, i ≠ j → ∀ o ∈ held (s.go i), o ∉ held (s.go j)
  old : ∀ o, (∃ i, o ∈ held (s.go i)) ∨ o ∈ s.cpool ++ s.bpool → o < s.next

/-- A step moves objects between goroutine `i`, the pools and the outside. -/
structure Moves (i : Nat) (s s' : PState) : Prop where
  go : ∀ j, j ≠ i → s'.go j = s.go j
  perm : ∃ fresh lost : List Nat, (fresh = [] ∧ s'.next = s.next ∨ fresh = [s.next] ∧ s'.next = s.next + 1) ∧
    List.Perm (held (s'.go i) ++ (s'.cpool ++ s'.bpool) ++ lost) (fresh ++ (held (s.go i) ++ (s.cpool ++ s.bpool)))
  mem : ∀ o, o ∉ held (s'.go i) → s'.mem o = s.mem o

theorem PSep.move {s s' : PState} {i : Nat} (h : PSep s) (m : Moves i s s') : PSep s' := by
  obtain ⟨fresh, lost, hf, hp⟩ := m.perm
  have hnf : ∀ o ∈ fresh, o = s.next := by rcases hf with ⟨rfl, -⟩ | ⟨rfl, -⟩ <;> simp
  have hnx : s.next ≤ s'.next := by rcases hf with ⟨-, h⟩ | ⟨-, h⟩ <;> omega
  have hfresh : ∀ o ∈ fresh, o < s'.next := by rcases hf with ⟨rfl, h⟩ | ⟨rfl, h⟩ <;> simp; omega
  have hold : ∀ o ∈ held (s.go i) ++ (s.cpool ++ s.bpool), o < s.next := by
    intro o ho
    rcases List.mem_append.1 ho with ho | ho
    · exact h.old o (.inl ⟨i, ho⟩)
    · exact h.old o (.inr ho)
  have hnd : (fresh ++ (held (s.go i) ++ (s.cpool ++ s.bpool))).Nodup := by
    refine List.nodup_append.2 ⟨?_, h.own i, ?_⟩
    · rcases hf with ⟨rfl, -⟩ | ⟨rfl, -⟩ <;> simp
    · intro a ha b hb e
      have := hnf a ha; have := hold b hb; omega
  have hnd' := (hp.nodup_iff).2 hnd
  have hsub : ∀ o ∈ held (s'.go i) ++ (s'.cpool ++ s'.bpool), o = s.next ∧ o ∈ fresh ∨ o ∈ held (s.go i) ++ (s.cpool ++ s.bpool) := by
    intro o ho
    have := hp.mem_iff.1 (List.mem_append_left lost ho)
    rcases List.mem_append.1 this with h | h
    · exact .inl ⟨hnf o h, h⟩
    · exact .inr h
  -- objects of another goroutine are not among those of `i` and the pools
  have hoth : ∀ j, j ≠ i → ∀ o ∈ held (s.go j), o ∉ held (s'.go i) ++ (s'.cpool ++ s'.bpool) := by
    intro j hj o ho hm
    have hlt := h.old o (.inl ⟨j, ho⟩)
    rcases hsub o hm with ⟨e, -⟩ | hm
    · omega
    · rcases List.mem_append.1 hm with hm | hm
      · exact h.two j i hj o ho hm
      · exact (List.nodup_append.1 (h.own j)).2.2 o ho o hm rfl
  refine ⟨fun j => ?_, fun j k hjk o ho hk => ?_, fun o ho => ?_⟩
  · by_cases e : j = i
    · subst e
      exact (List.nodup_append.1 hnd').1
    · rw [m.go j e]
      refine List.nodup_append.2 ⟨(List.nodup_append.1 (h.own j)).1,
        (List.nodup_append.1 (List.nodup_append.1 hnd').1).2.1, fun a ha b hb e' => ?_⟩
      subst e'
      exact hoth j e a ha (List.mem_append_right _ hb)
  · by_cases ej : j = i
    · subst ej
      rw [m.go k (fun e => hjk e.symm)] at hk
      exact hoth k (fun e => hjk e.symm) o hk (List.mem_append_left _ ho)
    · rw [m.go j ej] at ho
      by_cases ek : k = i
      · subst ek
        exact hoth j ej o ho (List.mem_append_left _ hk)
      · rw [m.go k ek] at hk
        exact h.two j k hjk o ho hk
  · have key : ∀ o ∈ held (s'.go i) ++ (s'.cpool ++ s'.bpool), o < s'.next := by
      intro o ho
      rcases hsub o ho with ⟨-, hm⟩ | hm
      · exact hfresh o hm
      · have := hold o hm; omega
    rcases ho with ⟨j, hj⟩ | ho
    · by_cases e : j = i
      · subst e; exact key o (List.mem_append_left _ hj)
      · rw [m.go j e] at hj
        have := h.old o (.inl ⟨j, hj⟩); omega
    · exact key o (List.mem_append_right _ ho)

theorem topBuf_mem (k : Nat) (fs : List Nat) : topBuf k fs ∈ fs ++ [k] := by cases fs <;> simp [topBuf]

theorem erase_lost (l : List Nat) (k : Nat) : ∃ d, List.Perm (l.erase k ++ d) l := by
  by_cases h : k ∈ l
  · exact ⟨[k], (List.perm_append_comm.trans (List.perm_cons_erase h).symm)⟩
  · exact ⟨[], by rw [List.erase_of_not_mem h]; simp⟩

theorem step_moves {W : World} {i : Nat} {s s' : PState} (h : PStep W i s s') : Moves i s s' := by
  cases h with
  | call hg => exact ⟨fun j hj => by simp [PState.at, hj], ⟨[], [], by simp [PState.at, held, hg]⟩, fun o _ => rfl⟩
  | @get x k as out hg hk hs =>
    refine ⟨fun j hj => by simp [PState.at, PState.set, hj], ⟨[], [], .inl ⟨rfl, rfl⟩, ?_⟩, fun o ho => ?_⟩
    · simp only [PState.at, PState.set, held, hg, if_pos, List.nil_append, List.append_nil]
      refine List.perm_iff_count.2 fun a => ?_
      have := (List.perm_cons_erase hk).count_eq a
      simp only [List.count_append, List.count_cons, List.count_nil] at *
      omega
    · simp only [PState.at, PState.set, held, if_pos, List.nil_append, List.mem_singleton] at ho ⊢
      simp [ho]
  | new hg hs =>
    refine ⟨fun j hj => by simp [PState.at, PState.set, hj], ⟨[s.next], [], .inr ⟨rfl, rfl⟩, ?_⟩, fun o ho => ?_⟩
    · simp [PState.at, PState.set, held, hg]
    · simp only [PState.at, PState.set, held, if_pos, List.nil_append, List.mem_singleton] at ho ⊢
      simp [ho]
  | @drop k =>
    obtain ⟨d1, h1⟩ := erase_lost s.cpool k
    obtain ⟨d2, h2⟩ := erase_lost s.bpool k
    refine ⟨fun j hj => rfl, ⟨[], d1 ++ d2, .inl ⟨rfl, rfl⟩, ?_⟩, fun o _ => rfl⟩
    refine List.perm_iff_count.2 fun a => ?_
    have := h1.count_eq a
    have := h2.count_eq a
    simp only [List.count_append, List.count_nil] at *
    omega
  | @write x c0 k fs bs as out hg =>
    refine ⟨fun j hj => by simp [PState.at, PState.set, hj], ⟨[], [], .inl ⟨rfl, rfl⟩, ?_⟩, fun o ho => ?_⟩
    · simp [PState.at, PState.set, held, hg]
    · simp only [PState.at, PState.set, held, if_pos] at ho ⊢
      rw [if_neg]; rintro rfl; exact ho (topBuf_mem k fs)
  | @push x c0 k fs as out b hg hb =>
    refine ⟨fun j hj => by simp [PState.at, PState.set, hj], ⟨[], [], .inl ⟨rfl, rfl⟩, ?_⟩, fun o ho => ?_⟩
    · simp only [PState.at, PState.set, held, hg, if_pos]
      refine List.perm_iff_count.2 fun a => ?_
      have := (List.perm_cons_erase hb).count_eq a
      simp only [List.count_append, List.count_cons, List.count_nil] at *
      omega
    · simp only [PState.at, PState.set, held, if_pos] at ho ⊢
      rw [if_neg]; rintro rfl; exact ho (by simp)
  | pushNew hg =>
    refine ⟨fun j hj => by simp [PState.at, PState.set, hj], ⟨[s.next], [], .inr ⟨rfl, rfl⟩, ?_⟩, fun o ho => ?_⟩
    · simp [PState.at, PState.set, held, hg]
    · simp only [PState.at, PState.set, held, if_pos] at ho ⊢
      rw [if_neg]; rintro rfl; exact ho (by simp)
  | @join x c0 k b fs pre post as out hg =>
    refine ⟨fun j hj => by simp [PState.at, PState.set, hj], ⟨[], [], .inl ⟨rfl, rfl⟩, ?_⟩, fun o ho => ?_⟩
    · simp [PState.at, PState.set, held, hg]
    · simp only [PState.at, PState.set, held, if_pos] at ho ⊢
      rw [if_neg]; rintro rfl; exact ho (List.mem_cons_of_mem _ (topBuf_mem k fs))
  | @free x c0 k b fs as out hg =>
    refine ⟨fun j hj => by simp [PState.at, hj], ⟨[], [], .inl ⟨rfl, rfl⟩, ?_⟩, fun o ho => rfl⟩
    simp only [PState.at, held, hg, if_pos]
    refine List.perm_iff_count.2 fun a => ?_
    simp only [List.count_append, List.count_cons, List.count_nil] at *
    omega
  | @ctx x c0 k fs c as out hg =>
    refine ⟨fun j hj => by simp [PState.at, PState.set, hj], ⟨[], [], .inl ⟨rfl, rfl⟩, ?_⟩, fun o ho => ?_⟩
    · simp [PState.at, PState.set, held, hg]
    · simp only [PState.at, PState.set, held, if_pos] at ho ⊢
      rw [if_neg]; rintro rfl; exact ho (by simp)
  | @ok x c0 k fs tx hg =>
    refine ⟨fun j hj => by simp [PState.at, hj], ⟨[], fs, .inl ⟨rfl, rfl⟩, ?_⟩, fun o ho => rfl⟩
    simp only [PState.at, held, hg, if_pos]
    refine List.perm_iff_count.2 fun a => ?_
    simp only [List.count_append, List.count_cons, List.count_nil] at *
    omega
  | err hg =>
    exact ⟨fun j hj => by simp [PState.at, hj], ⟨[], [], .inl ⟨rfl, rfl⟩, by simp [PState.at, held, hg]⟩, fun o ho => rfl⟩
  | @panic x c0 k fs p hg =>
    refine ⟨fun j hj => by simp [PState.at, hj], ⟨[], [k], .inl ⟨rfl, rfl⟩, ?_⟩, fun o ho => rfl⟩
    simp only [PState.at, held, hg, if_pos]
    refine List.perm_iff_count.2 fun a => ?_
    simp only [List.count_append, List.count_cons, List.count_nil] at *
    omega
  | failBuf hg =>
    refine ⟨fun j hj => by simp [PState.at, hj], ⟨[], [], .inl ⟨rfl, rfl⟩, ?_⟩, fun o ho => rfl⟩
    simp only [PState.at, held, hg, if_pos]
    refine List.perm_iff_count.2 fun a => ?_
    simp only [List.count_append, List.count_cons, List.count_nil] at *
    omega
  | failEnd hg =>
    refine ⟨fun j hj => by simp [PState.at, hj], ⟨[], [], .inl ⟨rfl, rfl⟩, ?_⟩, fun o ho => rfl⟩
    simp [PState.at, held, hg]
  | crashBuf hg =>
    refine ⟨fun j hj => by simp [PState.at, hj], ⟨[], [], .inl ⟨rfl, rfl⟩, ?_⟩, fun o ho => rfl⟩
    simp only [PState.at, held, hg, if_pos]
    refine List.perm_iff_count.2 fun a => ?_
    simp only [List.count_append, List.count_cons, List.count_nil] at *
    omega
  | crashEnd hg =>
    exact ⟨fun j hj => by simp [PState.at, hj], ⟨[], [], .inl ⟨rfl, rfl⟩, by simp [PState.at, held, hg]⟩, fun o ho => rfl⟩
  | copy hg =>
    exact ⟨fun j hj => by simp [PState.at, hj], ⟨[], [], .inl ⟨rfl, rfl⟩, by simp [PState.at, held, hg]⟩, fun o ho => rfl⟩
  | keep hg =>
    exact ⟨fun j hj => by simp [PState.at, hj], ⟨[], [], .inl ⟨rfl, rfl⟩, by simp [PState.at, held, hg]⟩, fun o ho => rfl⟩

theorem reach_psep {W : World} {s : PState} (h : PReach W s) : PSep s := by
  induction h with
  | init => exact ⟨fun i => by simp [PState.init, held], fun i j _ o ho => by simp [PState.init, held] at ho,
      fun o ho => by simp [PState.init, held] at ho⟩
  | step _ hs ih => exact ih.move (step_moves hs)

/-- What is known of a goroutine: the rest of its actions, done alone on what memory holds, ends as it should. -/
def GorOk (W : World) (m : Nat → Obj) : Gor → Prop
  | .idle | .start _ => True
  | .run x c0 k fs as out => c0 = .clean ∧ CallEnds W x .clean out (solo as ((m k).ctx, fs.map (fun b => (m b).buf) ++ [(m k).buf]))
  | .fail x k _ e => (m k).ctx = .clean ∧ MarshalGives W x.1 x.2 (.err e)
  | .crash x _ p => MarshalGives W x.1 x.2 (.panic p)
  | .copy x k => (m k).ctx = .clean ∧ MarshalGives W x.1 x.2 (.ok (m k).buf)
  | .keep x k dst => (m k).ctx = .clean ∧ MarshalGives W x.1 x.2 (.ok dst)

theorem GorOk.congr {W : World} {m m' : Nat → Obj} {g : Gor} (h : GorOk W m g) (he : ∀ o ∈ held g, m' o = m o) : GorOk W m' g := by
  cases g with
  | idle => trivial
  | start x => trivial
  | run x c0 k fs as out =>
    have hk : m' k = m k := he k (by simp [held])
    have hf : fs.map (fun b => (m' b).buf) = fs.map (fun b => (m b).buf) :=
      List.map_congr_left fun b hb => by rw [he b (by simp [held, hb])]
    simpa only [GorOk, hk, hf] using h
  | fail x k fs e =>
    have hk : m' k = m k := he k (by simp [held])
    simpa only [GorOk, hk] using h
  | crash x fs p => exact h
  | copy x k =>
    have hk : m' k = m k := he k (by simp [held])
    simpa only [GorOk, hk] using h
  | keep x k dst =>
    have hk : m' k = m k := he k (by simp [held])
    simpa only [GorOk, hk] using h

structure PInv (W : World) (s : PState) : Prop where
  gor : ∀ i, GorOk W s.mem (s.go i)
  pool : ∀ k ∈ s.cpool, (s.mem k).ctx = .clean
  log : ∀ i x r, (i, x, r) ∈ s.log → MarshalGives W x.1 x.2 r

/-- `marshal` leaves a clean context clean unless it panics. -/
theorem marshal_clean {W : World} {x : Call} {c : Ctx} {out : Res Bytes} (hn : (∃ tx, out = .ok tx) ∨ ∃ e, out = .err e)
    (h : ∃ n, ∀ cf f, n ≤ cf → n ≤ f → marshal W x.1 cf f .clean x.2 = (c, out)) : c = .clean ∧ MarshalGives W x.1 x.2 out := by
  obtain ⟨n, h⟩ := h
  have h0 := h n n (Nat.le_refl _) (Nat.le_refl _)
  refine ⟨?_, by rcases hn with ⟨_, rfl⟩ | ⟨_, rfl⟩ <;> simp, n, fun cf f h1 h2 => by rw [h cf f h1 h2]⟩
  obtain ⟨hp, o⟩ := x
  cases o with
  | none => simp only [marshal, Prod.mk.injEq] at h0; exact h0.1.symm
  | some tv =>
    obtain ⟨t, v⟩ := tv
    rcases hn with ⟨tx, rfl⟩ | ⟨e, rfl⟩
    · exact ((marshal_sound h0).1 tx rfl).1
    · exact (marshal_sound h0).2 e rfl

/-- Memory with object `k` changed, seen through buffers other than `k`. -/
theorem map_buf_set {s : PState} {k : Nat} {o : Obj} {fs : List Nat} (h : k ∉ fs) :
    fs.map (fun b => ((s.set k o).mem b).buf) = fs.map (fun b => (s.mem b).buf) :=
  List.map_congr_left fun b hb => by
    have : b ≠ k := fun e => h (e ▸ hb)
    simp [PState.set, this]

theorem step_gor {W : World} {i : Nat} {s s' : PState} (h : PStep W i s s') (hs : PSep s) (hi : PInv W s) :
    GorOk W s'.mem (s'.go i) := by
  have hgi := hi.gor i
  cases h with
  | call hg => simp [PState.at, GorOk]
  | @get x k as out hg hk hsc =>
    have hc := hi.pool k hk
    simp only [PState.at, PState.set, if_pos, GorOk, List.map_nil, List.nil_append]
    rw [hc] at hsc ⊢
    exact ⟨rfl, hsc⟩
  | new hg hsc =>
    simp only [PState.at, PState.set, if_pos, GorOk, List.map_nil, List.nil_append]
    exact ⟨trivial, hsc⟩
  | drop => exact hgi
  | @write x c0 k fs bs as out hg =>
    rw [hg] at hgi
    have hn : (fs ++ [k]).Nodup := by have := hs.own i; rw [hg] at this; exact (List.nodup_append.1 this).1
    simp only [PState.at, if_pos, GorOk] at hgi ⊢
    refine ⟨hgi.1, ?_⟩
    have hgi := hgi.2
    cases fs with
    | nil => simpa [topBuf, PState.set, solo] using hgi
    | cons b fs =>
      have hb : b ∉ fs := by simp at hn; exact hn.1.1
      have hk : k ≠ b := by simp at hn; exact fun e => hn.1.2 e.symm
      simp only [topBuf, List.map_cons, map_buf_set hb]
      simpa [PState.set, hk, solo] using hgi
  | @push x c0 k fs as out b hg hb =>
    rw [hg] at hgi
    have hn := hs.own i
    rw [hg] at hn
    have hb' : b ∉ fs ++ [k] := fun hm => (List.nodup_append.1 hn).2.2 b hm b (List.mem_append_right _ hb) rfl
    have hbf : b ∉ fs := fun h => hb' (by simp [h])
    have hk : k ≠ b := fun e => hb' (by simp [e])
    simp only [PState.at, if_pos, GorOk, List.map_cons, map_buf_set hbf] at hgi ⊢
    simpa [PState.set, hk, solo] using hgi
  | @pushNew x c0 k fs as out hg =>
    rw [hg] at hgi
    have hlt : ∀ o ∈ fs ++ [k], o < s.next := fun o ho => hs.old o (.inl ⟨i, by rw [hg]; exact ho⟩)
    have hbf : s.next ∉ fs := fun h => Nat.lt_irrefl _ (hlt _ (by simp [h]))
    have hk : k ≠ s.next := fun e => Nat.lt_irrefl _ (hlt s.next (by simp [← e]))
    simp only [PState.at, if_pos, GorOk, List.map_cons, map_buf_set hbf] at hgi ⊢
    simpa [PState.set, hk, solo] using hgi
  | @join x c0 k b fs pre post as out hg =>
    rw [hg] at hgi
    have hn : (b :: fs ++ [k]).Nodup := by have := hs.own i; rw [hg] at this; exact (List.nodup_append.1 this).1
    have hk : k ≠ b := by simp at hn; exact fun e => hn.1.2 e.symm
    simp only [PState.at, if_pos, GorOk] at hgi ⊢
    refine ⟨hgi.1, ?_⟩
    have hgi := hgi.2
    cases fs with
    | nil =>
      have hk' : b ≠ k := fun e => hk e.symm
      simpa [topBuf, PState.set, hk', solo] using hgi
    | cons d fs =>
      have hbd : b ≠ d := by simp at hn; exact hn.1.1
      have hdf : d ∉ fs := by simp at hn; exact hn.2.1.1
      have hkd : k ≠ d := by simp at hn; exact fun e => hn.2.1.2 e.symm
      simp only [topBuf, List.map_cons, map_buf_set hdf]
      simpa [PState.set, hbd, hkd, solo] using hgi
  | @free x c0 k b fs as out hg =>
    rw [hg] at hgi
    simp only [PState.at, if_pos, GorOk] at hgi ⊢
    refine ⟨hgi.1, ?_⟩
    have hgi := hgi.2
    cases fs with
    | nil => simpa [solo] using hgi
    | cons d fs => simpa [solo] using hgi
  | @ctx x c0 k fs c as out hg =>
    rw [hg] at hgi
    have hn : (fs ++ [k]).Nodup := by have := hs.own i; rw [hg] at this; exact (List.nodup_append.1 this).1
    have hkf : k ∉ fs := fun h => (List.nodup_append.1 hn).2.2 k h k (by simp) rfl
    simp only [PState.at, if_pos, GorOk, map_buf_set hkf] at hgi ⊢
    simpa [PState.set, solo] using hgi
  | @ok x c0 k fs tx hg =>
    rw [hg] at hgi
    simp only [PState.at, if_pos, GorOk, CallEnds, solo] at hgi ⊢
    obtain ⟨-, c, st, h1, h2, h3⟩ := hgi
    obtain ⟨h4, h5⟩ := marshal_clean (.inl ⟨tx, rfl⟩) h3
    simp only [Option.some.injEq, Prod.mk.injEq] at h1
    obtain ⟨h6, h7⟩ := h1
    rw [h2] at h7
    have : (s.mem k).buf = tx := by
      cases fs with
      | nil => simpa using h7
      | cons b fs => simp at h7
    rw [this]
    exact ⟨h6.trans h4, h5⟩
  | @err x c0 k fs e hg =>
    rw [hg] at hgi
    simp only [PState.at, if_pos, GorOk, CallEnds, solo] at hgi ⊢
    obtain ⟨-, c, st, h1, h3⟩ := hgi
    obtain ⟨h4, h5⟩ := marshal_clean (.inr ⟨e, rfl⟩) h3
    simp only [Option.some.injEq, Prod.mk.injEq] at h1
    exact ⟨h1.1.trans h4, h5⟩
  | @panic x c0 k fs p hg =>
    rw [hg] at hgi
    simp only [PState.at, if_pos, GorOk, CallEnds, solo] at hgi ⊢
    obtain ⟨-, c, st, h1, h3⟩ := hgi
    exact ⟨by simp, h3⟩
  | failBuf hg => rw [hg] at hgi; simpa [PState.at, GorOk] using hgi
  | failEnd hg => simp [PState.at, GorOk]
  | crashBuf hg => rw [hg] at hgi; simpa [PState.at, GorOk] using hgi
  | crashEnd hg => simp [PState.at, GorOk]
  | copy hg => rw [hg] at hgi; simpa [PState.at, GorOk] using hgi
  | keep hg => simp [PState.at, GorOk]

theorem inv_pstep {W : World} {i : Nat} {s s' : PState} (h : PStep W i s s') (hs : PSep s) (hi : PInv W s) : PInv W s' := by
  have mv := step_moves h
  have hs' := hs.move mv
  refine ⟨fun j => ?_, fun k hk => ?_, fun j x r hl => ?_⟩
  · by_cases e : j = i
    · subst e; exact step_gor h hs hi
    · rw [mv.go j e]
      refine (hi.gor j).congr fun o ho => mv.mem o fun hm => ?_
      have := hs'.two j i e o (by rw [mv.go j e]; exact ho)
      exact this hm
  · have hmem : s'.mem k = s.mem k := mv.mem k fun hm =>
      (List.nodup_append.1 (hs'.own i)).2.2 k hm k (List.mem_append_left _ hk) rfl
    rw [hmem]
    have hgi := hi.gor i
    cases h with
    | get hg hk' hsc => exact hi.pool k (List.mem_of_mem_erase hk)
    | drop => exact hi.pool k (List.mem_of_mem_erase hk)
    | failEnd hg =>
      rw [hg] at hgi
      rcases List.mem_cons.1 hk with rfl | hk
      · exact hgi.1
      · exact hi.pool k hk
    | keep hg =>
      rw [hg] at hgi
      rcases List.mem_cons.1 hk with rfl | hk
      · exact hgi.1
      · exact hi.pool k hk
    | _ => exact hi.pool k hk
  · have hgi := hi.gor i
    cases h with
    | failEnd hg =>
      rw [hg] at hgi
      rcases List.mem_cons.1 hl with e | hl
      · cases e; exact hgi.2
      · exact hi.log j x r hl
    | crashEnd hg =>
      rw [hg] at hgi
      rcases List.mem_cons.1 hl with e | hl
      · cases e; exact hgi
      · exact hi.log j x r hl
    | keep hg =>
      rw [hg] at hgi
      rcases List.mem_cons.1 hl with e | hl
      · cases e; exact hgi.2
      · exact hi.log j x r hl
    | _ => exact hi.log j x r hl

theorem reach_pinv {W : World} {s : PState} (h : PReach W s) : PInv W s := by
  induction h with
  | init => exact ⟨fun i => trivial, fun k hk => by simp [PState.init] at hk, fun i x r hl => by simp [PState.init] at hl⟩
  | step hr hs ih => exact inv_pstep hs (reach_psep hr) ih

end Verif

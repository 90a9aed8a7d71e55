import Verif.Spec.Cache
import Verif.Proofs.EncMono
import Verif.Proofs.Unmarshal
/-
Invariants of the caches.
-/
namespace Verif
open Spec

/-- The map a request refers to. -/
def Req.addr : Req → Option Nat
  | .load _ => none
  | .look _ a => some a
  | .compiling _ a _ => some a
  | .make _ a _ => some a
  | .fill _ _ b _ => some b
  | .publish _ _ b => some b

/-- The map a request builds. -/
def Req.own : Req → Option Nat
  | .fill _ _ b _ => some b
  | .publish _ _ b => some b
  | _ => none

def IsComp (r : Req) : Prop := ∃ t a as, r = .compiling t a as

theorem own_addr {r : Req} {b : Nat} (h : r.own = some b) : r.addr = some b := by cases r <;> simp_all [Req.own, Req.addr]

/-- Who refers to which map. -/
structure CSep (s : CState) : Prop where
  cur : s.cur < s.maps.length
  lt : ∀ i r a, r ∈ s.go i → r.addr = some a → a < s.maps.length
  tails : ∀ i r rs, s.go i = r :: rs → ∀ x ∈ rs, IsComp x
  own : ∀ i r rs b, s.go i = r :: rs → r.own = some b → b ≠ s.cur ∧ (∀ x ∈ rs, x.addr ≠ some b) ∧ ∀ j, j ≠ i → ∀ x ∈ s.go j, x.addr ≠ some b

theorem go_next_self {s : CState} {i : Nat} {rs : List Req} : (s.next i rs).go i = rs := by simp [CState.next]
theorem go_next_ne {s : CState} {i j : Nat} {rs : List Req} (h : j ≠ i) : (s.next i rs).go j = s.go j := by simp [CState.next, h]

theorem sep_next {s : CState} {i : Nat} {rs' : List Req} (h : CSep s) (ht : ∀ r rs, rs' = r :: rs → ∀ x ∈ rs, IsComp x)
    (hrs : ∀ x ∈ rs', ∀ a, x.addr = some a → (∃ y ∈ s.go i, y.addr = some a) ∨ a = s.cur)
    (hown : ∀ r rs b, rs' = r :: rs → r.own = some b → ∃ r0 rs0, s.go i = r0 :: rs0 ∧ r0.own = some b ∧ ∀ x ∈ rs, ∀ a, x.addr = some a → ∃ y ∈ rs0, y.addr = some a) :
    CSep (s.next i rs') := by
  refine ⟨h.cur, fun j r a hr ha => ?_, fun j r rs hj => ?_, fun j r rs b hj hb => ?_⟩
  · by_cases hji : j = i
    · subst hji
      rw [go_next_self] at hr
      rcases hrs r hr a ha with ⟨y, h1, h2⟩ | rfl
      · exact h.lt j y a h1 h2
      · exact h.cur
    · rw [go_next_ne hji] at hr
      exact h.lt j r a hr ha
  · by_cases hji : j = i
    · subst hji
      rw [go_next_self] at hj
      exact ht r rs hj
    · rw [go_next_ne hji] at hj
      exact h.tails j r rs hj
  · by_cases hji : j = i
    · subst hji
      rw [go_next_self] at hj
      obtain ⟨r0, rs0, h1, h2, h3⟩ := hown r rs b hj hb
      obtain ⟨h4, h5, h6⟩ := h.own j r0 rs0 b h1 h2
      refine ⟨h4, fun x hx hxa => ?_, fun k hk x hx => ?_⟩
      · obtain ⟨y, h7, h8⟩ := h3 x hx b hxa
        exact h5 y h7 h8
      · rw [go_next_ne hk] at hx
        exact h6 k hk x hx
    · rw [go_next_ne hji] at hj
      obtain ⟨h4, h5, h6⟩ := h.own j r rs b hj hb
      refine ⟨h4, h5, fun k hk x hx hxa => ?_⟩
      by_cases hki : k = i
      · subst hki
        rw [go_next_self] at hx
        rcases hrs x hx b hxa with ⟨y, h7, h8⟩ | rfl
        · exact h6 k hk y h7 h8
        · exact h4 rfl
      · rw [go_next_ne hki] at hx
        exact h6 k hk x hx hxa

theorem sep_log {s : CState} {l : List (Nat × Ty × Answer)} (h : CSep s) : CSep { s with log := l } := ⟨h.cur, h.lt, h.tails, h.own⟩

theorem sep_answer {s : CState} {i : Nat} {t : Ty} {r : Answer} {r0 : Req} {rs : List Req} (h : CSep s) (hg : s.go i = r0 :: rs) :
    CSep (s.answer i t r rs) := by
  have htl := h.tails i r0 rs hg
  have hmem : ∀ x ∈ rs, x ∈ s.go i := fun x hx => by rw [hg]; exact List.mem_cons_of_mem _ hx
  cases rs with
  | nil =>
    exact sep_log (sep_next h (by simp) (by simp) (by simp))
  | cons x rs =>
    obtain ⟨t', a, as, rfl⟩ := htl x List.mem_cons_self
    refine sep_next h (fun r rs' he => ?_) (fun y hy b hb => ?_) (fun r rs' b he hb => ?_)
    · cases he; exact fun y hy => htl y (List.mem_cons_of_mem _ hy)
    · rcases List.mem_cons.1 hy with rfl | hy
      · exact .inl ⟨_, hmem _ List.mem_cons_self, hb⟩
      · exact .inl ⟨y, hmem _ (List.mem_cons_of_mem _ hy), hb⟩
    · cases he; cases hb

theorem sep_head {s : CState} {i : Nat} {r0 r1 : Req} {rs : List Req} (h : CSep s) (hg : s.go i = r0 :: rs)
    (ha : r1.addr = r0.addr ∨ r1.addr = none ∨ r1.addr = some s.cur) (ho : ∀ b, r1.own = some b → r0.own = some b) : CSep (s.next i (r1 :: rs)) := by
  refine sep_next h (fun r rs' he => ?_) (fun y hy b hb => ?_) (fun r rs' b he hb => ?_)
  · cases he; exact h.tails i r0 rs hg
  · rcases List.mem_cons.1 hy with rfl | hy
    · rcases ha with ha | ha | ha
      · exact .inl ⟨r0, by rw [hg]; exact List.mem_cons_self, by rw [← ha]; exact hb⟩
      · rw [ha] at hb; cases hb
      · rw [ha] at hb; cases hb; exact .inr rfl
    · exact .inl ⟨y, by rw [hg]; exact List.mem_cons_of_mem _ hy, hb⟩
  · cases he; exact ⟨r0, rs, hg, ho b hb, fun x hx a hxa => ⟨x, hx, hxa⟩⟩

theorem sep_step {P : Proto} {s s' : CState} {i : Nat} (h : CSep s) (hs : CStep P i s s') : CSep s' := by
  cases hs with
  | call hg => exact sep_next h (fun r rs he => by cases he; simp) (fun y hy b hb => by simp at hy; subst hy; cases hb) (fun r rs b he hb => by cases he; cases hb)
  | load hg => exact sep_head h hg (.inr (.inr rfl)) (fun b hb => by cases hb)
  | hit hg _ _ => exact sep_answer h hg
  | miss hg _ _ => exact sep_head h hg (.inl rfl) (fun b hb => by cases hb)
  | @ask t a as t' rs hg =>
    refine sep_next h (fun r rs' he => ?_) (fun y hy b hb => ?_) (fun r rs' b he hb => by cases he; cases hb)
    · cases he
      intro x hx
      rcases List.mem_cons.1 hx with rfl | hx
      · exact ⟨_, _, _, rfl⟩
      · exact h.tails i _ _ hg x hx
    · rcases List.mem_cons.1 hy with rfl | hy
      · cases hb
      · exact .inl ⟨y, by rw [hg]; exact hy, hb⟩
  | fail hg _ => exact sep_answer h hg
  | done hg _ => exact sep_head h hg (.inl rfl) (fun b hb => by cases hb)
  | @make t a c ws rs m hg hm hw =>
    refine ⟨?_, fun j r b hr hb => ?_, fun j r rs' hj => ?_, fun j r rs' b hj hb => ?_⟩
    · show s.cur < (s.maps ++ [[]]).length
      have := h.cur
      simp; omega
    · show b < (s.maps ++ [[]]).length
      rw [List.length_append, List.length_singleton]
      by_cases hji : j = i
      · subst hji
        have hr' : r ∈ .fill t c s.maps.length ws :: rs := by rw [← go_next_self (s := s) (i := j) (rs := .fill t c s.maps.length ws :: rs)]; exact hr
        rcases List.mem_cons.1 hr' with rfl | hr'
        · cases hb; omega
        · have := h.lt j r b (by rw [hg]; exact List.mem_cons_of_mem _ hr') hb; omega
      · have := h.lt j r b (by rw [← go_next_ne hji (s := s)]; exact hr) hb; omega
    · by_cases hji : j = i
      · subst hji
        have hj' := hj.symm.trans (go_next_self (s := s) (i := j) (rs := .fill t c s.maps.length ws :: rs))
        cases hj'
        exact h.tails j _ _ hg
      · exact h.tails j r rs' (by rw [← go_next_ne hji (s := s)]; exact hj)
    · by_cases hji : j = i
      · subst hji
        have hj' := hj.symm.trans (go_next_self (s := s) (i := j) (rs := .fill t c s.maps.length ws :: rs))
        cases hj'
        cases hb
        refine ⟨fun he => ?_, fun x hx hxa => ?_, fun k hk x hx hxa => ?_⟩
        · have h1 := h.cur
          have h2 : s.maps.length = s.cur := he
          omega
        · have := h.lt j x _ (by rw [hg]; exact List.mem_cons_of_mem _ hx) hxa; omega
        · have := h.lt k x _ (by rw [← go_next_ne hk (s := s)]; exact hx) hxa; omega
      · obtain ⟨h1, h2, h3⟩ := h.own j r rs' b (by rw [← go_next_ne hji (s := s)]; exact hj) hb
        refine ⟨h1, h2, fun k hk x hx hxa => ?_⟩
        have hlt := h.lt j r b (by rw [← go_next_ne hji (s := s) (rs := .fill t c s.maps.length ws :: rs)]; rw [show (s.next i (.fill t c s.maps.length ws :: rs)).go j = r :: rs' from hj]; exact List.mem_cons_self) (own_addr hb)
        by_cases hki : k = i
        · subst hki
          have hx' : x ∈ .fill t c s.maps.length ws :: rs := by rw [← go_next_self (s := s) (i := k) (rs := .fill t c s.maps.length ws :: rs)]; exact hx
          rcases List.mem_cons.1 hx' with rfl | hx'
          · cases hxa; omega
          · exact h3 k hk x (by rw [hg]; exact List.mem_cons_of_mem _ hx') hxa
        · exact h3 k hk x (by rw [← go_next_ne hki (s := s)]; exact hx) hxa
  | @write t c b k v ws rs m hg hm =>
    have := sep_head (r1 := .fill t c b ws) h hg (.inl rfl) (fun b hb => hb)
    refine ⟨?_, fun j r a hr ha => ?_, this.tails, this.own⟩
    · show s.cur < (s.maps.set b _).length
      rw [List.length_set]; exact h.cur
    · show a < (s.maps.set b _).length
      rw [List.length_set]; exact this.lt j r a hr ha
  | filled hg => exact sep_head h hg (.inl rfl) (fun b hb => hb)
  | @store t c b rs hg =>
    have hown := h.own i _ _ b hg rfl
    have hlt := h.lt i _ b (by rw [hg]; exact List.mem_cons_self) rfl
    -- first drop the request, then publish
    have h1 : CSep (s.next i rs) := by
      refine sep_next h (fun r rs' he => ?_) (fun y hy b hb => .inl ⟨y, by rw [hg]; exact List.mem_cons_of_mem _ hy, hb⟩) (fun r rs' b he hb => ?_)
      · subst he; exact fun x hx => h.tails i _ _ hg x (List.mem_cons_of_mem _ hx)
      · subst he
        obtain ⟨_, _, _, rfl⟩ := h.tails i _ _ hg r List.mem_cons_self
        cases hb
    have h2 : CSep { s.next i rs with cur := b } := by
      refine ⟨hlt, h1.lt, h1.tails, fun j r rs' b' hj hb => ?_⟩
      obtain ⟨h3, h4, h5⟩ := h1.own j r rs' b' hj hb
      refine ⟨fun he => ?_, h4, h5⟩
      change b' = b at he
      subst he
      by_cases hji : j = i
      · subst hji
        have hj' : rs = r :: rs' := by rw [← hj]; exact go_next_self.symm
        subst hj'
        obtain ⟨_, _, _, rfl⟩ := h.tails j _ _ hg r List.mem_cons_self
        cases hb
      · have hj' : s.go j = r :: rs' := by rw [← go_next_ne hji (s := s)]; exact hj
        exact hown.2.2 j hji r (by rw [hj']; exact List.mem_cons_self) (own_addr hb)
    cases rs with
    | nil => exact sep_log h2
    | cons x rs =>
      obtain ⟨t', a', as, rfl⟩ := h.tails i _ _ hg x List.mem_cons_self
      have h3 := sep_head (s := { s.next i (.compiling t' a' as :: rs) with cur := b }) (i := i) (r0 := .compiling t' a' as) (rs := rs)
        (r1 := .compiling t' a' ((t, .ok c) :: as)) h2 go_next_self (.inl rfl) (fun b hb => hb)
      have : ({ s with cur := b }.answer i t (.ok c) (.compiling t' a' as :: rs) : CState) =
          ({ s.next i (.compiling t' a' as :: rs) with cur := b }.next i (.compiling t' a' ((t, .ok c) :: as) :: rs)) := by
        simp only [CState.answer, CState.next]
        congr 1
        funext j
        by_cases hj : j = i <;> simp [hj]
      rw [this]
      exact h3

theorem reach_sep {P : Proto} {s : CState} (h : CReach P s) : CSep s := by
  induction h with
  | init => exact ⟨by decide, fun i r a hr => by simp [CState.init] at hr, fun i r rs hr => by simp [CState.init] at hr, fun i r rs b hr => by simp [CState.init] at hr⟩
  | step _ hs ih => exact sep_step ih hs

/-! ### The contents -/

/-- What the answers of the compiler must satisfy. -/
structure Sound (P : Proto) (spec : Ty → Answer → Prop) : Prop where
  fin : ∀ t as r, (∀ p ∈ as, spec p.1 p.2) → P.fin t as r → spec t r
  own : ∀ t c, spec t (.ok c) → c = t

/-- A request carries correct data only. -/
def GoodReq (spec : Ty → Answer → Prop) (maps : List CMap) : Req → Prop
  | .load _ => True
  | .look _ _ => True
  | .compiling _ _ as => ∀ p ∈ as, spec p.1 p.2
  | .make t _ c => spec t (.ok c)
  | .fill t c b ws => spec t (.ok c) ∧ (∀ e ∈ ws, spec e.1 (.ok e.2)) ∧ ∃ m, maps[b]? = some m ∧ ((t, c) ∈ ws ∨ m.get t = some c)
  | .publish t c b => spec t (.ok c) ∧ ∃ m, maps[b]? = some m ∧ m.get t = some c

structure CInv (spec : Ty → Answer → Prop) (s : CState) : Prop where
  entries : ∀ (a : Nat) (m : CMap), s.maps[a]? = some m → ∀ e : Ty × Ty, e ∈ m → spec e.1 (.ok e.2)
  log : ∀ i t r, (i, t, r) ∈ s.log → spec t r
  reqs : ∀ i, ∀ r ∈ s.go i, GoodReq spec s.maps r

theorem get_mem {m : CMap} {t c : Ty} (h : m.get t = some c) : (t, c) ∈ m := by
  unfold CMap.get at h
  induction m with
  | nil => simp at h
  | cons e m ih =>
    obtain ⟨k, v⟩ := e
    rw [List.lookup_cons] at h
    split at h
    · rename_i hk
      cases h
      have : t = k := by simpa using hk
      subst this
      exact List.mem_cons_self
    · exact List.mem_cons_of_mem _ (ih h)

theorem put_get_self {m : CMap} {t c : Ty} : (m.put t c).get t = some c := by
  unfold CMap.put CMap.get
  rw [List.lookup_cons]
  simp

theorem put_get_ne {m : CMap} {k t v : Ty} (h : t ≠ k) : (m.put k v).get t = m.get t := by
  unfold CMap.put CMap.get
  rw [List.lookup_cons]
  have : (t == k) = false := by simpa using h
  rw [this]
  show List.lookup t (m.filter fun e => !decide (e.1 = k)) = List.lookup t m
  induction m with
  | nil => rfl
  | cons e m ih =>
    obtain ⟨a, b⟩ := e
    by_cases ha : a = k
    · subst ha
      rw [List.filter_cons_of_neg (by simp), ih, List.lookup_cons, this]
    · rw [List.filter_cons_of_pos (by simpa using ha), List.lookup_cons, List.lookup_cons, ih]

theorem put_mem {m : CMap} {k v : Ty} {e : Ty × Ty} (h : e ∈ m.put k v) : e = (k, v) ∨ e ∈ m := by
  unfold CMap.put at h
  rcases List.mem_cons.1 h with h | h
  · exact .inl h
  · exact .inr (List.mem_filter.1 h).1

theorem inv_next {spec : Ty → Answer → Prop} {s : CState} {i : Nat} {rs : List Req} (h : CInv spec s) (hr : ∀ r ∈ rs, GoodReq spec s.maps r) :
    CInv spec (s.next i rs) := by
  refine ⟨h.entries, h.log, fun j r hj => ?_⟩
  by_cases hji : j = i
  · subst hji; rw [go_next_self] at hj; exact hr r hj
  · rw [go_next_ne hji] at hj; exact h.reqs j r hj

theorem inv_answer {spec : Ty → Answer → Prop} {s : CState} {i : Nat} {t : Ty} {r : Answer} {r0 : Req} {rs : List Req} (h : CInv spec s) (hsep : CSep s)
    (hg : s.go i = r0 :: rs) (hr : spec t r) : CInv spec (s.answer i t r rs) := by
  have hall : ∀ x ∈ rs, GoodReq spec s.maps x := fun x hx => h.reqs i x (by rw [hg]; exact List.mem_cons_of_mem _ hx)
  cases rs with
  | nil =>
    have := inv_next (i := i) (rs := []) h (by simp)
    refine ⟨this.entries, fun j t' r' hm => ?_, this.reqs⟩
    rcases List.mem_cons.1 hm with hm | hm
    · cases hm; exact hr
    · exact h.log j t' r' hm
  | cons x rs =>
    obtain ⟨t', a, as, rfl⟩ := hsep.tails i r0 _ hg x List.mem_cons_self
    refine inv_next h fun y hy => ?_
    rcases List.mem_cons.1 hy with rfl | hy
    · intro p hp
      rcases List.mem_cons.1 hp with rfl | hp
      · exact hr
      · exact hall _ List.mem_cons_self p hp
    · exact hall y (List.mem_cons_of_mem _ hy)

theorem good_mono {spec : Ty → Answer → Prop} {maps maps' : List CMap} {r : Req} (h : GoodReq spec maps r)
    (hm : ∀ b, r.own = some b → ∀ m, maps[b]? = some m → maps'[b]? = some m) : GoodReq spec maps' r := by
  cases r with
  | fill t c b ws =>
    obtain ⟨h1, h2, m, h3, h4⟩ := h
    exact ⟨h1, h2, m, hm b rfl m h3, h4⟩
  | publish t c b =>
    obtain ⟨h1, m, h3, h4⟩ := h
    exact ⟨h1, m, hm b rfl m h3, h4⟩
  | _ => exact h

theorem inv_step {P : Proto} {spec : Ty → Answer → Prop} (hP : Sound P spec) {s s' : CState} {i : Nat} (h : CInv spec s) (hsep : CSep s) (hs : CStep P i s s') :
    CInv spec s' := by
  have hd : ∀ {r0 rs}, s.go i = r0 :: rs → GoodReq spec s.maps r0 ∧ ∀ x ∈ rs, GoodReq spec s.maps x := fun hg =>
    ⟨h.reqs i _ (by rw [hg]; exact List.mem_cons_self), fun x hx => h.reqs i x (by rw [hg]; exact List.mem_cons_of_mem _ hx)⟩
  have hhead : ∀ {r0 rs r1}, s.go i = r0 :: rs → GoodReq spec s.maps r1 → CInv spec (s.next i (r1 :: rs)) := fun hg h1 =>
    inv_next h fun x hx => by
      rcases List.mem_cons.1 hx with rfl | hx
      · exact h1
      · exact (hd hg).2 x hx
  cases hs with
  | call hg => exact inv_next h (by simp [GoodReq])
  | load hg => exact hhead hg trivial
  | hit hg hm hc => exact inv_answer h hsep hg (h.entries _ _ hm _ (get_mem hc))
  | miss hg hm hc => exact hhead hg (by intro p hp; simp at hp)
  | ask hg =>
    refine inv_next h fun x hx => ?_
    rcases List.mem_cons.1 hx with rfl | hx
    · trivial
    · exact h.reqs i x (by rw [hg]; exact hx)
  | fail hg hf => exact inv_answer h hsep hg (hP.fin _ _ _ (hd hg).1 hf)
  | done hg hf => exact hhead hg (hP.fin _ _ _ (hd hg).1 hf)
  | @make t a c ws rs m hg hm hw =>
    have hmaps : ∀ (b : Nat) (m : CMap), s.maps[b]? = some m → (s.maps ++ [[]])[b]? = some m := fun b m hb => by
      rw [List.getElem?_append_left (List.getElem?_eq_some_iff.1 hb).1]; exact hb
    refine ⟨fun b m' hb e he => ?_, h.log, fun j r hj => ?_⟩
    · change (s.maps ++ [[]])[b]? = some m' at hb
      by_cases hlt : b < s.maps.length
      · rw [List.getElem?_append_left hlt] at hb
        exact h.entries b m' hb e he
      · rw [List.getElem?_append_right (by omega)] at hb
        cases hk : b - s.maps.length with
        | zero => rw [hk] at hb; cases hb; simp at he
        | succ => rw [hk] at hb; simp at hb
    · by_cases hji : j = i
      · subst hji
        have hj' : r ∈ .fill t c s.maps.length ws :: rs := by rw [← go_next_self (s := s) (i := j) (rs := .fill t c s.maps.length ws :: rs)]; exact hj
        rcases List.mem_cons.1 hj' with rfl | hj'
        · obtain ⟨m', hp, rfl⟩ := hw
          have hc : spec t (.ok c) := (hd hg).1
          refine ⟨hc, fun e he => ?_, [], by simp, .inl (by split <;> simp)⟩
          have : e = (t, c) ∨ e ∈ m' := by split at he <;> simp at he <;> rcases he with he | he <;> simp [he]
          rcases this with rfl | he
          · exact hc
          · exact h.entries a m hm e (hp.mem_iff.1 he)
        · exact good_mono ((hd hg).2 r hj') fun b _ m => hmaps b m
      · exact good_mono (h.reqs j r (by rw [← go_next_ne hji (s := s)]; exact hj)) fun b _ m => hmaps b m
  | @write t c b k v ws rs m hg hm =>
    obtain ⟨⟨g1, g2, m0, g3, g4⟩, g5⟩ := hd hg
    have hlt := (List.getElem?_eq_some_iff.1 hm).1
    obtain ⟨o1, o2, o3⟩ := hsep.own i _ _ b hg rfl
    have hkv := g2 (k, v) List.mem_cons_self
    rw [hm] at g3
    cases g3
    have hother : ∀ r, r.addr ≠ some b → GoodReq spec s.maps r → GoodReq spec (s.maps.set b (m.put k v)) r := fun r hr hg =>
      good_mono hg fun b' hb' m' hm' => by
        rw [List.getElem?_set_ne (fun he => hr (by rw [he]; exact own_addr hb'))]; exact hm'
    refine ⟨fun a m' ha e he => ?_, h.log, fun j r hj => ?_⟩
    · change (s.maps.set b (m.put k v))[a]? = some m' at ha
      by_cases hab : b = a
      · subst hab
        rw [List.getElem?_set_self hlt] at ha
        cases ha
        rcases put_mem he with rfl | he
        · exact hkv
        · exact h.entries b m hm e he
      · rw [List.getElem?_set_ne hab] at ha
        exact h.entries a m' ha e he
    · by_cases hji : j = i
      · subst hji
        have hj' : r ∈ .fill t c b ws :: rs := by rw [← go_next_self (s := s) (i := j) (rs := .fill t c b ws :: rs)]; exact hj
        rcases List.mem_cons.1 hj' with rfl | hj'
        · refine ⟨g1, fun e he => g2 e (List.mem_cons_of_mem _ he), _, List.getElem?_set_self hlt, ?_⟩
          by_cases hkt : t = k
          · subst hkt
            have hv : v = t := hP.own _ _ hkv
            have hc : c = t := hP.own _ _ g1
            rw [hv, hc]
            exact .inr put_get_self
          · rw [put_get_ne hkt]
            rcases g4 with g4 | g4
            · rcases List.mem_cons.1 g4 with g4 | g4
              · cases g4; exact absurd rfl hkt
              · exact .inl g4
            · exact .inr g4
        · exact hother r (o2 r hj') (g5 r hj')
      · have hj' : r ∈ s.go j := by rw [← go_next_ne hji (s := s)]; exact hj
        exact hother r (o3 j hji r hj') (h.reqs j r hj')
  | filled hg =>
    obtain ⟨⟨g1, g2, m0, g3, g4⟩, g5⟩ := hd hg
    refine hhead hg ⟨g1, m0, g3, ?_⟩
    rcases g4 with g4 | g4
    · simp at g4
    · exact g4
  | @store t c b rs hg =>
    have h1 : CInv spec { s with cur := b } := ⟨h.entries, h.log, h.reqs⟩
    have hsp := (hd hg).1.1
    have hall := (hd hg).2
    cases rs with
    | nil =>
      have := inv_next (i := i) (rs := []) h1 (by simp)
      refine ⟨this.entries, fun j t' r' hm => ?_, this.reqs⟩
      rcases List.mem_cons.1 hm with hm | hm
      · cases hm; exact hsp
      · exact h.log j t' r' hm
    | cons x rs =>
      obtain ⟨t', a, as, rfl⟩ := hsep.tails i _ _ hg x List.mem_cons_self
      refine inv_next h1 fun y hy => ?_
      rcases List.mem_cons.1 hy with rfl | hy
      · intro p hp
        rcases List.mem_cons.1 hp with rfl | hp
        · exact hsp
        · exact hall _ List.mem_cons_self p hp
      · exact hall y (List.mem_cons_of_mem _ hy)

theorem reach_inv {P : Proto} {spec : Ty → Answer → Prop} (hP : Sound P spec) {s : CState} (h : CReach P s) : CInv spec s := by
  induction h with
  | init =>
    refine ⟨fun a m ha e he => ?_, fun i t r h => by simp [CState.init] at h, fun i r hr => by simp [CState.init] at hr⟩
    cases a with
    | zero => cases ha; simp at he
    | succ => simp [CState.init] at ha
  | step h1 hs ih => exact inv_step hP ih (reach_sep h1) hs

/-! ### The two compilers -/

theorem compileEV_le {W : World} {orc : Ty → Res Unit} {N : Nat} (ho : ∀ e, orc e ≠ .diverge → ∀ g, N ≤ g → (compileE W g [] e >>= fun _ => .ok ()) = orc e)
    (f : Nat) (s : List Ty) (t : Ty) : RLe (compileEV W orc f s t) (compileE W (f + N) s t) := by
  induction f generalizing s t with
  | zero => exact .inl rfl
  | succ f ih =>
    have : f + 1 + N = (f + N) + 1 := by omega
    rw [this]
    unfold compileEV compileE
    split
    · exact .refl _
    · split
      · exact .refl _
      · generalize W.resolve t = r
        cases r with
        | struct id => exact compileEStruct_le ih _ _ _
        | array n e =>
          dsimp only
          by_cases hd : orc e = .diverge
          · rw [hd]; exact .inl rfl
          · have := ho e hd (f + N) (by omega)
            rw [← this]
            cases compileE W (f + N) [] e <;> exact .refl _
        | slice e =>
          dsimp only
          unfold compileESlice
          split
          · exact .refl _
          · exact ih _ _
        | map k v => exact compileEMap_le ih _ _ _ _
        | ptr e => exact compileEPtr_le ih _ _
        | _ => exact .refl _

theorem answered_some {as : List (Ty × Answer)} {t : Ty} (h : answered as t ≠ .diverge) :
    ∃ r, (t, r) ∈ as ∧ answered as t = match r with | .ok _ => .ok () | .error e => .err e := by
  unfold answered at h ⊢
  cases hl : List.lookup t as with
  | none => rw [hl] at h; exact absurd rfl h
  | some r =>
    refine ⟨r, ?_, by cases r <;> rfl⟩
    clear h
    induction as with
    | nil => simp at hl
    | cons e as ih =>
      obtain ⟨k, v⟩ := e
      rw [List.lookup_cons] at hl
      split at hl
      · rename_i hk
        cases hl
        have : t = k := by simpa using hk
        subst this
        exact List.mem_cons_self
      · exact List.mem_cons_of_mem _ (ih hl)

/-- What the compiler of the encoder gives without a cache. -/
def EncComp (W : World) (t : Ty) : Answer → Prop
  | .ok c => c = t ∧ ∃ n seen, compileE W n [] t = .ok seen
  | .error e => ∃ n, compileE W n [] t = .err e

theorem exists_bound {α : Type} {xs : List α} {P : α → Nat → Prop} (hmono : ∀ x n m, P x n → n ≤ m → P x m) (h : ∀ x ∈ xs, ∃ n, P x n) :
    ∃ n, ∀ x ∈ xs, P x n := by
  induction xs with
  | nil => exact ⟨0, by simp⟩
  | cons x xs ih =>
    obtain ⟨n, hn⟩ := h x List.mem_cons_self
    obtain ⟨m, hm⟩ := ih fun y hy => h y (List.mem_cons_of_mem _ hy)
    refine ⟨max n m, fun y hy => ?_⟩
    rcases List.mem_cons.1 hy with rfl | hy
    · exact hmono _ _ _ hn (Nat.le_max_left _ _)
    · exact hmono _ _ _ (hm y hy) (Nat.le_max_right _ _)

theorem encProto_sound (W : World) : Sound (encProto W) (EncComp W) := by
  refine ⟨fun t as r has hf => ?_, fun t c h => h.1⟩
  obtain ⟨N, hN⟩ := exists_bound (xs := as)
    (P := fun p n => ∀ g, n ≤ g → (compileE W g [] p.1 >>= fun _ => (.ok () : Res Unit)) = match p.2 with | .ok _ => .ok () | .error e => .err e)
    (fun p n m h hnm g hg => h g (by omega)) fun p hp => by
      obtain ⟨t', a⟩ := p
      have := has _ hp
      cases a with
      | ok c =>
        obtain ⟨-, n, seen, hn⟩ := this
        exact ⟨n, fun g hg => by rw [compileE_mono (by rw [hn]; simp) hg, hn]; rfl⟩
      | error e =>
        obtain ⟨n, hn⟩ := this
        exact ⟨n, fun g hg => by rw [compileE_mono (by rw [hn]; simp) hg, hn]; rfl⟩
  have hle := fun f => compileEV_le (W := W) (orc := answered as) (N := N) (fun e he g hg => by
    obtain ⟨a, h1, h2⟩ := answered_some he
    rw [h2]
    exact hN _ h1 g hg) f [] t
  cases r with
  | ok c =>
    obtain ⟨rfl, n, seen, hn⟩ := hf
    rcases hle n with h | h
    · rw [hn] at h; cases h
    · exact ⟨rfl, n + N, seen, by rw [← h, hn]⟩
  | error e =>
    obtain ⟨n, hn⟩ := hf
    rcases hle n with h | h
    · rw [hn] at h; cases h
    · exact ⟨n + N, by rw [← h, hn]⟩

theorem encComp_answer {W : World} {t : Ty} {r : Answer} (h : EncComp W t r) : EncAnswer W t r := by
  cases r with
  | ok c =>
    obtain ⟨rfl, n, seen, hn⟩ := h
    exact .ok ⟨n, seen, hn⟩
  | error e =>
    obtain ⟨n, hn⟩ := h
    refine .err fun h v => ⟨by simp, n, fun cf f h1 h2 => ?_⟩
    simp only [marshal]
    rw [compileE_mono (by rw [hn]; simp) h1, hn]
    rfl

/-- What the compiler of the decoder gives without a cache. -/
def DecComp (W : World) (t : Ty) : Answer → Prop
  | .ok c => c = t ∧ ∃ n, compileD W n [] t = .ok ()
  | .error e => ∃ n, compileD W n [] t = .err e

theorem decProto_sound (W : World) : Sound (decProto W) (DecComp W) :=
  ⟨fun t as r _ hf => by cases r <;> exact hf, fun t c h => h.1⟩

theorem decComp_answer {W : World} {t : Ty} {r : Answer} (h : DecComp W t r) : DecAnswer W t r := by
  cases r with
  | ok c =>
    obtain ⟨rfl, n, hn⟩ := h
    exact .ok hn
  | error e =>
    obtain ⟨n, hn⟩ := h
    refine .err (n := n) fun fuel hf data hd v => ?_
    rw [unmarshal_ptr hd]
    unfold unmarshalInto
    rw [compileD_mono (by rw [hn]; simp) hf, hn]
    rfl

/-! ### Who touches which map -/

theorem builds_head {s : CState} (h : CSep s) {i b : Nat} (hb : Builds s i b) : ∃ r rs, s.go i = r :: rs ∧ r.own = some b := by
  have key : ∀ r, r ∈ s.go i → r.own = some b → ∃ r rs, s.go i = r :: rs ∧ r.own = some b := fun r hr ho => by
    cases hg : s.go i with
    | nil => rw [hg] at hr; simp at hr
    | cons r0 rs =>
      rw [hg] at hr
      rcases List.mem_cons.1 hr with rfl | hr
      · exact ⟨_, _, rfl, ho⟩
      · obtain ⟨_, _, _, rfl⟩ := h.tails i _ _ hg r hr
        cases ho
  cases hb with
  | fill hm => exact key _ hm rfl
  | publish hm => exact key _ hm rfl

theorem reads_addr {s : CState} {i a : Nat} (h : Reads s i a) : ∃ r ∈ s.go i, r.addr = some a ∧ r.own = none := by
  cases h with
  | look h => exact ⟨_, h, rfl, rfl⟩
  | compiling h => exact ⟨_, h, rfl, rfl⟩
  | make h => exact ⟨_, h, rfl, rfl⟩

theorem builds_addr {s : CState} {i b : Nat} (h : Builds s i b) : ∃ r ∈ s.go i, r.addr = some b := by
  cases h with
  | fill h => exact ⟨_, h, rfl⟩
  | publish h => exact ⟨_, h, rfl⟩

theorem sep_builds {s : CState} (h : CSep s) {i b : Nat} (hb : Builds s i b) :
    b ≠ s.cur ∧ (∀ j, ¬ Reads s j b) ∧ ∀ j, Builds s j b → j = i := by
  obtain ⟨r, rs, hg, ho⟩ := builds_head h hb
  obtain ⟨h1, h2, h3⟩ := h.own i r rs b hg ho
  refine ⟨h1, fun j hj => ?_, fun j hj => ?_⟩
  · obtain ⟨x, hx, hxa, hxo⟩ := reads_addr hj
    by_cases hji : j = i
    · subst hji
      rw [hg] at hx
      rcases List.mem_cons.1 hx with rfl | hx
      · rw [ho] at hxo; cases hxo
      · exact h2 x hx hxa
    · exact h3 j hji x hx hxa
  · obtain ⟨x, hx, hxa⟩ := builds_addr hj
    by_cases hji : j = i
    · exact hji
    · exact absurd hxa (h3 j hji x hx)

theorem shared_same {P : Proto} {s s' : CState} {i : Nat} (h : CSep s) (hs : CStep P i s s') {a : Nat} (ha : a < s.maps.length)
    (hn : ¬ Builds s i a) : s'.maps[a]? = s.maps[a]? := by
  have hans : ∀ {s : CState} {i t r rs}, (s.answer i t r rs).maps = s.maps := by
    intro s i t r rs
    unfold CState.answer
    split <;> rfl
  cases hs with
  | hit => rw [hans]
  | fail => rw [hans]
  | store => rw [hans]
  | make => exact List.getElem?_append_left ha
  | @write t c b k v ws rs m hg hm =>
    refine List.getElem?_set_ne fun he => hn ?_
    subst he
    exact .fill (by rw [hg]; exact List.mem_cons_self)
  | _ => rfl

end Verif

import Verif.Model.Alloc
import Verif.Spec.Alloc
import Verif.Proofs.Safety
import Verif.Proofs.DecComplete
/-
Bounds for the memory asked for: every allocation can be charged to bytes of the input that are read next.
-/
namespace Verif
open Spec

/-- Where a decoder stops reading: at the cursor it returns, or anywhere up to the end. -/
def stop (b : Bytes) (r : Res Nat) : Nat :=
  match r with
  | .ok c => c
  | _ => b.length

/-- The amount `a` plus `s` is paid for by `m` for every byte from `c` to where `r` stops. -/
structure Within (b : Bytes) (m s c : Nat) (r : DR) (a : Nat) : Prop where
  le : c ≤ stop b r.2
  pay : a + s ≤ m * (stop b r.2 - c)

theorem pay_join {m x y z a a' : Nat} (h1 : a ≤ m * (y - x)) (h2 : a' ≤ m * (z - y)) (hx : x ≤ y) (hy : y ≤ z) : a + a' ≤ m * (z - x) := by
  have : z - x = (y - x) + (z - y) := by omega
  rw [this, Nat.mul_add]
  omega

theorem pay_one {m x y a : Nat} (h : a ≤ m) (hx : x < y) : a ≤ m * (y - x) := by
  have := Nat.mul_le_mul_left m (show 1 ≤ y - x by omega)
  omega

section Combinators
variable {b : Bytes} {m s c : Nat}

theorem within_free {r : DR} (hs : s ≤ m) (hc : c < b.length) (hp : ∀ c', r.2 = .ok c' → c < c') : Within b m s c r 0 := by
  have : c < stop b r.2 := by
    unfold stop
    split
    · exact hp _ (by assumption)
    · exact hc
  exact ⟨by omega, by simpa using pay_one hs this⟩

theorem within_err {rv : Val} {e : Err} (hs : s ≤ m) (hc : c < b.length) : Within b m s c (rv, .err e) 0 :=
  within_free hs hc (by simp)

theorem within_panic {rv : Val} {p : Panic} (hs : s ≤ m) (hc : c < b.length) : Within b m s c (rv, .panic p) 0 :=
  within_free hs hc (by simp)

theorem within_onOk {α : Type} {rv : Val} {r : Res α} {k : α → DR} {k' : α → Nat} (hs : s ≤ m) (hc : c < b.length)
    (h : ∀ x, r = .ok x → Within b m s c (k x) (k' x)) : Within b m s c (onOk rv r k) (costOk r k') := by
  cases r with
  | ok x => exact h x rfl
  | err e => exact within_err hs hc
  | panic p => exact within_panic hs hc
  | diverge => exact within_free hs hc (by simp [onOk])

theorem within_ite {p : Prop} [Decidable p] {x y : DR} {a a' : Nat} (h1 : p → Within b m s c x a) (h2 : ¬ p → Within b m s c y a') :
    Within b m s c (if p then x else y) (if p then a else a') := by
  split
  · exact h1 ‹_›
  · exact h2 ‹_›

/-- A check of the length before an index: the index fails if the check does. -/
theorem within_has {rv : Val} {e : Err} {c' : Nat} {x : DR} {k : Byte → Nat} (hs : s ≤ m) (hc : c < b.length)
    (h : c' < b.length → Within b m s c x (costOk (idx b c') k)) :
    Within b m s c (if !hasByte b c' then (rv, .err e) else x) (costOk (idx b c') k) := by
  by_cases hh : c' < b.length
  · rw [if_neg (by simp [hasByte, hh])]
    exact h hh
  · rw [if_pos (by simp [hasByte, hh])]
    have : idx b c' = .panic .index := by
      unfold idx
      rw [List.getElem?_eq_none (by omega)]
    rw [this]
    exact within_err hs hc

theorem Within.later {r : DR} {a c0 : Nat} (h : Within b m s c r a) (hc : c0 ≤ c) : Within b m s c0 r a := by
  refine ⟨Nat.le_trans hc h.le, Nat.le_trans h.pay (Nat.mul_le_mul_left m ?_)⟩
  omega

theorem Within.less {r : DR} {a a' s' : Nat} (h : Within b m s c r a) (hc : a' + s' ≤ a + s) : Within b m s' c r a' :=
  ⟨h.le, Nat.le_trans hc h.pay⟩

/-- One byte read pays for `m` more. -/
theorem Within.first {r : DR} {a c0 : Nat} (h : Within b m 0 c r a) (hc : c0 < c) {x : Nat} (hx : x + s ≤ m) : Within b m s c0 r (x + a) := by
  refine ⟨Nat.le_trans (by omega) h.le, ?_⟩
  have := pay_join (pay_one hx hc) h.pay (by omega) h.le
  omega

end Combinators

/-! ### Loops -/

theorem readInt_lt {b : Bytes} {c i c' : Nat} (h : readInt b c = .ok (i, c')) : c < b.length ∧ c < c' := by
  obtain ⟨t, -, -, h1, h2⟩ := readInt_sound h
  exact ⟨lt_of_drop_cons h1, by omega⟩

/-- What is needed of the decoder of an element. -/
structure Elem (b : Bytes) (m s : Nat) (dec : Nat → Val → DR) (al : Nat → Val → Nat) : Prop where
  prog : ∀ c v v' c', dec c v = (v', .ok c') → c < c' ∧ c' ≤ b.length
  pay : ∀ c v, c < b.length → Within b m s c (dec c v) (al c v)

section Loops
variable {b : Bytes} {m k : Nat}

/-- The part of a loop after an element: `X` is what is asked for in addition to the element. -/
theorem after_elem {c x : Nat} {r : DR} {a : Nat} {rv : Val} {e : Nat → Err} {K : Nat → DR} {K' : Nat → Nat} (hc : c < b.length)
    (hp : ∀ c', r.2 = .ok c' → c < c' ∧ c' ≤ b.length) (hw : Within b m x c r a)
    (hK : ∀ c', c' ≤ b.length → Within b m 0 c' (K c') (K' c')) :
    Within b m 0 c (onOk rv r.2 fun c => if !hasByte b c then (rv, .err (e c)) else onOk rv (idx b c) fun y =>
        if y = cRBrace then (rv, .ok (c + 1)) else K c)
      (x + a + costOk r.2 fun c' => costOk (idx b c') fun y => if y = cRBrace then 0 else K' c') := by
  obtain ⟨v, r⟩ := r
  cases r with
  | ok c2 =>
    obtain ⟨p1, p2⟩ := hp c2 rfl
    have key : Within b m 0 c2 (if !hasByte b c2 then (rv, .err (e c2)) else onOk rv (idx b c2) fun y =>
        if y = cRBrace then (rv, .ok (c2 + 1)) else K c2) (costOk (idx b c2) fun y => if y = cRBrace then 0 else K' c2) := by
      by_cases hlt : c2 < b.length
      · refine within_has (by omega) hlt fun _ => within_onOk (by omega) hlt fun y _ => ?_
        exact within_ite (fun _ => within_free (by omega) hlt (by simp)) fun _ => hK _ p2
      · rw [if_pos (by simp [hasByte, hlt])]
        have : idx b c2 = .panic .index := by
          unfold idx
          rw [List.getElem?_eq_none (by omega)]
        rw [this]
        exact ⟨by simpa [stop] using p2, by simp [costOk]⟩
    refine ⟨Nat.le_trans (by omega) key.le, ?_⟩
    have h1 := hw.pay
    have := pay_join (show x + a ≤ m * (c2 - c) by simpa [stop, Nat.add_comm] using h1) key.pay (by omega) key.le
    simpa [onOk, costOk, Nat.add_assoc] using this
  | err e => exact ⟨by simp [stop, onOk]; omega, by have := hw.pay; simp [stop, onOk, costOk] at this ⊢; omega⟩
  | panic e => exact ⟨by simp [stop, onOk]; omega, by have := hw.pay; simp [stop, onOk, costOk] at this ⊢; omega⟩
  | diverge => exact ⟨by simp [stop, onOk]; omega, by have := hw.pay; simp [stop, onOk, costOk] at this ⊢; omega⟩

theorem sliceLoop_within {dec : Nat → Val → DR} {al : Nat → Val → Nat} {z : Val} {es : Nat} (hE : Elem b m k dec al)
    (hi : ∀ c i c', readInt b c = .ok (i, c') → es * (i + 1) ≤ k) :
    ∀ {f c : Nat} {sl : List Val} {rv : Val}, c ≤ b.length →
      Within b m 0 c (sliceLoop dec z es b f c sl rv) (sliceLoopAlloc dec al z es b f c sl) := by
  intro f
  induction f with
  | zero => intro c sl rv hc; exact ⟨by simpa [sliceLoop, stop] using hc, by simp [sliceLoopAlloc]⟩
  | succ f ih =>
    intro c sl rv hc
    unfold sliceLoop sliceLoopAlloc
    rcases hr : readInt b c with ⟨i, c1⟩ | e | p | _
    · obtain ⟨p1, p2⟩ := readInt_lt hr
      rw [if_neg (by simp [hasByte, p1])]
      simp only [onOk, costOk]
      refine within_ite (fun _ => within_err (by omega) p1) fun h1 => ?_
      have h1 := lt_of_hasByte h1
      refine within_ite (fun _ => within_panic (by omega) p1) fun _ => ?_
      generalize (if decide (i ≥ sl.length) = true then sl ++ List.replicate (i + 1 - sl.length) z else sl) = sl'
      cases sl'[i]? with
      | none => exact within_panic (by omega) p1
      | some v0 =>
        dsimp only
        have hw := hE.pay c1 v0 h1
        have hp := hE.prog c1 v0
        generalize hd : dec c1 v0 = r at hw hp ⊢
        obtain ⟨v, r⟩ := r
        have hgi := hi _ _ _ hr
        have hx : (if decide (i ≥ sl.length) = true then es * (i + 1) else 0) ≤ k := by
          split
          · exact hgi
          · omega
        generalize (if decide (i ≥ sl.length) = true then es * (i + 1) else 0) = x at hx ⊢
        cases r with
        | ok c2 =>
          obtain ⟨p3, p4⟩ := hp _ _ rfl
          have := after_elem (rv := .slice (sl'.set i v)) (r := (v, .ok c2)) (x := x) (e := fun c => .unexpectedEnd "array" c) (a := al c1 v0)
            (K := fun c => sliceLoop dec z es b f c (sl'.set i v) (.slice (sl'.set i v)))
            (K' := fun c => sliceLoopAlloc dec al z es b f c (sl'.set i v)) h1 (fun c' h => hp v c' (by simpa using h))
            (hw.less (by omega)) fun c' hc' => ih hc'
          exact this.later (by omega)
        | err e => exact ⟨by simp [stop]; omega, Nat.le_trans (by have := hw.pay; simp [stop] at this ⊢; omega) ((hw.later (c0 := c) (by omega)).pay)⟩
        | panic e => exact ⟨by simp [stop]; omega, Nat.le_trans (by have := hw.pay; simp [stop] at this ⊢; omega) ((hw.later (c0 := c) (by omega)).pay)⟩
        | diverge => exact ⟨by simp [stop]; omega, Nat.le_trans (by have := hw.pay; simp [stop] at this ⊢; omega) ((hw.later (c0 := c) (by omega)).pay)⟩
    all_goals
      simp only [onOk, costOk]
      split <;> exact ⟨by simpa [stop] using hc, by simp⟩

theorem arrayLoop_within {dec : Nat → Val → DR} {al : Nat → Val → Nat} {skip : Nat → Res Nat} (hE : Elem b m k dec al)
    (hs : ∀ c c', skip c = .ok c' → c < c' ∧ c' ≤ b.length) :
    ∀ {f c : Nat} {vs : List Val}, c ≤ b.length → Within b m 0 c (arrayLoop dec skip b f c vs) (arrayLoopAlloc dec al skip b f c vs) := by
  intro f
  induction f with
  | zero => intro c vs hc; exact ⟨by simpa [arrayLoop, stop] using hc, by simp [arrayLoopAlloc]⟩
  | succ f ih =>
    intro c vs hc
    unfold arrayLoop arrayLoopAlloc
    rcases hr : readInt b c with ⟨i, c1⟩ | e | p | _
    · obtain ⟨p1, p2⟩ := readInt_lt hr
      rw [if_neg (by simp [hasByte, p1])]
      simp only [onOk, costOk]
      refine within_ite (fun _ => within_err (by omega) p1) fun h1 => ?_
      have h1 := lt_of_hasByte h1
      cases vs[i]? with
      | none =>
        dsimp only
        have := after_elem (rv := .arr vs) (r := (.other, skip c1)) (x := 0) (e := fun c => .unexpectedEnd "array" c) (a := 0)
          (K := fun c => arrayLoop dec skip b f c vs) (K' := fun c => arrayLoopAlloc dec al skip b f c vs) h1
          (fun c' h => hs _ _ h) (within_free (by omega) h1 fun c' h => (hs _ _ h).1) fun c' hc' => ih hc'
        cases hsk : skip c1 with
        | ok c2 => rw [hsk] at this; exact (this.later (c0 := c) (by omega)).less (by simp [costOk])
        | err e => exact within_err (by omega) p1
        | panic e => exact within_panic (by omega) p1
        | diverge => exact within_free (by omega) p1 (by simp)
      | some v0 =>
        dsimp only
        have hw := hE.pay c1 v0 h1
        have hp := hE.prog c1 v0
        generalize hd : dec c1 v0 = r at hw hp ⊢
        obtain ⟨v, r⟩ := r
        have := after_elem (rv := .arr (vs.set i v)) (r := (v, r)) (x := 0) (e := fun c => .unexpectedEnd "array" c) (a := al c1 v0)
          (K := fun c => arrayLoop dec skip b f c (vs.set i v)) (K' := fun c => arrayLoopAlloc dec al skip b f c (vs.set i v)) h1
          (fun c' h => hp v c' (by simpa using h)) (hw.less (by omega)) fun c' hc' => ih hc'
        cases r with
        | ok c2 => exact (this.later (c0 := c) (by omega)).less (by simp [costOk])
        | err e => exact (this.later (c0 := c) (by omega)).less (by simp [costOk])
        | panic e => exact (this.later (c0 := c) (by omega)).less (by simp [costOk])
        | diverge => exact (this.later (c0 := c) (by omega)).less (by simp [costOk])
    all_goals
      simp only [onOk, costOk]
      split <;> exact ⟨by simpa [stop] using hc, by simp⟩

theorem structLoop_within {W : World} {id : Nat} (hb : b.length < 2 ^ 63) {dec : FieldSet → Nat → Val → DR}
    {al : FieldSet → Nat → Val → Nat} {skip : Nat → Res Nat}
    (hE : ∀ key i f, FieldFor W id key i f → Elem b m k (dec (mkSet W i f)) (al (mkSet W i f)))
    (hs : ∀ c c', skip c = .ok c' → c < c' ∧ c' ≤ b.length) :
    ∀ {f c : Nat} {vs : List Val}, c ≤ b.length →
      Within b m 0 c (structLoop (fieldSets W 0 (W.fields id)) dec skip b f c vs)
        (structLoopAlloc (fieldSets W 0 (W.fields id)) dec al skip b f c vs) := by
  intro f
  induction f with
  | zero => intro c vs hc; exact ⟨by simpa [structLoop, stop] using hc, by simp [structLoopAlloc]⟩
  | succ f ih =>
    intro c vs hc
    unfold structLoop structLoopAlloc
    by_cases hlt : c < b.length
    · refine within_ite (fun _ => within_err (by omega) hlt) fun _ => ?_
      refine within_onOk (by omega) hlt ?_
      rintro ⟨fld, c1⟩ hk
      simp only [decodeKey, Res.bind_eq_ok] at hk
      obtain ⟨⟨ob, cn⟩, hsb, hk⟩ := hk
      cases hk
      have p2 := (stringBytes_progress hb hsb).1
      refine within_ite (fun _ => within_err (by omega) hlt) fun h1 => ?_
      have h1 := lt_of_hasByte h1
      rcases hfind : (fieldSets W 0 (W.fields id)).find? (fun s => decide (s.key = ob.getD [])) with _ | fs
      · rw [hfind]
        dsimp only
        have := after_elem (rv := .struct vs) (r := (.other, skip cn)) (x := 0) (e := fun c => .unexpectedEnd "object" c) (a := 0)
          (K := fun c => structLoop (fieldSets W 0 (W.fields id)) dec skip b f c vs)
          (K' := fun c => structLoopAlloc (fieldSets W 0 (W.fields id)) dec al skip b f c vs) h1
          (fun c' h => hs _ _ h) (within_free (by omega) h1 fun c' h => (hs _ _ h).1) fun c' hc' => ih hc'
        exact (this.later (c0 := c) (by omega)).less (by simp)
      · obtain ⟨i, fd, hff, rfl⟩ := find_some hfind
        rw [hfind]
        dsimp only
        have hE := hE _ _ _ hff
        generalize mkSet W i fd = fs at hE ⊢
        cases vs[fs.idx]? with
        | none => exact within_panic (by omega) hlt
        | some v0 =>
          dsimp only
          have hw := hE.pay cn v0 h1
          have hp := hE.prog cn v0
          generalize hd : dec fs cn v0 = r at hw hp ⊢
          obtain ⟨v, r⟩ := r
          have := after_elem (rv := .struct (vs.set fs.idx v)) (r := (v, r)) (x := 0) (e := fun c => .unexpectedEnd "object" c) (a := al fs cn v0)
            (K := fun c => structLoop (fieldSets W 0 (W.fields id)) dec skip b f c (vs.set fs.idx v))
            (K' := fun c => structLoopAlloc (fieldSets W 0 (W.fields id)) dec al skip b f c (vs.set fs.idx v)) h1
            (fun c' h => hp v c' (by simpa using h)) (hw.less (by omega)) fun c' hc' => ih hc'
          exact (this.later (c0 := c) (by omega)).less (by simp)
    · rw [if_pos (by simp [hasByte, hlt]), if_pos (by simp [hasByte, hlt])]
      exact ⟨by simpa [stop] using hc, by simp⟩

theorem mapLoop_within {keyDec valDec : Nat → DR} {keyAl valAl : Nat → Nat} {ks vs : Nat}
    (hkp : ∀ c v' c', keyDec c = (v', .ok c') → c < c' ∧ c' ≤ b.length)
    (hvp : ∀ c v' c', valDec c = (v', .ok c') → c < c' ∧ c' ≤ b.length)
    (hkw : ∀ c, c < b.length → Within b m k c (keyDec c) (keyAl c)) (hvw : ∀ c, c < b.length → Within b m (3 * k) c (valDec c) (valAl c))
    (hks : ks ≤ k) (hvs : vs ≤ k) :
    ∀ {f c : Nat} {es : List (Val × Val)}, c ≤ b.length →
      Within b m 0 c (mapLoop keyDec valDec b f c es) (mapLoopAlloc keyDec valDec keyAl valAl ks vs b f c) := by
  intro f
  induction f with
  | zero => intro c es hc; exact ⟨by simpa [mapLoop, stop] using hc, by simp [mapLoopAlloc]⟩
  | succ f ih =>
    intro c es hc
    unfold mapLoop mapLoopAlloc
    by_cases hlt : c < b.length
    · refine within_ite (fun _ => within_err (by omega) hlt) fun _ => ?_
      have hw := hkw c hlt
      have hp := hkp c
      generalize keyDec c = r at hw hp ⊢
      obtain ⟨kv, r⟩ := r
      cases r with
      | ok c1 =>
        obtain ⟨p1, p2⟩ := hp _ _ rfl
        simp only [onOk, costOk]
        have key : Within b m 0 c1 (if !hasByte b c1 then (Val.map es, .err (.unexpectedEnd "map value" c1)) else
            match valDec c1 with
            | (v, r) =>
              onOk (.map es) r fun c =>
              if !kv.hashable then (.map es, .panic .unhashable) else
              let es := mapInsert kv v es
              if !hasByte b c then (.map es, .err (.unexpectedEnd "map" c)) else
              onOk (.map es) (idx b c) fun y =>
              if y = cRBrace then (.map es, .ok (c + 1)) else mapLoop keyDec valDec b f c es)
            (if !hasByte b c1 then 0 else vs + valAl c1 + costOk (valDec c1).2 fun c2 => if !kv.hashable then 0 else
              (ks + vs) + costOk (idx b c2) fun y => if y = cRBrace then 0 else mapLoopAlloc keyDec valDec keyAl valAl ks vs b f c2) := by
          by_cases h1 : c1 < b.length
          · refine within_ite (fun _ => within_err (by omega) h1) fun _ => ?_
            have hw := hvw c1 h1
            have hp := hvp c1
            generalize valDec c1 = r at hw hp ⊢
            obtain ⟨v, r⟩ := r
            cases r with
            | ok c2 =>
              obtain ⟨p3, p4⟩ := hp _ _ rfl
              simp only [onOk, costOk]
              by_cases hh : (!kv.hashable) = true
              · rw [if_pos hh, if_pos hh]
                have hp := (hw.less (a' := vs + valAl c1) (s' := 0) (by omega)).pay
                refine ⟨by simp [stop]; omega, Nat.le_trans hp (Nat.mul_le_mul_left m ?_)⟩
                simp only [stop]
                omega
              · rw [if_neg hh, if_neg hh]
                have := after_elem (rv := .map (mapInsert kv v es)) (r := (v, .ok c2)) (x := vs + (ks + vs)) (e := fun c => .unexpectedEnd "map" c)
                  (a := valAl c1) (K := fun c => mapLoop keyDec valDec b f c (mapInsert kv v es))
                  (K' := fun c => mapLoopAlloc keyDec valDec keyAl valAl ks vs b f c) h1 (fun c' h => hp v c' (by simpa using h))
                  (hw.less (by omega)) fun c' hc' => ih hc'
                simp only [onOk, costOk] at this
                exact this.less (by omega)
            | err e => exact ⟨by simp [onOk, stop]; omega, Nat.le_trans (by simp [costOk]; omega) hw.pay⟩
            | panic e => exact ⟨by simp [onOk, stop]; omega, Nat.le_trans (by simp [costOk]; omega) hw.pay⟩
            | diverge => exact ⟨by simp [onOk, stop]; omega, Nat.le_trans (by simp [costOk]; omega) hw.pay⟩
          · rw [if_pos (by simp [hasByte, h1]), if_pos (by simp [hasByte, h1])]
            exact ⟨by simpa [stop] using p2, by simp⟩
        refine ⟨Nat.le_trans (by omega) key.le, ?_⟩
        have := pay_join (show ks + keyAl c ≤ m * (c1 - c) from Nat.le_trans (by omega) hw.pay) key.pay (by omega) key.le
        exact this
      | err e => exact ⟨by simp [onOk, stop]; omega, Nat.le_trans (by simp [costOk]; omega) hw.pay⟩
      | panic e => exact ⟨by simp [onOk, stop]; omega, Nat.le_trans (by simp [costOk]; omega) hw.pay⟩
      | diverge => exact ⟨by simp [onOk, stop]; omega, Nat.le_trans (by simp [costOk]; omega) hw.pay⟩
    · rw [if_pos (by simp [hasByte, hlt]), if_pos (by simp [hasByte, hlt])]
      exact ⟨by simpa [stop] using hc, by simp⟩

end Loops

/-! ### Decoders -/

/-- What decoding into the types `T` may ask for at once is at most `k`. `T` is closed under components. -/
structure Budget (W : World) (b : Bytes) (T : Ty → Prop) (k : Nat) : Prop where
  ptr : ∀ t e, T t → W.unmOf t = none → W.resolve t = .ptr e → T e ∧ W.elemSize e ≤ k
  slice : ∀ t e, T t → W.unmOf t = none → W.resolve t = .slice e → T e ∧ (∀ c n c', readLength b c = .ok (n, c') → esize W e * n.toNat ≤ k) ∧
    ∀ c i c', readInt b c = .ok (i, c') → esize W e * (i + 1) ≤ k
  array : ∀ t n e, T t → W.unmOf t = none → W.resolve t = .array n e → T e
  map : ∀ t kt vt, T t → W.unmOf t = none → W.resolve t = .map kt vt → T vt ∧ W.elemSize kt ≤ k ∧ W.elemSize vt ≤ k ∧
    ∀ c n c', readLength b c = .ok (n, c') → (W.elemSize kt + W.elemSize vt) * n.toNat ≤ k
  mapAny : ∀ t kt vt, T t → W.unmOf t = none → W.resolve t = .map kt vt →
    (W.resolve kt = .any ∨ ∃ p i, W.resolve kt = .ptr p ∧ (W.resolve p = .any ∨ W.resolve p = .iface i)) →
    T .any ∧ ∀ t', t' = .any ∨ Documented t' → W.elemSize t' ≤ k
  struct : ∀ t id f, T t → W.unmOf t = none → W.resolve t = .struct id → f ∈ W.fields id → T f.ty
  any : ∀ t, T t → W.unmOf t = none → W.resolve t = .any → T .any ∧ ∀ t', t' = .any ∨ Documented t' → W.elemSize t' ≤ k
  anyRoom : T .any → ∀ kt, kt = .str ∨ kt = .any → ∀ c n c', readLength b c = .ok (n, c') → (W.elemSize kt + W.elemSize .any) * n.toNat ≤ k
  unm : ∀ t id, T t → W.unmOf t = some id → W.elemSize t ≤ k

section Decoders
variable {b : Bytes} {m k c depth : Nat}

theorem Elem.less {s s' : Nat} {dec : Nat → Val → DR} {al : Nat → Val → Nat} (h : Elem b m s dec al) (hs : s' ≤ s) : Elem b m s' dec al :=
  ⟨h.prog, fun c v hc => (h.pay c v hc).less (by omega)⟩

theorem sliceDecode_within {dec : Nat → Nat → Val → DR} {al : Nat → Nat → Val → Nat} {z : Val} {es : Nat} {rv : Val} (hm : 8 * k + 1 ≤ m)
    (hc : c < b.length) (hE : depth + 1 ≤ maxDepth → Elem b m (4 * k) (fun c v => dec c (depth + 1) v) fun c v => al c (depth + 1) v)
    (hl : ∀ c n c', readLength b c = .ok (n, c') → es * n.toNat ≤ k) (hi : ∀ c i c', readInt b c = .ok (i, c') → es * (i + 1) ≤ k) :
    Within b m (5 * k) c (sliceDecode dec z es b c depth rv) (sliceAlloc dec al z es b c depth) := by
  unfold sliceDecode sliceAlloc
  have hs : 5 * k ≤ m := by omega
  refine within_ite (fun _ => within_err hs hc) fun _ => ?_
  dsimp only
  refine within_ite (fun _ => within_err hs hc) fun hdp => ?_
  refine within_onOk hs hc fun x hx => ?_
  by_cases hN : x = cN
  · subst hN
    rw [if_pos rfl, if_neg (by decide)]
    refine within_free hs hc fun c' h => ?_
    cases hv : validateNull b c <;> rw [hv] at h <;> simp [onOk] at h
    omega
  rw [if_neg hN]
  by_cases ha : x = ca
  · rw [if_pos ha, if_pos ha]
    refine within_has hs hc fun h1 => within_onOk hs hc fun y _ => ?_
    refine within_ite (fun _ => within_err hs hc) fun _ => ?_
    refine within_has hs hc fun h2 => within_onOk hs hc fun y _ => ?_
    refine within_ite (fun _ => ?_) fun _ => ?_
    · refine within_free hs hc fun c' h => ?_
      cases hv : validateEmptyArray b (c + 1 + 1) <;> rw [hv] at h <;> simp [onOk] at h
      omega
    refine within_onOk hs hc ?_
    rintro ⟨n, c1⟩ hn
    obtain ⟨_, _, -, -, -, p1⟩ := readLength_sound hn
    refine within_has hs hc fun h3 => within_onOk hs hc fun y _ => ?_
    refine within_ite (fun _ => within_err hs hc) fun _ => ?_
    refine within_ite (fun _ => within_panic hs hc) fun _ => ?_
    have := sliceLoop_within (z := z) (f := b.length + 1) (sl := []) (rv := rv) ((hE (by omega)).less (s' := k) (by omega)) hi (c := c1 + 1) h3
    have hx := hl _ _ _ hn
    exact this.first (c0 := c) (s := 5 * k) (x := es * n.toNat) (by omega) (by omega)
  · rw [if_neg ha, if_neg ha]
    refine within_free hs hc fun c' h => ?_
    split at h <;> cases h

theorem bytesDecode_within {dec : Nat → Nat → Val → DR} {al : Nat → Nat → Val → Nat} {z : Val} {rv : Val} (hb : b.length < 2 ^ 63)
    (hm : 8 * k + 1 ≤ m)
    (hc : c < b.length) (hE : depth + 1 ≤ maxDepth → Elem b m (4 * k) (fun c v => dec c (depth + 1) v) fun c v => al c (depth + 1) v)
    (hl : ∀ c n c', readLength b c = .ok (n, c') → 1 * n.toNat ≤ k) (hi : ∀ c i c', readInt b c = .ok (i, c') → 1 * (i + 1) ≤ k) :
    Within b m (5 * k) c (bytesDecode dec z b c depth rv) (bytesAlloc dec al z b c depth) := by
  unfold bytesDecode bytesAlloc
  have hs : 5 * k ≤ m := by omega
  refine within_onOk hs hc fun x hx => ?_
  refine within_ite (fun _ => sliceDecode_within hm hc hE hl hi) fun _ => ?_
  refine within_free hs hc fun c' h => ?_
  cases hv : stringBytes b c with
  | ok r =>
    obtain ⟨ob, c1⟩ := r
    rw [hv] at h
    have := (stringBytes_progress hb hv).1
    cases ob <;> simp [onOk] at h <;> omega
  | _ => rw [hv] at h; simp [onOk] at h

theorem arrayDecode_within {dec : Nat → Nat → Val → DR} {al : Nat → Nat → Val → Nat} {z : Val} {n : Nat} {rv : Val} (hb : b.length < 2 ^ 63)
    (hm : 8 * k + 1 ≤ m)
    (hc : c < b.length) (hE : depth + 1 ≤ maxDepth → Elem b m (4 * k) (fun c v => dec c (depth + 1) v) fun c v => al c (depth + 1) v) :
    Within b m (5 * k) c (arrayDecode dec z n b c depth rv) (arrayAlloc dec al z n b c depth) := by
  unfold arrayDecode arrayAlloc
  have hs : 5 * k ≤ m := by omega
  refine within_ite (fun _ => within_err hs hc) fun _ => ?_
  dsimp only
  refine within_ite (fun _ => within_err hs hc) fun hdp => ?_
  refine within_onOk hs hc fun x hx => ?_
  by_cases hN : x = cN
  · subst hN
    rw [if_pos rfl, if_neg (by decide)]
    refine within_free hs hc fun c' h => ?_
    cases hv : validateNull b c <;> rw [hv] at h <;> simp [onOk] at h
    omega
  rw [if_neg hN]
  refine within_ite (fun ha => ?_) fun _ => within_err hs hc
  refine within_has hs hc fun h1 => within_onOk hs hc fun y _ => ?_
  refine within_ite (fun _ => within_err hs hc) fun _ => ?_
  refine within_has hs hc fun h2 => within_onOk hs hc fun y _ => ?_
  refine within_ite (fun _ => ?_) fun _ => ?_
  · refine within_free hs hc fun c' h => ?_
    cases hv : validateEmptyArray b (c + 1 + 1) <;> rw [hv] at h <;> simp [onOk] at h
    omega
  refine within_onOk hs hc ?_
  rintro ⟨cnt, c1⟩ hn
  obtain ⟨_, _, -, -, -, p1⟩ := readLength_sound hn
  refine within_has hs hc fun h3 => within_onOk hs hc fun y _ => ?_
  refine within_ite (fun _ => within_err hs hc) fun _ => ?_
  have hd : depth + 1 ≤ maxDepth := by omega
  have := arrayLoop_within (hE hd) (fun c c' h => skip_progress hb hd h) (f := b.length + 1) (vs := List.replicate n z) (c := c1 + 1) h3
  have := this.first (x := 0) (s := 5 * k) (c0 := c) (by omega) (by omega)
  rw [Nat.zero_add] at this
  exact this

theorem structDecode_within {W : World} {id : Nat} {dec : FieldSet → Nat → Nat → Val → DR} {al : FieldSet → Nat → Nat → Val → Nat} {rv : Val}
    (hb : b.length < 2 ^ 63) (hm : 8 * k + 1 ≤ m) (hc : c < b.length)
    (hE : depth + 1 ≤ maxDepth → ∀ key i f, FieldFor W id key i f →
      Elem b m (4 * k) (fun c v => dec (mkSet W i f) c (depth + 1) v) fun c v => al (mkSet W i f) c (depth + 1) v) :
    Within b m (5 * k) c (structDecode (fieldSets W 0 (W.fields id)) dec b c depth rv) (structAlloc (fieldSets W 0 (W.fields id)) dec al b c depth rv) := by
  unfold structDecode structAlloc
  have hs : 5 * k ≤ m := by omega
  refine within_ite (fun _ => within_err hs hc) fun _ => ?_
  dsimp only
  refine within_ite (fun _ => within_err hs hc) fun hdp => ?_
  refine within_onOk hs hc fun x hx => ?_
  refine within_ite (fun _ => ?_) fun _ => ?_
  · refine within_free hs hc fun c' h => ?_
    cases hv : validateNull b c <;> rw [hv] at h <;> simp [onOk] at h
    omega
  refine within_onOk hs hc fun c1 hh => ?_
  have p1 := header_progress hb hx hh
  refine within_has hs hc fun h1 => within_onOk hs hc fun y _ => ?_
  refine within_ite (fun _ => within_err hs hc) fun _ => ?_
  refine within_onOk hs hc fun c2 hl => ?_
  obtain ⟨cnt, -, -, p2⟩ := skipLen_sound hl
  refine within_has hs hc fun h2 => within_onOk hs hc fun y _ => ?_
  refine within_ite (fun _ => within_err hs hc) fun _ => ?_
  refine within_has hs hc fun h3 => within_onOk hs hc fun y _ => ?_
  refine within_ite (fun _ => within_free hs hc fun c' h => ?_) fun _ => ?_
  · cases h; omega
  cases rv with
  | struct vs =>
    have hd : depth + 1 ≤ maxDepth := by omega
    have := structLoop_within (dec := fun s c v => dec s c (depth + 1) v) (al := fun s c v => al s c (depth + 1) v) hb (hE hd) (fun c c' h => skip_progress hb hd h) (f := b.length + 1) (vs := vs) (c := c2 + 1) (by omega)
    have := this.first (x := 0) (s := 5 * k) (c0 := c) (by omega) (by omega)
    rw [Nat.zero_add] at this
    exact this
  | _ => exact within_panic hs hc

theorem mapRoom_le {ks vs : Nat} {n : Int} (h : (ks + vs) * n.toNat ≤ k) : mapRoom ks vs n ≤ k := by
  unfold mapRoom
  split
  · exact h
  · omega

theorem mapDecode_within {keyDec valDec : Nat → Nat → DR} {keyAl valAl : Nat → Nat → Nat} {ks vs : Nat} {rv : Val} (hb : b.length < 2 ^ 63)
    (hm : 8 * k + 1 ≤ m) (hc : c < b.length)
    (hkp : depth + 1 ≤ maxDepth → ∀ c v' c', keyDec c (depth + 1) = (v', .ok c') → c < c' ∧ c' ≤ b.length)
    (hvp : depth + 1 ≤ maxDepth → ∀ c v' c', valDec c (depth + 1) = (v', .ok c') → c < c' ∧ c' ≤ b.length)
    (hkw : depth + 1 ≤ maxDepth → ∀ c, c < b.length → Within b m k c (keyDec c (depth + 1)) (keyAl c (depth + 1)))
    (hvw : depth + 1 ≤ maxDepth → ∀ c, c < b.length → Within b m (4 * k) c (valDec c (depth + 1)) (valAl c (depth + 1)))
    (hks : ks ≤ k) (hvs : vs ≤ k) (hl : ∀ c n c', readLength b c = .ok (n, c') → (ks + vs) * n.toNat ≤ k) :
    Within b m (6 * k) c (mapDecode keyDec valDec b c depth rv) (mapAlloc keyDec valDec keyAl valAl ks vs b c depth rv) := by
  unfold mapDecode mapAlloc
  have hs : 6 * k ≤ m := by omega
  refine within_ite (fun _ => within_err hs hc) fun _ => ?_
  dsimp only
  refine within_ite (fun _ => within_err hs hc) fun hdp => ?_
  refine within_onOk hs hc fun x hx => ?_
  refine within_ite (fun _ => ?_) fun _ => ?_
  · refine within_free hs hc fun c' h => ?_
    cases hv : validateNull b c <;> rw [hv] at h <;> simp [onOk] at h
    omega
  refine within_onOk hs hc fun c1 hh => ?_
  have p1 := header_progress hb hx hh
  refine within_onOk hs hc ?_
  rintro ⟨n, c2⟩ hn
  obtain ⟨_, _, -, -, -, p2⟩ := readLength_sound hn
  refine within_has hs hc fun h2 => within_onOk hs hc fun y _ => ?_
  refine within_ite (fun _ => within_err hs hc) fun _ => ?_
  have hroom := mapRoom_le (hl _ _ _ hn)
  have loop : ∀ es, Within b m 0 (c2 + 1) (if !hasByte b (c2 + 1) then (Val.map es, .err (.unexpectedEnd "map" (c2 + 1 : Nat))) else
      onOk (.map es) (idx b (c2 + 1)) fun y => if y = cRBrace then (.map es, .ok (c2 + 1 + 1)) else
        mapLoop (fun c => keyDec c (depth + 1)) (fun c => valDec c (depth + 1)) b (b.length + 1) (c2 + 1) es)
      (costOk (idx b (c2 + 1)) fun y => if y = cRBrace then 0 else
        mapLoopAlloc (fun c => keyDec c (depth + 1)) (fun c => valDec c (depth + 1)) (fun c => keyAl c (depth + 1)) (fun c => valAl c (depth + 1))
          ks vs b (b.length + 1) (c2 + 1)) := by
    intro es
    by_cases h3 : c2 + 1 < b.length
    · refine within_has (by omega) h3 fun _ => within_onOk (by omega) h3 fun y _ => ?_
      refine within_ite (fun _ => within_free (by omega) h3 fun c' h => ?_) fun _ => ?_
      · cases h; omega
      have hd := show depth + 1 ≤ maxDepth by omega
      exact mapLoop_within (hkp hd) (hvp hd) (hkw hd) (fun c hc => (hvw hd c hc).less (by omega)) hks hvs (by omega)
    · rw [if_pos (by simp [hasByte, h3])]
      have : idx b (c2 + 1) = .panic .index := by
        unfold idx
        rw [List.getElem?_eq_none (by omega)]
      rw [this]
      exact ⟨by simp [stop]; omega, by simp [costOk]⟩
  cases mapEntries rv with
  | none => exact within_panic hs hc
  | some es =>
    cases rv with
    | mapNil => exact (loop es).first (c0 := c) (s := 6 * k) (x := mapRoom ks vs n) (by omega) (by omega)
    | _ => exact (loop es).first (c0 := c) (s := 6 * k) (x := 0) (by omega) (by omega)

/-- The value is changed, the place where reading stops is not. -/
theorem within_wrap {s a : Nat} {rv : Val} {g : Val → Val} {r : DR} : Within b m s c r a →
    Within b m s c (match r with | (v, r) => onOk rv r fun c => (g v, .ok c)) a := by
  intro h
  obtain ⟨v, r⟩ := r
  cases r <;> exact ⟨h.le, h.pay⟩

/-- A fixed amount. -/
theorem within_fixed {s a : Nat} {r : DR} (h : a + s ≤ m) (hc : c < b.length) (hp : ∀ c', r.2 = .ok c' → c < c') : Within b m s c r a := by
  have := within_free (s := a + s) (b := b) (r := r) h hc hp
  exact this.less (by omega)

theorem readString_pay {s x : Nat} {t : Bytes} {e : Nat} {r : DR} (hr : r.2 = .ok e) (hx : x + s ≤ m) (hm : 1 ≤ m)
    (h : c + t.length < e) : Within b m s c r (t.length + x) := by
  refine ⟨by rw [hr]; simp only [stop]; omega, ?_⟩
  rw [hr]
  simp only [stop]
  have h1 : t.length + 1 ≤ e - c := by omega
  have h2 := Nat.mul_le_mul_left m h1
  have h3 : t.length ≤ m * t.length := by
    have := Nat.mul_le_mul_right t.length hm
    omega
  rw [Nat.mul_add] at h2
  omega

theorem At.str_len {l t : Bytes} {c' : Nat} (h : At b c (.str l t) c') : c + t.length < c' := by
  have := h.2
  simp [Doc.text] at this
  omega

theorem stringDecode_within {s : Nat} {rv : Val} (hb : b.length < 2 ^ 63) (hm : s + 1 ≤ m) (hc : c < b.length) :
    Within b m s c (stringDecode b c rv) (stringAlloc b c) := by
  unfold stringDecode stringAlloc
  refine within_onOk (by omega) hc ?_
  rintro ⟨ob, c'⟩ hs
  rcases (stringBytes_iff hb).1 hs with ⟨rfl, h⟩ | ⟨l, t, rfl, -, h⟩
  · have := h.lt'
    exact within_free (by omega) hc (by simp; omega)
  · exact readString_pay (x := 0) rfl (by omega) (by omega) h.str_len

theorem unmarshalDecode_within {W : World} {t : Ty} {id s : Nat} {rv : Val} (hb : b.length < 2 ^ 63) (hd : depth ≤ maxDepth) (hm : W.elemSize t + s ≤ m)
    (hc : c < b.length) : Within b m s c (unmarshalDecode W id b c depth rv) (unmarshalPhpAlloc W t b c depth) := by
  rw [unmarshalDecode_eq]
  unfold unmarshalPhpAlloc
  refine within_onOk (by omega) hc fun e he => within_fixed hm hc fun c' h => ?_
  have hp := (skip_progress hb hd he).1
  rw [← show e = c' from ?_]
  · exact hp
  cases hs : sub b c e with
  | ok src =>
    rw [hs] at h
    simp only [onOk] at h
    split at h
    · cases h
    split at h
    · cases h
    split at h
    · cases h
    split at h
    · cases h; rfl
    · split at h
      · cases h; rfl
      all_goals cases h
  | _ => rw [hs] at h; simp [onOk] at h

theorem ptrDecode_within {dec : Nat → Nat → Val → DR} {al : Nat → Nat → Val → Nat} {se : Nat} {z rv : Val} (hm : 8 * k + 1 ≤ m)
    (hc : c < b.length) (hse : se ≤ k) (h : ∀ v, Within b m (5 * k) c (dec c depth v) (al c depth v)) :
    Within b m (4 * k) c (ptrDecode dec z b c depth rv) (ptrAlloc al se z b c depth rv) := by
  have hs : 4 * k ≤ m := by omega
  unfold ptrDecode ptrAlloc
  refine within_onOk hs hc fun x _ => within_ite (fun _ => within_free hs hc fun c' h => ?_) fun _ => ?_
  · cases hv : validateNull b c <;> rw [hv] at h <;> simp [onOk] at h
    omega
  have inner : ∀ v x, x ≤ k → Within b m (4 * k) c (match dec c depth v with | (v, r) => (.ptr v, r)) (x + al c depth v) := by
    intro v x hx
    have := h v
    generalize dec c depth v = r at this ⊢
    obtain ⟨v, r⟩ := r
    have : Within b m (5 * k) c (.ptr v, r) (al c depth _) := ⟨this.le, this.pay⟩
    exact this.less (by omega)
  cases rv with
  | ptrNil => exact inner z se hse
  | ptr v0 => exact (inner v0 0 (by omega)).less (by simp)
  | _ => exact within_panic hs hc

theorem prog_of {r : DR} (h : ∀ v c', r = (v, .ok c') → c < c') (c' : Nat) (hr : r.2 = .ok c') : c < c' := by
  obtain ⟨v, r⟩ := r
  exact h v c' (by rw [← hr])

theorem intDecode_prog {kd : IKind} {rv v : Val} {c' : Nat} (h : intDecode kd b c rv = (v, .ok c')) : c < c' := by
  rcases intDecode_iff.1 h with ⟨-, h⟩ | ⟨_, _, h, -⟩ <;> exact h.lt'

theorem anyKey_within {W : World} (hb : b.length < 2 ^ 63) (hm : 8 * k + 1 ≤ m) (hc : c < b.length)
    (hz : ∀ t', t' = .any ∨ Documented t' → W.elemSize t' ≤ k) : Within b m k c (anyKeyDecode b c) (anyKeyAlloc W b c) := by
  have hs : k ≤ m := by omega
  have h1 := hz .str (by simp [Documented])
  have h2 := hz (.int .i64) (by simp [Documented])
  unfold anyKeyDecode anyKeyAlloc
  refine within_onOk hs hc fun x _ => within_ite (fun _ => ?_) fun _ => within_ite (fun _ => ?_) fun _ => within_err hs hc
  · have := stringDecode_within (s := 3 * k) (rv := .str []) hb (by omega) hc (m := m)
    exact within_wrap (g := fun v => .iface .str v) (this.less (by omega))
  · exact within_wrap (g := fun v => .iface (.int .i64) v) (within_fixed (by omega) hc (prog_of fun v c' h => intDecode_prog h))

theorem anyDecode_within {W : World} {anyDec : Nat → Nat → DR} {anyAl : Nat → Nat → Nat} {rv : Val} (hb : b.length < 2 ^ 63)
    (hm : 8 * k + 1 ≤ m) (hc : c < b.length) (hz : ∀ t', t' = .any ∨ Documented t' → W.elemSize t' ≤ k)
    (hroom : ∀ kt, kt = .str ∨ kt = .any → ∀ c n c', readLength b c = .ok (n, c') → (W.elemSize kt + W.elemSize .any) * n.toNat ≤ k)
    (hvp : depth + 1 ≤ maxDepth → ∀ c v' c', anyDec c (depth + 1) = (v', .ok c') → c < c' ∧ c' ≤ b.length)
    (hvw : depth + 1 ≤ maxDepth → ∀ c, c < b.length → Within b m (4 * k) c (anyDec c (depth + 1)) (anyAl c (depth + 1))) :
    Within b m (5 * k) c (anyDecode W anyDec b c depth rv) (anyAlloc W anyDec anyAl b c depth) := by
  have hs : 5 * k ≤ m := by omega
  have z1 := hz .str (by simp [Documented])
  have z2 := hz (.int .i64) (by simp [Documented])
  have z3 := hz .f64 (by simp [Documented])
  have z4 := hz .bool (by simp [Documented])
  have z5 := hz (.map .str .any) (by simp [Documented])
  have z6 := hz (.map .any .any) (by simp [Documented])
  have z7 := hz .any (.inl rfl)
  unfold anyDecode anyAlloc
  refine within_onOk hs hc fun x _ => ?_
  refine within_ite (fun _ => ?_) fun _ => ?_
  · have := mapDecode_within (rv := .mapNil) (keyDec := fun c _ => stringDecode b c (.str [])) (keyAl := fun c _ => stringAlloc b c) hb hm hc
      (fun _ c v' c' h => by rcases (stringDecode_iff hb).1 h with ⟨-, h⟩ | ⟨_, _, h, -⟩ <;> exact ⟨h.lt', h.le⟩)
      hvp (fun _ c hc => stringDecode_within hb (by omega) hc) hvw z1 z7 (hroom .str (.inl rfl))
    exact within_wrap (g := fun v => .iface (.map .str .any) v) (this.less (by omega))
  refine within_ite (fun _ => ?_) fun _ => ?_
  · have := mapDecode_within (rv := .mapNil) (keyDec := fun c _ => anyKeyDecode b c) (keyAl := fun c _ => anyKeyAlloc W b c) hb hm hc
      (fun _ c v' c' h => by obtain ⟨d, h, -⟩ := anyKeyDecode_sound hb h; exact ⟨h.lt', h.le⟩)
      hvp (fun _ c hc => anyKey_within hb hm hc hz) hvw z7 z7 (hroom .any (.inr rfl))
    exact within_wrap (g := fun v => .iface (.map .any .any) v) (this.less (by omega))
  refine within_ite (fun _ => ?_) fun _ => ?_
  · refine within_wrap (g := fun v => .iface .f64 v) (within_fixed (by omega) hc (prog_of fun v c' h => ?_))
    rcases floatDecode64_iff.1 h with ⟨-, h⟩ | ⟨_, _, h, -⟩ <;> exact h.lt'
  refine within_ite (fun _ => ?_) fun _ => ?_
  · refine within_onOk hs hc ?_
    rintro ⟨t, e⟩ h
    obtain ⟨ds, -, -, he⟩ := readString_sound h
    exact readString_pay rfl (by omega) (by omega) (by omega)
  refine within_ite (fun _ => ?_) fun _ => ?_
  · exact within_wrap (g := fun v => .iface (.int .i64) v) (within_fixed (by omega) hc (prog_of fun v c' h => intDecode_prog h))
  refine within_ite (fun _ => ?_) fun _ => ?_
  · refine within_fixed (by omega) hc fun c' h => ?_
    cases hv : readBool b c <;> rw [hv] at h <;> simp [onOk] at h
    omega
  refine within_free hs hc fun c' h => ?_
  split at h
  · cases hv : validateNull b c <;> rw [hv] at h <;> simp [onOk] at h
    omega
  · cases h

theorem ptrKey_within {s a : Nat} {scratch : DR} (hs : s ≤ m) (hc : c < b.length) (hz : idx b c = .ok cN → a = 0)
    (hp : ∀ v c', scratch = (v, .ok c') → c' ≤ b.length) (h : Within b m s c scratch a) : Within b m s c (ptrKeyDecode scratch b c) a := by
  unfold ptrKeyDecode
  have hi : idx b c = .ok (b[c]) := by simp [idx, hc]
  rw [hi]
  simp only [onOk]
  split
  · rename_i hN
    rw [hz (by rw [hi, hN])]
    refine within_free hs hc fun c' h => ?_
    cases hv : validateNull b c <;> rw [hv] at h <;> simp at h
    omega
  · obtain ⟨v, r⟩ := scratch
    cases r with
    | ok c' =>
      have := hp v c' rfl
      refine ⟨by simp [stop]; omega, Nat.le_trans h.pay (Nat.mul_le_mul_left m ?_)⟩
      simp only [stop]
      omega
    | _ => exact ⟨h.le, h.pay⟩

theorem keyDecode_within {W : World} {kt : Ty} {anyDec : Nat → Nat → DR} {anyAl : Nat → Nat → Nat} (hb : b.length < 2 ^ 63)
    (hm : 8 * k + 1 ≤ m) (hc : c < b.length) (hd : depth ≤ maxDepth) (hks : W.elemSize kt ≤ k)
    (hp : ∀ v c', keyDecode W anyDec b kt c depth = (v, .ok c') → c < c')
    (hany : (W.resolve kt = .any ∨ ∃ p i, W.resolve kt = .ptr p ∧ (W.resolve p = .any ∨ W.resolve p = .iface i)) →
      ∀ rv, Within b m (5 * k) c (anyDecode W anyDec b c depth rv) (anyAlloc W anyDec anyAl b c depth))
    (hap : ∀ rv v c', anyDecode W anyDec b c depth rv = (v, .ok c') → c' ≤ b.length) :
    Within b m k c (keyDecode W anyDec b kt c depth) (keyAlloc W anyDec anyAl b kt c depth) := by
  have hs : k ≤ m := by omega
  have free := within_free (s := k) hs hc (prog_of hp)
  have strN : idx b c = .ok cN → stringAlloc b c = 0 := by
    intro h
    cases hv : stringBytes b c with
    | ok r =>
      obtain ⟨ob, c'⟩ := r
      rcases (stringBytes_iff hb).1 hv with ⟨rfl, -⟩ | ⟨l, t, -, -, hat⟩
      · simp [stringAlloc, hv, costOk]
      · have h0 := hat.1
        rw [drop_of_idx h] at h0
        simp [Doc.text] at h0
        exact absurd h0.1 (by decide)
    | _ => simp [stringAlloc, hv, costOk]
  have anyN : idx b c = .ok cN → anyAlloc W anyDec anyAl b c depth = 0 := by
    intro h
    unfold anyAlloc
    rw [h]
    rfl
  have hany := fun h rv => (hany h rv).less (s' := k) (a' := anyAlloc W anyDec anyAl b c depth) (by omega)
  unfold keyDecode at free ⊢
  unfold keyAlloc
  cases hu : W.unmOf kt with
  | some id =>
    exact unmarshalDecode_within hb hd (by omega) hc
  | none =>
    simp only [hu] at free hany ⊢
    generalize hr : W.resolve kt = r at free hany ⊢
    cases r with
    | str => exact stringDecode_within hb (by omega) hc
    | any => exact hany (.inl rfl) _
    | ptr e =>
      cases hue : W.unmOf e with
      | some _ => simp only [hue] at free ⊢; exact free
      | none =>
        simp only [hue] at free ⊢
        generalize hre : W.resolve e = r at free ⊢
        cases r with
        | str =>
          exact ptrKey_within hs hc strN (fun v c' h => by rcases (stringDecode_iff hb).1 h with ⟨-, h⟩ | ⟨_, _, h, -⟩ <;> exact h.le)
            (stringDecode_within hb (by omega) hc)
        | any => exact ptrKey_within hs hc anyN (hap _) (hany (.inr ⟨e, 0, rfl, .inl hre⟩) _)
        | iface i => exact ptrKey_within hs hc anyN (hap _) (hany (.inr ⟨e, i, rfl, .inr hre⟩) _)
        | _ => exact free
    | _ => exact free

theorem fieldDecode_within {W : World} {rec : Ty → Nat → Nat → Val → DR} {al : Ty → Nat → Nat → Val → Nat} {i : Nat} {f : Field} {rv : Val}
    (hb : b.length < 2 ^ 63) (hm : 8 * k + 1 ≤ m) (hc : c < b.length) (hp : ∀ e, W.unmOf f.ty = none → W.resolve f.ty = .ptr e → W.elemSize e ≤ k)
    (hrec : Within b m (4 * k) c (rec f.ty c depth rv) (al f.ty c depth rv))  :
    Within b m (4 * k) c (fieldDecode W rec b (mkSet W i f) c depth rv) (fieldAlloc W al b (mkSet W i f) c depth rv) := by
  have hs : 4 * k ≤ m := by omega
  have wp : ∀ t v, wrappable W t = true → ∀ c', (wrappedDecode W t b c v).2 = .ok c' → c < c' := by
    intro t v ht
    exact prog_of fun v c' h => by obtain ⟨d, h, -⟩ := (wrappedDecode_iff hb ht).1 h; exact h.lt'
  unfold fieldDecode fieldAlloc
  refine within_ite (fun hstr => ?_) fun _ => hrec
  have hu : W.unmOf f.ty = none := by
    simp only [mkSet, Bool.and_eq_true, stringTagOk] at hstr
    cases hu : W.unmOf f.ty with
    | none => rfl
    | some _ => rw [hu] at hstr; simp at hstr
  have hty : (mkSet W i f).ty = f.ty := rfl
  rw [hty]
  cases hr : W.resolve f.ty with
  | ptr e =>
    exact within_ite (fun hw => ptrDecode_within (al := fun _ _ _ => 0) hm hc (hp e hu hr) fun v => within_free (by omega) hc (wp e v hw))
      fun _ => within_err hs hc
  | _ =>
    dsimp only
    split
    · rename_i hw
      exact within_free hs hc (wp _ _ hw)
    · exact within_err hs hc

theorem decodeNonPtr_within {W : World} {T : Ty → Prop} (hB : Budget W b T k) (hb : b.length < 2 ^ 63) (hm : 8 * k + 1 ≤ m)
    {rec : Ty → Nat → Nat → Val → DR} {al : Ty → Nat → Nat → Val → Nat}
    (hsound : ∀ t c depth rv v c', depth ≤ maxDepth → rec t c depth rv = (v, .ok c') → ∃ d, At b c d c' ∧ DecDoc W t (maxDepth - depth) d rv v)
    (hrec : ∀ t c depth rv, T t → depth ≤ maxDepth → c < b.length → Within b m (4 * k) c (rec t c depth rv) (al t c depth rv))
    {t : Ty} {rv : Val} (ht : T t) (hd : depth ≤ maxDepth) (hc : c < b.length) :
    Within b m (5 * k) c (decodeNonPtr W rec b t c depth rv) (allocNonPtr W rec al b t c depth rv) := by
  have hs : 5 * k ≤ m := by omega
  have free := within_free (s := 5 * k) hs hc (prog_of fun v c' h =>
    let ⟨_, h, _⟩ := decodeNonPtr_sound (t := t) (rv := rv) hb hsound hd h; h.lt')
  have hprog : ∀ t c depth rv v c', depth ≤ maxDepth → rec t c depth rv = (v, .ok c') → c < c' ∧ c' ≤ b.length := by
    intro t c depth rv v c' h1 h2
    obtain ⟨_, h, _⟩ := hsound t c depth rv v c' h1 h2
    exact ⟨h.lt', h.le⟩
  have hE : ∀ t, T t → ∀ d, d ≤ maxDepth → Elem b m (4 * k) (fun c v => rec t c d v) fun c v => al t c d v :=
    fun t ht d hd => ⟨fun c v v' c' h => hprog t c d v v' c' hd h, fun c v hc => hrec t c d v ht hd hc⟩
  have hany : T .any → (∀ t', t' = .any ∨ Documented t' → W.elemSize t' ≤ k) → ∀ c d rv, c < b.length →
      Within b m (5 * k) c (anyDecode W (fun c d => rec .any c d .ifaceNil) b c d rv)
        (anyAlloc W (fun c d => rec .any c d .ifaceNil) (fun c d => al .any c d .ifaceNil) b c d) := by
    intro hT hz c d rv hc
    exact anyDecode_within hb hm hc hz (hB.anyRoom hT) (fun h1 c v c' h => hprog _ _ _ _ _ _ h1 h) fun h1 c hc => hrec _ _ _ _ hT h1 hc
  unfold decodeNonPtr at free ⊢
  unfold allocNonPtr
  cases hu : W.unmOf t with
  | some id => exact unmarshalDecode_within hb hd (by have := hB.unm t id ht hu; omega) hc
  | none =>
    simp only [hu] at free ⊢
    generalize hr : W.resolve t = r at free ⊢
    cases r with
    | str => exact stringDecode_within hb (by omega) hc
    | slice e =>
      obtain ⟨hTe, hl, hi⟩ := hB.slice t e ht hu hr
      refine within_ite (fun hby => ?_) fun hby => ?_
      · rw [show esize W e = 1 by simp [esize, hby]] at hl hi
        exact bytesDecode_within hb hm hc (hE e hTe _) hl hi
      · rw [show esize W e = W.elemSize e by simp [esize, hby]] at hl hi
        exact sliceDecode_within hm hc (hE e hTe _) hl hi
    | array n e => exact arrayDecode_within hb hm hc (hE e (hB.array t n e ht hu hr) _)
    | map kt vt =>
      obtain ⟨hTv, hk, hv, hl⟩ := hB.map t kt vt ht hu hr
      have hkp : depth + 1 ≤ maxDepth → ∀ c v' c', keyDecode W (fun c d => rec .any c d .ifaceNil) b kt c (depth + 1) = (v', .ok c') →
          c < c' ∧ c' ≤ b.length := by
        intro hd' c v' c' h
        obtain ⟨d, hat, -⟩ := keyDecode_sound hb hd' (fun h1 c v c' h => hsound .any c _ _ v c' h1 h) h
        exact ⟨hat.lt', hat.le⟩
      have := mapDecode_within (rv := rv) (keyAl := keyAlloc W (fun c d => rec .any c d .ifaceNil) (fun c d => al .any c d .ifaceNil) b kt)
        (valDec := fun c d => rec vt c d (W.zero vt)) (valAl := fun c d => al vt c d (W.zero vt)) hb hm hc hkp (fun h1 c v c' h => hprog vt _ _ _ v c' h1 h) ?_
        (fun h1 c hc => hrec _ _ _ _ hTv h1 hc) hk hv hl
      · exact this.less (by simp only; omega)
      intro hd' c hc
      refine keyDecode_within hb hm hc hd' hk (fun v c' h => (hkp hd' c v c' h).1) (fun ha rv => ?_) ?_
      · obtain ⟨h1, h2⟩ := hB.mapAny t kt vt ht hu hr ha
        exact hany h1 h2 c _ rv hc
      · intro rv v c' h
        obtain ⟨d, hat, -⟩ := anyDecode_sound (t := .any) hb ⟨rfl, rfl⟩ (fun h1 c v c' h => hsound .any c _ _ v c' h1 h) h
        exact hat.le
    | struct id =>
      refine structDecode_within hb hm hc fun hd' key i f hff => ⟨?_, ?_⟩
      · intro c v v' c' h
        obtain ⟨d, hat, -⟩ := fieldDecode_sound hb (fun t c rv v c' h => hsound t c _ rv v c' hd' h) hff h
        exact ⟨hat.lt', hat.le⟩
      · intro c v hc
        have hT := hB.struct t id f ht hu hr (List.mem_of_getElem? hff.1)
        exact fieldDecode_within hb hm hc (fun e h1 h2 => (hB.ptr f.ty e hT h1 h2).2) (hrec f.ty c _ v hT hd' hc)
    | any =>
      obtain ⟨h1, h2⟩ := hB.any t ht hu hr
      exact hany h1 h2 c _ rv hc
    | _ => exact free

/-- What decoding asks for is bounded by the number of bytes read. -/
theorem decodeF_within {W : World} {T : Ty → Prop} (hB : Budget W b T k) (hb : b.length < 2 ^ 63) (hm : 8 * k + 1 ≤ m) :
    ∀ {f : Nat} {t : Ty} {c depth : Nat} {rv : Val}, T t → depth ≤ maxDepth → c < b.length →
      Within b m (4 * k) c (decodeF W b f t c depth rv) (allocF W b f t c depth rv) := by
  intro f
  induction f with
  | zero => intro t c depth rv _ _ hc; exact within_free (by omega) hc (by simp [decodeF])
  | succ f ih =>
    intro t c depth rv ht hd hc
    have np : ∀ t rv, T t → Within b m (5 * k) c (decodeNonPtr W (decodeF W b f) b t c depth rv)
        (allocNonPtr W (decodeF W b f) (allocF W b f) b t c depth rv) := fun t rv ht =>
      decodeNonPtr_within hB hb hm (fun t c depth rv v c' h1 h => decodeF_sound hb h1 h) (fun t c depth rv ht hd hc => ih ht hd hc) ht hd hc
    have other := (np t rv ht).less (s' := 4 * k) (a' := allocNonPtr W (decodeF W b f) (allocF W b f) b t c depth rv) (by omega)
    unfold decodeF allocF
    cases hu : W.unmOf t with
    | some id => exact other
    | none =>
      cases hr : W.resolve t with
      | ptr e =>
        obtain ⟨hTe, hse⟩ := hB.ptr t e ht hu hr
        have hs : 4 * k ≤ m := by omega
        exact within_ite (fun _ => within_err hs hc) fun _ => ptrDecode_within hm hc hse fun v => np e v hTe
      | _ => exact other

end Decoders

/-! ### Budgets -/

theorem len_le {b : Bytes} {X c c' : Nat} {n : Int} (hX : LengthsUpTo X b) (h : readLength b c = .ok (n, c')) : n.toNat ≤ X := by
  obtain ⟨ds, m, ⟨hd, hv, -⟩, rfl, h1, -⟩ := readLength_sound h
  have := hX ds hd (infix_of_drop (c := c) (p := []) (r := b.drop c') (by rw [h1]; simp))
  omega

theorem int_le {b : Bytes} {X c c' i : Nat} (hX : IndexesUpTo X b) (h : readInt b c = .ok (i, c')) : i ≤ X := by
  obtain ⟨t, ht, -, h1, -⟩ := readInt_sound h
  exact hX t i ht (infix_of_drop (c := c) (p := []) (r := b.drop c') (by rw [h1]; simp))

theorem esize_le {W : World} {e : Ty} {S : Nat} (h1 : 1 ≤ S) (h : W.elemSize e ≤ S) : esize W e ≤ S := by
  unfold esize
  split <;> omega

theorem budget_counted {W : World} {t : Ty} {b : Bytes} {S X : Nat} (h1 : 1 ≤ S)
    (hS : ∀ t', Reach W t t' ∨ t' = .any ∨ Documented t' → W.elemSize t' ≤ S) (hL : LengthsUpTo X b) (hI : HasSlice W t → IndexesUpTo X b) :
    Budget W b (fun t' => Reach W t t' ∨ t' = .any) (2 * S * (X + 1)) := by
  have up : ∀ {a n : Nat}, a ≤ 2 * S → n ≤ X + 1 → a * n ≤ 2 * S * (X + 1) := fun ha hn => Nat.mul_le_mul ha hn
  have one : ∀ {a : Nat}, a ≤ S → a ≤ 2 * S * (X + 1) := fun {a} ha => by
    have := up (a := a) (n := 1) (by omega) (by omega)
    omega
  have docs : ∀ t', t' = .any ∨ Documented t' → W.elemSize t' ≤ 2 * S * (X + 1) := fun t' h => one (hS t' (.inr h))
  constructor
  · rintro t' e (h | rfl) hu hr
    · have := Reach.step h (.ptr ⟨hu, hr⟩)
      exact ⟨.inl this, one (hS e (.inl this))⟩
    · simp [World.resolve] at hr
  · rintro t' e (h | rfl) hu hr
    · have hR := Reach.step h (.slice ⟨hu, hr⟩)
      have hs := esize_le h1 (hS e (.inl hR))
      refine ⟨.inl hR, fun c n c' hn => ?_, fun c i c' hi => ?_⟩
      · have := len_le hL hn
        exact up (by omega) (by omega)
      · have := int_le (hI ⟨t', e, h, hu, hr⟩) hi
        exact up (by omega) (by omega)
    · simp [World.resolve] at hr
  · rintro t' n e (h | rfl) hu hr
    · exact .inl (.step h (.array ⟨hu, hr⟩))
    · simp [World.resolve] at hr
  · rintro t' kt vt (h | rfl) hu hr
    · have hK := Reach.step h (.mapKey ⟨hu, hr⟩)
      have hV := Reach.step h (.mapVal ⟨hu, hr⟩)
      have h1 := hS kt (.inl hK)
      have h2 := hS vt (.inl hV)
      refine ⟨.inl hV, one h1, one h2, fun c n c' hn => ?_⟩
      have := len_le hL hn
      exact up (by omega) (by omega)
    · simp [World.resolve] at hr
  · intro _ _ _ _ _ _ _
    exact ⟨.inr rfl, docs⟩
  · rintro t' id f (h | rfl) hu hr hf
    · exact .inl (.step h (.field ⟨hu, hr⟩ hf))
    · simp [World.resolve] at hr
  · intro _ _ _ _
    exact ⟨.inr rfl, docs⟩
  · intro _ kt hk c n c' hn
    have h1 : W.elemSize kt ≤ S := by
      rcases hk with rfl | rfl
      · exact hS _ (.inr (.inr (by simp [Documented])))
      · exact hS _ (.inr (.inl rfl))
    have h2 := hS .any (.inr (.inl rfl))
    have := len_le hL hn
    exact up (by omega) (by omega)
  · rintro t' id (h | rfl) hu
    · exact one (hS t' (.inl h))
    · simp [World.unmOf] at hu

theorem budget_uncounted {W : World} {t : Ty} {b : Bytes} {S : Nat} (hF : Uncounted W t)
    (hp : ∀ t' e, Reach W t t' → Plain W t' (.ptr e) → W.elemSize e ≤ S) (hu : ∀ t', Reach W t t' → W.unmOf t' ≠ none → W.elemSize t' ≤ S) :
    Budget W b (Reach W t) S where
  ptr t' e h hu hr := ⟨.step h (.ptr ⟨hu, hr⟩), hp t' e h ⟨hu, hr⟩⟩
  slice t' e h hu hr := absurd ⟨hu, hr⟩ ((hF t' h).1 e)
  array t' n e h hu hr := .step h (.array ⟨hu, hr⟩)
  map t' kt vt h hu hr := absurd ⟨hu, hr⟩ ((hF t' h).2.1 kt vt)
  mapAny t' kt vt h hu hr _ := absurd ⟨hu, hr⟩ ((hF t' h).2.1 kt vt)
  struct t' id f h hu hr hf := .step h (.field ⟨hu, hr⟩ hf)
  any t' h hu hr := absurd ⟨hu, hr⟩ (hF t' h).2.2
  anyRoom h := absurd ⟨rfl, rfl⟩ (hF .any h).2.2
  unm t' id h h' := hu t' h (by simp [h'])

theorem unmarshalAlloc_within {W : World} {t : Ty} {T : Ty → Prop} {b : Bytes} {k fuel : Nat} {v : Val} (hb : b.length < 2 ^ 63)
    (hB : Budget W b T k) (ht : T t) : unmarshalAlloc W fuel b t v ≤ (8 * k + 2) * b.length := by
  unfold unmarshalAlloc
  split
  · omega
  · rename_i h0
    have h := decodeF_within hB hb (Nat.le_refl (8 * k + 1)) (f := b.length + 1) (rv := v) ht (show 0 ≤ maxDepth by decide) (show 0 < b.length by omega)
    have hst : stop b (decodeF W b (b.length + 1) t 0 0 v).2 ≤ b.length := by
      rcases hd : decodeF W b (b.length + 1) t 0 0 v with ⟨v', r⟩
      cases r with
      | ok c' =>
        obtain ⟨_, h, -⟩ := decodeF_sound hb (show 0 ≤ maxDepth by decide) hd
        exact h.le
      | _ => simp [stop]
    have h1 := h.pay
    have h2 := Nat.mul_le_mul_left (8 * k + 1) hst
    have h3 : (8 * k + 2) * b.length = (8 * k + 1) * b.length + b.length := by
      rw [show 8 * k + 2 = (8 * k + 1) + 1 by omega, Nat.add_mul, Nat.one_mul]
    cases compileD W fuel [] t <;> simp only [costOk, Nat.sub_zero] at h1 ⊢ <;> omega

end Verif

import Verif.Spec.Lists
import Verif.Proofs.Containers
import Verif.Proofs.Frame
import Verif.Proofs.Overlay
/-
Lists decoded into slices, arrays and maps.
-/
namespace Verif
open Spec

/-- The entries, each decoded on its own. -/
inductive Entries (W : World) (e : Ty) (n : Nat) : List (Doc × Doc) → List (Nat × Val) → Prop
  | nil : Entries W e n [] []
  | cons {txt i d x es r} : IntText txt (i : Nat) → DecDoc W e n d (W.zero e) x → Entries W e n es r → Entries W e n ((.int txt, d) :: es) ((i, x) :: r)

/-- Storing entries in order. -/
def fill (z : Val) (vs : List Val) : List (Nat × Val) → List Val
  | [] => vs
  | (i, x) :: r => fill z ((padTo z i vs).set i x) r

variable {W : World} {e : Ty} {n : Nat} {es : List (Doc × Doc)} {is : List Nat} {r : List (Nat × Val)} {z : Val} {vs vs' : List Val}

theorem entries_keys (h : Entries W e n es r) (hi : Indices es is) : r.map Prod.fst = is := by
  induction h generalizing is with
  | nil => cases hi; rfl
  | cons h1 _ _ ih =>
    cases hi with
    | cons g1 g2 =>
      have := intText_unique h1 g1
      simp only [List.map_cons, ih g2, List.cons.injEq, and_true]
      omega

theorem fill_other (r : List (Nat × Val)) : ∀ {vs : List Val} {i : Nat}, (∀ p ∈ r, p.1 ≠ i) → getZ z (fill z vs r) i = getZ z vs i := by
  induction r with
  | nil => intros; rfl
  | cons p r ih =>
    intro vs i h
    obtain ⟨j, x⟩ := p
    rw [fill, ih fun p hp => h p (List.mem_cons_of_mem _ hp), getZ_set, if_neg (h (j, x) List.mem_cons_self)]

theorem fill_length (r : List (Nat × Val)) : ∀ {vs : List Val}, vs.length ≤ (fill z vs r).length ∧ ∀ p ∈ r, p.1 < (fill z vs r).length := by
  induction r with
  | nil => intro vs; simp [fill]
  | cons p r ih =>
    intro vs
    obtain ⟨j, x⟩ := p
    obtain ⟨h1, h2⟩ := ih (vs := (padTo z j vs).set j x)
    rw [List.length_set, padTo_length] at h1
    refine ⟨by rw [fill]; omega, fun p hp => ?_⟩
    rcases List.mem_cons.1 hp with rfl | hp
    · rw [fill]; show j < _; omega
    · exact h2 p hp

theorem fill_at (r : List (Nat × Val)) : ∀ {vs : List Val}, (r.map Prod.fst).Nodup → ∀ {i : Nat} {x : Val}, (i, x) ∈ r → (fill z vs r)[i]? = some x := by
  induction r with
  | nil => intro vs _ i x h; cases h
  | cons p r ih =>
    intro vs hn i x h
    obtain ⟨j, y⟩ := p
    rw [List.map_cons, List.nodup_cons] at hn
    rcases List.mem_cons.1 h with h | h
    · cases h
      have h1 := fill_other (z := z) r (vs := (padTo z i vs).set i x) (i := i) fun p hp he => hn.1 (List.mem_map.2 ⟨p, hp, he⟩)
      have h2 := (fill_length (z := z) ((i, x) :: r) (vs := vs)).2 (i, x) List.mem_cons_self
      rw [fill] at h2 ⊢
      rw [getZ_set, if_pos rfl, getZ, List.getElem?_eq_getElem h2] at h1
      rw [List.getElem?_eq_getElem h2]
      exact congrArg some h1
    · exact ih hn.2 h

/-- What is at the indices of the list. -/
theorem fill_iff (hn : (r.map Prod.fst).Nodup) {i : Nat} (hi : i ∈ r.map Prod.fst) {x : Val} : (fill z vs r)[i]? = some x ↔ (i, x) ∈ r := by
  constructor
  · intro h
    obtain ⟨⟨j, y⟩, hp, rfl⟩ := List.mem_map.1 hi
    rw [fill_at r hn hp] at h
    cases h
    exact hp
  · exact fill_at r hn

/-- The other elements. -/
theorem fill_rest {i : Nat} (hi : i ∉ r.map Prod.fst) (hz : getZ z vs i = z) {x : Val} (h : (fill z vs r)[i]? = some x) : x = z := by
  have := fill_other (z := z) r (vs := vs) (i := i) fun p hp he => hi (he ▸ List.mem_map_of_mem hp)
  rw [hz, getZ, h] at this
  exact this

/-! ### Slices -/

theorem entries_of_elems (h : DecElems W e n es vs vs') (hi : Indices es is) (hn : is.Nodup) (hz : ∀ i ∈ is, getZ (W.zero e) vs i = W.zero e) :
    ∃ r, Entries W e n es r ∧ vs' = fill (W.zero e) vs r := by
  induction es generalizing vs is with
  | nil => cases h; exact ⟨[], .nil, rfl⟩
  | cons p es ih =>
    cases h with
    | @cons _ _ txt i d _ _ v0 v _ h1 h2 h3 h4 h5 h6 =>
      cases hi with
      | @cons _ j _ _ is g1 g2 =>
        have hij : i = j := by have := intText_unique h1 g1; omega
        subst hij
        rw [List.nodup_cons] at hn
        have hv : v0 = W.zero e := by
          have := hz i List.mem_cons_self
          rw [← getZ_padTo (i := i), getZ, h4] at this
          exact this
        subst hv
        obtain ⟨r, a1, a2⟩ := ih h6 g2 hn.2 fun k hk => by
          rw [getZ_set, if_neg (fun he : i = k => hn.1 (he ▸ hk))]
          exact hz k (List.mem_cons_of_mem _ hk)
        exact ⟨_, .cons h1 h5 a1, a2⟩

theorem elems_of_entries (h : Entries W e n es r) (hn : (r.map Prod.fst).Nodup) (hr : ∀ p ∈ r, p.1 + 1 < 2 ^ 63 ∧ esize W e * (p.1 + 1) ≤ 2 ^ 48)
    (hz : ∀ p ∈ r, getZ (W.zero e) vs p.1 = W.zero e) : DecElems W e n es vs (fill (W.zero e) vs r) := by
  induction h generalizing vs with
  | nil => exact .nil
  | @cons txt i d x es r h1 h2 h3 ih =>
    have hi := hr _ List.mem_cons_self
    rw [List.map_cons, List.nodup_cons] at hn
    refine .cons (v0 := W.zero e) h1 (by have := hi.1; dsimp only at this; omega) (fun _ => hi) ?_ h2 (ih hn.2 (fun p hp => hr p (List.mem_cons_of_mem _ hp)) fun p hp => ?_)
    · have := hz _ List.mem_cons_self
      have hl : i < (padTo (W.zero e) i vs).length := by rw [padTo_length]; omega
      rw [← getZ_padTo (i := i), getZ] at this
      rw [List.getElem?_eq_getElem hl] at this ⊢
      exact congrArg some this
    · rw [getZ_set, if_neg (fun he : i = p.1 => hn.1 (List.mem_map.2 ⟨p, hp, he.symm⟩))]
      exact hz p (List.mem_cons_of_mem _ hp)

/-! ### Arrays -/

theorem padTo_inside {i : Nat} (h : i < vs.length) : padTo z i vs = vs := by
  simp [padTo, show i + 1 - vs.length = 0 by omega]

theorem entries_of_arr (h : DecArr W e n es vs vs') (hi : Indices es is) (hn : is.Nodup) (hl : ∀ i ∈ is, i < vs.length)
    (hz : ∀ i ∈ is, getZ (W.zero e) vs i = W.zero e) : ∃ r, Entries W e n es r ∧ vs' = fill (W.zero e) vs r := by
  induction es generalizing vs is with
  | nil => cases h; exact ⟨[], .nil, rfl⟩
  | cons p es ih =>
    cases hi with
    | @cons txt' j d' _ is g1 g2 =>
    rw [List.nodup_cons] at hn
    have hj := hl j List.mem_cons_self
    cases h with
    | @store _ _ txt i d _ _ v0 v _ h1 h2 h3 h4 h5 =>
      have hij : i = j := by have := intText_unique h1 g1; omega
      subst hij
      have hv : v0 = W.zero e := by
        have := hz i List.mem_cons_self
        rw [getZ, h3] at this
        exact this
      subst hv
      obtain ⟨r, a1, a2⟩ := ih h5 g2 hn.2 (fun k hk => by rw [List.length_set]; exact hl k (List.mem_cons_of_mem _ hk)) fun k hk => by
        rw [← padTo_inside (z := W.zero e) hj, getZ_set, if_neg (fun he : i = k => hn.1 (he ▸ hk))]
        exact hz k (List.mem_cons_of_mem _ hk)
      exact ⟨_, .cons h1 h4 a1, by rw [fill, padTo_inside hj]; exact a2⟩
    | skip h1 h2 h3 =>
      have := intText_unique h1 g1
      omega

theorem arr_of_entries (h : Entries W e n es r) (hn : (r.map Prod.fst).Nodup) (hr : ∀ p ∈ r, p.1 + 1 < 2 ^ 63) (hl : ∀ p ∈ r, p.1 < vs.length)
    (hz : ∀ p ∈ r, getZ (W.zero e) vs p.1 = W.zero e) : DecArr W e n es vs (fill (W.zero e) vs r) := by
  induction h generalizing vs with
  | nil => exact .nil
  | @cons txt i d x es r h1 h2 h3 ih =>
    have hi := hr _ List.mem_cons_self
    have hj : i < vs.length := hl _ List.mem_cons_self
    rw [List.map_cons, List.nodup_cons] at hn
    rw [fill, padTo_inside hj]
    refine .store (v0 := W.zero e) h1 (by dsimp only at hi; omega) ?_ h2 (ih hn.2 (fun p hp => hr p (List.mem_cons_of_mem _ hp))
      (fun p hp => by rw [List.length_set]; exact hl p (List.mem_cons_of_mem _ hp)) fun p hp => ?_)
    · have := hz _ List.mem_cons_self
      rw [getZ] at this
      rw [List.getElem?_eq_getElem hj] at this ⊢
      exact congrArg some this
    · rw [← padTo_inside (z := W.zero e) hj, getZ_set, if_neg (fun he : i = p.1 => hn.1 (List.mem_map.2 ⟨p, hp, he.symm⟩))]
      exact hz p (List.mem_cons_of_mem _ hp)

/-! ### Maps -/

/-- How indices are written as keys. -/
structure KeyForm (f : Nat → Val) : Prop where
  eq : ∀ i v, v.goEq (f i) = true → v = f i
  refl : ∀ i, (f i).goEq (f i) = true
  inj : ∀ i j, f i = f j → i = j

/-- Integers. -/
def intKey (i : Nat) : Val := .int i
/-- Integers in interfaces. -/
def anyKeyOf (i : Nat) : Val := .iface (.int .i64) (.int i)

theorem intKey_form : KeyForm intKey where
  eq i v h := by cases v <;> simp [Val.goEq, intKey] at h ⊢; exact h
  refl i := by simp [Val.goEq, intKey]
  inj i j h := by simp only [intKey, Val.int.injEq] at h; omega

theorem anyKey_form : KeyForm anyKeyOf where
  eq i v h := by
    cases v <;> simp [Val.goEq, anyKeyOf] at h ⊢
    obtain ⟨h1, h2⟩ := h
    refine ⟨h1, ?_⟩
    exact intKey_form.eq i _ h2
  refl i := by simp [Val.goEq, anyKeyOf]
  inj i j h := by simp only [anyKeyOf, Val.iface.injEq, Val.int.injEq] at h; omega

variable {f : Nat → Val}

/-- The entries as entries of a map. -/
def asMap (f : Nat → Val) (r : List (Nat × Val)) : List (Val × Val) := r.map fun p => (f p.1, p.2)

theorem has_key (hf : KeyForm f) {i : Nat} {m : List (Val × Val)} : Has (f i) m ↔ ∃ x, (f i, x) ∈ m := by
  unfold Has
  constructor
  · rintro ⟨⟨k, x⟩, hp, hk⟩
    have := hf.eq i k hk
    subst this
    exact ⟨x, hp⟩
  · rintro ⟨x, hp⟩
    exact ⟨_, hp, hf.refl i⟩

theorem mem_asMap (hf : KeyForm f) {i : Nat} {x : Val} : (f i, x) ∈ asMap f r ↔ (i, x) ∈ r := by
  simp only [asMap, List.mem_map, Prod.mk.injEq]
  constructor
  · rintro ⟨⟨j, y⟩, hp, h1, rfl⟩
    exact hf.inj _ _ h1 ▸ hp
  · intro h
    exact ⟨_, h, rfl, rfl⟩

/-- A way to decode keys: every index is stored in its form. -/
def KeysAs (W : World) (km : KeyMode) (n : Nat) (f : Nat → Val) : Prop :=
  ∀ e txt i d es m m', IntText txt (i : Nat) → DecPairs W km e n ((.int txt, d) :: es) m m' →
    ∃ x, DecDoc W e n d (W.zero e) x ∧ DecPairs W km e n es (mapInsert (f i) x m) m'

/-- And the other way round. -/
def KeysFrom (W : World) (km : KeyMode) (n : Nat) (f : Nat → Val) (ok : Nat → Prop) : Prop :=
  ∀ e txt i d es m m' x, IntText txt (i : Nat) → ok i → DecDoc W e n d (W.zero e) x → DecPairs W km e n es (mapInsert (f i) x m) m' →
    DecPairs W km e n ((.int txt, d) :: es) m m'

theorem keysAs_int {k : Ty} {kd : IKind} (hk : Plain W k (.int kd)) : KeysAs W (.ofType k) n intKey := by
  intro e txt i d es m m' hi h
  cases h with
  | @key _ _ _ _ _ _ kv x _ _ h1 h2 h3 h4 h5 =>
    rw [decDoc_int hk] at h2
    obtain ⟨h2, -⟩ | ⟨txt', j, h6, h7, h8, rfl⟩ := h2
    · cases h2
    cases h6
    have hij := intText_unique h7 hi
    subst hij
    exact ⟨x, h3, h5⟩

theorem keysFrom_int {k : Ty} {kd : IKind} (hk : Plain W k (.int kd)) : KeysFrom W (.ofType k) n intKey fun i => InRange kd i :=
  fun _ txt i _ _ _ _ _ hi ho hx h =>
    .key (kv := .int i) (.inr (.inr (.inr (.inl ⟨kd, hk.2⟩)))) ((decDoc_int hk).2 (.inr ⟨txt, i, rfl, hi, ho, rfl⟩)) hx .int h

theorem keysAs_any {k : Ty} (hk : Plain W k .any) : KeysAs W (.ofType k) n anyKeyOf := by
  obtain ⟨hu, hr⟩ := hk
  intro e txt i d es m m' hi h
  cases h with
  | @key _ _ _ _ _ _ kv x _ _ h1 h2 h3 h4 h5 =>
    generalize W.zero k = z0 at h2
    cases h2
    case anyInt =>
      have hij := intText_unique (by assumption) hi
      subst hij
      exact ⟨x, h3, h5⟩
    all_goals simp_all [Plain]

theorem natInRange {i : Nat} (h : i < 2 ^ 63) : InRange .i64 i := by
  simp only [InRange, intMax]
  omega

theorem keysFrom_any {k : Ty} (hk : Plain W k .any) : KeysFrom W (.ofType k) n anyKeyOf fun i => i < 2 ^ 63 :=
  fun _ _ i _ _ _ _ _ hi ho hx h =>
    .key (kv := anyKeyOf i) (.inr (.inr (.inr (.inr (.inr (.inl hk.2)))))) (.anyInt hk hi (natInRange ho)) hx (.iface .int) h

theorem keysAs_anyKey : KeysAs W .anyKey n anyKeyOf := by
  intro e txt i d es m m' hi h
  cases h with
  | anyInt h1 h2 h3 h4 =>
    have hij := intText_unique h1 hi
    subst hij
    exact ⟨_, h3, h4⟩

theorem keysFrom_anyKey : KeysFrom W .anyKey n anyKeyOf fun i => i < 2 ^ 63 :=
  fun _ _ _ _ _ _ _ _ hi ho hx h => .anyInt hi (natInRange ho) hx h

theorem entries_of_pairs {km : KeyMode} (hf : KeyForm f) (hk : KeysAs W km n f) {m m' : List (Val × Val)} (h : DecPairs W km e n es m m') (hi : Indices es is)
    (hn : is.Nodup) (hm : ∀ i ∈ is, ¬ Has (f i) m) : ∃ r, Entries W e n es r ∧ m' = m ++ asMap f r := by
  induction es generalizing m is with
  | nil => cases h; exact ⟨[], .nil, by simp [asMap]⟩
  | cons p es ih =>
    cases hi with
    | @cons txt i d _ is g1 g2 =>
    rw [List.nodup_cons] at hn
    obtain ⟨x, h3, h5⟩ := hk _ _ _ _ _ _ _ g1 h
    have ha := hm i List.mem_cons_self
    rw [put_absent ha] at h5
    obtain ⟨r, a1, a2⟩ := ih h5 g2 hn.2 fun q hq hh => by
      rw [has_key hf] at hh
      obtain ⟨y, hy⟩ := hh
      rcases List.mem_append.1 hy with hy | hy
      · exact hm q (List.mem_cons_of_mem _ hq) ((has_key hf).2 ⟨y, hy⟩)
      · simp only [List.mem_singleton, Prod.mk.injEq] at hy
        exact hn.1 (hf.inj _ _ hy.1 ▸ hq)
    exact ⟨_, .cons g1 h3 a1, by rw [a2]; simp [asMap]⟩

theorem pairs_of_entries {km : KeyMode} {ok : Nat → Prop} (hf : KeyForm f) (hk : KeysFrom W km n f ok) (h : Entries W e n es r) (hn : (r.map Prod.fst).Nodup)
    (hr : ∀ p ∈ r, ok p.1) : ∀ {m : List (Val × Val)}, (∀ p ∈ r, ¬ Has (f p.1) m) → DecPairs W km e n es m (m ++ asMap f r) := by
  induction h with
  | nil => intro m _; simp only [asMap, List.map_nil, List.append_nil]; exact .nil
  | @cons txt i d x es r h1 h2 h3 ih =>
    intro m hm
    rw [List.map_cons, List.nodup_cons] at hn
    have ha : ¬ Has (f i) m := hm _ List.mem_cons_self
    refine hk _ _ _ _ _ _ _ x h1 (hr _ List.mem_cons_self) h2 ?_
    rw [put_absent ha, show m ++ asMap f ((i, x) :: r) = (m ++ [(f i, x)]) ++ asMap f r by simp [asMap]]
    refine ih hn.2 (fun p hp => hr p (List.mem_cons_of_mem _ hp)) fun p hp hh => ?_
    rw [has_key hf] at hh
    obtain ⟨y, hy⟩ := hh
    rcases List.mem_append.1 hy with hy | hy
    · exact hm p (List.mem_cons_of_mem _ hp) ((has_key hf).2 ⟨y, hy⟩)
    · simp only [List.mem_singleton, Prod.mk.injEq] at hy
      exact hn.1 (List.mem_map.2 ⟨p, hp, hf.inj _ _ hy.1⟩)

/-! ### All of them -/

/-- What a variable that holds the list has in it: the entries, and zeros. -/
structure Carries (W : World) (e : Ty) (r : List (Nat × Val)) (v : Val) : Prop where
  here : ∀ i ∈ r.map Prod.fst, ∀ x, HasAt v i x ↔ (i, x) ∈ r
  rest : ∀ i, i ∉ r.map Prod.fst → ∀ x, HasAt v i x → x = W.zero e

theorem carries_fill {v : Val} (hn : (r.map Prod.fst).Nodup) (hz : ∀ i, getZ (W.zero e) vs i = W.zero e)
    (hv : ∀ i x, HasAt v i x ↔ (fill (W.zero e) vs r)[i]? = some x) : Carries W e r v where
  here i hi x := by rw [hv]; exact fill_iff hn hi
  rest i hi x h := fill_rest hi (hz i) ((hv i x).1 h)

theorem hasAt_slice {i : Nat} {x : Val} : HasAt (.slice vs) i x ↔ vs[i]? = some x := ⟨fun h => by cases h; assumption, .slice⟩
theorem hasAt_arr {i : Nat} {x : Val} : HasAt (.arr vs) i x ↔ vs[i]? = some x := ⟨fun h => by cases h; assumption, .array⟩
theorem hasAt_map {m : List (Val × Val)} {i : Nat} {x : Val} : HasAt (.map m) i x ↔ (.int i, x) ∈ m ∨ (.iface (.int .i64) (.int i), x) ∈ m :=
  ⟨fun h => by cases h <;> simp [*], fun h => h.elim .map .anyKeys⟩
theorem hasAt_any {t : Ty} {v : Val} {i : Nat} {x : Val} : HasAt (.iface t v) i x ↔ HasAt v i x := ⟨fun h => by cases h; assumption, .any⟩

theorem hasAt_ints {i : Nat} {x : Val} : HasAt (.map (asMap intKey r)) i x ↔ (i, x) ∈ r := by
  rw [hasAt_map, ← mem_asMap intKey_form]
  exact or_iff_left fun h => by simp [asMap, intKey] at h

theorem hasAt_anys {i : Nat} {x : Val} : HasAt (.map (asMap anyKeyOf r)) i x ↔ (i, x) ∈ r := by
  rw [hasAt_map, ← mem_asMap anyKey_form]
  exact or_iff_right fun h => by simp [asMap, anyKeyOf] at h

theorem carries_map {v : Val} (hv : ∀ i x, HasAt v i x ↔ (i, x) ∈ r) : Carries W e r v where
  here i _ x := hv i x
  rest i hi x h := absurd (List.mem_map.2 ⟨_, (hv i x).1 h, rfl⟩) hi

theorem has_nil {k : Val} : ¬ Has k [] := fun h => by obtain ⟨_, h, _⟩ := h; cases h

theorem getZ_nil {i : Nat} : getZ z [] i = z := rfl
theorem getZ_zeros {i l : Nat} : getZ z (List.replicate l z) i = z := by
  rw [getZ, List.getElem?_replicate]
  split <;> rfl

theorem decDoc_any_arr {t : Ty} {cnt : Bytes} {rv v : Val} (ht : Plain W t .any) : DecDoc W t (n + 1) (.arr cnt es) rv v ↔
    ∃ es1, (∃ m, LenText cnt m) ∧ v = .iface (.map .any .any) (.map es1) ∧ DecPairs W .anyKey .any n es [] es1 := by
  obtain ⟨hu, hr⟩ := ht
  constructor
  · intro h
    cases h
    case anyArr m es1 hp h1 h2 => exact ⟨_, ⟨_, h1⟩, rfl, h2⟩
    all_goals simp_all [Plain]
  · rintro ⟨es1, ⟨m, h1⟩, rfl, h2⟩
    exact .anyArr ⟨hu, hr⟩ h1 h2

theorem list_down {cnt : Bytes} {t : Ty} {old v : Val} (hp : PlainList W e cnt es is) (ht : HoldsList W e is t old)
    (h : DecDoc W t (n + 1) (.arr cnt es) old v) : ∃ r, Entries W e n es r ∧ Carries W e r v := by
  cases ht with
  | slice ht =>
    rw [decDoc_slice_iff ht] at h
    rcases h with ⟨-, rfl, rfl⟩ | ⟨-, -, -, vs, rfl, h⟩
    · exact ⟨[], .nil, fun i hi => by simp at hi, fun i _ x h => by cases h⟩
    · obtain ⟨r, h1, rfl⟩ := entries_of_elems h hp.keys hp.differ fun _ _ => getZ_nil
      exact ⟨r, h1, carries_fill (entries_keys h1 hp.keys ▸ hp.differ) (fun _ => getZ_nil) fun _ _ => hasAt_slice⟩
  | @array _ l ht hl =>
    rw [decDoc_array_iff ht] at h
    obtain ⟨-, vs, rfl, h⟩ := h
    obtain ⟨r, h1, rfl⟩ := entries_of_arr h hp.keys hp.differ (fun i hi => by rw [List.length_replicate]; exact hl i hi) fun _ _ => getZ_zeros
    exact ⟨r, h1, carries_fill (entries_keys h1 hp.keys ▸ hp.differ) (fun _ => getZ_zeros) fun _ _ => hasAt_arr⟩
  | @map k _ kd ht hk hr hb =>
    obtain ⟨m, l, es0, es1, hm, -, hbase, rfl, h⟩ := (decDoc_map_iff ht .arr).1 h
    cases hm
    have h0 : es0 = [] := by cases hb <;> cases hbase <;> rfl
    subst h0
    obtain ⟨r, h1, rfl⟩ := entries_of_pairs intKey_form (keysAs_int hk) h hp.keys hp.differ fun i _ => has_nil
    exact ⟨r, h1, carries_map fun i x => hasAt_ints⟩
  | @anyKeys k _ ht hk hb =>
    obtain ⟨m, l, es0, es1, hm, -, hbase, rfl, h⟩ := (decDoc_map_iff ht .arr).1 h
    cases hm
    have h0 : es0 = [] := by cases hb <;> cases hbase <;> rfl
    subst h0
    obtain ⟨r, h1, rfl⟩ := entries_of_pairs anyKey_form (keysAs_any hk) h hp.keys hp.differ fun i _ => has_nil
    exact ⟨r, h1, carries_map fun i x => hasAt_anys⟩
  | any ht he =>
    subst he
    obtain ⟨es1, -, rfl, hps⟩ := (decDoc_any_arr ht).1 h
    obtain ⟨r, h1, rfl⟩ := entries_of_pairs anyKey_form keysAs_anyKey hps hp.keys hp.differ fun i _ => has_nil
    exact ⟨r, h1, carries_map fun i x => hasAt_any.trans hasAt_anys⟩

theorem list_up {cnt : Bytes} {t : Ty} {old : Val} (hp : PlainList W e cnt es is) (ht : HoldsList W e is t old) (h : Entries W e n es r) :
    ∃ v, DecDoc W t (n + 1) (.arr cnt es) old v ∧ Carries W e r v := by
  have hk := entries_keys h hp.keys
  have hn : (r.map Prod.fst).Nodup := hk ▸ hp.differ
  have hmem : ∀ p ∈ r, p.1 ∈ is := fun p hp => hk ▸ List.mem_map.2 ⟨p, hp, rfl⟩
  obtain ⟨m, hm, hs⟩ := hp.count
  cases ht with
  | slice ht =>
    by_cases he : es = []
    · refine ⟨_, (decDoc_slice_iff ht).2 (.inl ⟨hp.empty he, he, rfl⟩), ?_⟩
      subst he
      cases h
      exact ⟨fun i hi => by simp at hi, fun i _ x h => by cases h⟩
    · exact ⟨_, (decDoc_slice_iff ht).2 (.inr ⟨hp.filled he, he, ⟨m, hm, hs⟩, _, rfl,
        elems_of_entries h hn (fun p hq => hp.room _ (hmem p hq)) fun _ _ => getZ_nil⟩), carries_fill hn (fun _ => getZ_nil) fun _ _ => hasAt_slice⟩
  | @array _ l ht hl =>
    refine ⟨_, (decDoc_array_iff ht).2 ⟨?_, _, rfl, arr_of_entries h hn (fun p hq => (hp.room _ (hmem p hq)).1)
      (fun p hq => by rw [List.length_replicate]; exact hl _ (hmem p hq)) fun _ _ => getZ_zeros⟩, carries_fill hn (fun _ => getZ_zeros) fun _ _ => hasAt_arr⟩
    by_cases he : es = []
    · exact .inl ⟨hp.empty he, he⟩
    · exact .inr ⟨hp.filled he, he, m, hm⟩
  | @map k _ kd ht hk hr hb =>
    exact ⟨_, (decDoc_map_iff ht .arr).2 ⟨n, m, [], _, rfl, hm, hb, rfl,
      pairs_of_entries intKey_form (keysFrom_int hk) h hn (fun p hq => hr _ (hmem p hq)) fun p _ => has_nil⟩, carries_map fun i x => hasAt_ints⟩
  | @anyKeys k _ ht hk hb =>
    exact ⟨_, (decDoc_map_iff ht .arr).2 ⟨n, m, [], _, rfl, hm, hb, rfl,
      pairs_of_entries anyKey_form (keysFrom_any hk) h hn (fun p hq => by have := (hp.room _ (hmem p hq)).1; omega) fun p _ => has_nil⟩,
      carries_map fun i x => hasAt_anys⟩
  | any ht he =>
    subst he
    exact ⟨_, (decDoc_any_arr ht).2 ⟨_, ⟨m, hm⟩, rfl,
      pairs_of_entries anyKey_form keysFrom_anyKey h hn (fun p hq => by have := (hp.room _ (hmem p hq)).1; omega) fun p _ => has_nil⟩,
      carries_map fun i x => hasAt_any.trans hasAt_anys⟩

theorem nodup_keys (hn : (r.map Prod.fst).Nodup) {i : Nat} {x y : Val} (hx : (i, x) ∈ r) (hy : (i, y) ∈ r) : x = y := by
  have h1 := fill_at (z := x) (vs := []) r hn hx
  rw [fill_at r hn hy] at h1
  exact (Option.some.inj h1).symm

end Verif

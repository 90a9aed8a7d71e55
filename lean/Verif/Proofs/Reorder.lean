import Verif.Spec.Reorder
import Verif.Proofs.Rearrange
import Verif.Proofs.Overlay
/-
What is stored if the entries of a document are rearranged.
-/
namespace Verif
open Spec
variable {W : World} {Q : Prop}

theorem keysDiffer_symm {a b : Doc} (h : KeysDiffer a b) : KeysDiffer b a := by
  cases h with
  | ints h1 h2 h3 => exact .ints h2 h1 (Ne.symm h3)
  | strs h => exact .strs (Ne.symm h)
  | intStr => exact .strInt
  | strInt => exact .intStr

/-- The keys differ pairwise. -/
def Apart (es : List (Doc × Doc)) : Prop := es.Pairwise fun p q => KeysDiffer p.1 q.1

theorem apart_perm {es es' : List (Doc × Doc)} (hp : es.Perm es') (h : Apart es) : Apart es' := hp.pairwise h fun h => keysDiffer_symm h

theorem apart_in {pre post : List (Doc × Doc)} {k x : Doc} (x' : Doc) (h : Apart (pre ++ (k, x) :: post)) : Apart (pre ++ (k, x') :: post) := by
  unfold Apart at *
  simp only [List.pairwise_append, List.pairwise_cons, List.mem_cons, forall_eq_or_imp] at *
  exact h

theorem once_rearranged {d d' : Doc} (h : Rearranged d d') (ho : KeysOnce d) : KeysOnce d' := by
  induction h with
  | refl => exact ho
  | arr hp => cases ho with | arr h1 h2 => exact .arr (apart_perm hp h1) fun k x hm => h2 k x (hp.mem_iff.2 hm)
  | obj hp => cases ho with | obj h1 h2 => exact .obj (apart_perm hp h1) fun k x hm => h2 k x (hp.mem_iff.2 hm)
  | inArr _ ih =>
    cases ho with
    | arr h1 h2 =>
      refine .arr (apart_in _ h1) fun k1 x1 hm => ?_
      rcases List.mem_append.1 hm with hm | hm
      · exact h2 k1 x1 (List.mem_append_left _ hm)
      · rcases List.mem_cons.1 hm with hm | hm
        · cases hm; exact ih (h2 _ _ (List.mem_append_right _ (List.mem_cons_self ..)))
        · exact h2 k1 x1 (List.mem_append_right _ (List.mem_cons_of_mem _ hm))
  | inObj _ ih =>
    cases ho with
    | obj h1 h2 =>
      refine .obj (apart_in _ h1) fun k1 x1 hm => ?_
      rcases List.mem_append.1 hm with hm | hm
      · exact h2 k1 x1 (List.mem_append_left _ hm)
      · rcases List.mem_cons.1 hm with hm | hm
        · cases hm; exact ih (h2 _ _ (List.mem_append_right _ (List.mem_cons_self ..)))
        · exact h2 k1 x1 (List.mem_append_right _ (List.mem_cons_of_mem _ hm))
  | trans _ _ ih1 ih2 => exact ih2 (ih1 ho)

/-! ### Inserting into maps -/

/-- A key of the list is equal to `k`. -/
def Hit (k : Val) (m : List (Val × Val)) : Prop := ∃ p ∈ m, p.1.goEq k = true

theorem insert_hit {k x : Val} {a b : List (Val × Val)} (h : Hit k a) : mapInsert k x (a ++ b) = mapInsert k x a ++ b := by
  induction a with
  | nil => obtain ⟨p, hp, -⟩ := h; cases hp
  | cons q a ih =>
    obtain ⟨k', v'⟩ := q
    simp only [List.cons_append, mapInsert]
    split
    · rfl
    · rename_i hq
      obtain ⟨p, hp, he⟩ := h
      rcases List.mem_cons.1 hp with rfl | hp
      · exact absurd he hq
      · rw [ih ⟨p, hp, he⟩]; rfl

theorem insert_miss {k x : Val} {a b : List (Val × Val)} (h : ¬ Hit k a) : mapInsert k x (a ++ b) = a ++ mapInsert k x b := by
  induction a with
  | nil => rfl
  | cons q a ih =>
    obtain ⟨k', v'⟩ := q
    simp only [List.cons_append, mapInsert]
    split
    · rename_i hq; exact absurd ⟨_, List.mem_cons_self .., hq⟩ h
    · rw [ih fun ⟨p, hp, he⟩ => h ⟨p, List.mem_cons_of_mem _ hp, he⟩]

theorem insert_new {k x : Val} {a : List (Val × Val)} (h : ¬ Hit k a) : mapInsert k x a = a ++ [(k, x)] := by
  simpa [mapInsert] using insert_miss (x := x) (b := []) h

/-- An entry with that key is replaced. -/
theorem insert_split {k : Val} {a : List (Val × Val)} (h : Hit k a) :
    ∃ l p r, a = l ++ p :: r ∧ ¬ Hit k l ∧ p.1.goEq k = true ∧ ∀ y, mapInsert k y a = l ++ (k, y) :: r := by
  induction a with
  | nil => obtain ⟨p, hp, -⟩ := h; cases hp
  | cons q a ih =>
    by_cases hq : q.1.goEq k = true
    · refine ⟨[], q, a, rfl, (fun ⟨p, hp, _⟩ => by cases hp), hq, fun y => ?_⟩
      obtain ⟨k', v'⟩ := q
      simp only [mapInsert, List.nil_append]
      rw [if_pos hq]
    · obtain ⟨p, hp, he⟩ := h
      rcases List.mem_cons.1 hp with rfl | hp
      · exact absurd he hq
      · obtain ⟨l, p', r, rfl, h1, h2, h3⟩ := ih ⟨p, hp, he⟩
        refine ⟨q :: l, p', r, rfl, ?_, h2, fun y => ?_⟩
        · rintro ⟨s, hs, he⟩
          rcases List.mem_cons.1 hs with rfl | hs
          · exact hq he
          · exact h1 ⟨s, hs, he⟩
        · obtain ⟨k', v'⟩ := q
          simp only [mapInsert, List.cons_append]
          rw [if_neg hq, h3]

theorem same_insert {k x y : Val} (h : SameMaps Q x y) (m : List (Val × Val)) : SameMaps Q (.map (mapInsert k x m)) (.map (mapInsert k y m)) := by
  by_cases hm : Hit k m
  · obtain ⟨l, p, r, -, -, -, he⟩ := insert_split hm
    rw [he, he]; exact .mapVal h
  · rw [insert_new hm, insert_new hm]; exact .mapVal h

/-- Two entries with different keys, put in one after the other: the result is the same, or both are new and stand at the end. -/
theorem insert_swap {k x k' x' : Val} (hd : k.goEq k' = false) (m : List (Val × Val)) :
    mapInsert k x (mapInsert k' x' m) = mapInsert k' x' (mapInsert k x m) ∨
    mapInsert k x (mapInsert k' x' m) = m ++ [(k', x'), (k, x)] ∧ mapInsert k' x' (mapInsert k x m) = m ++ [(k, x), (k', x')] := by
  have hd' : k'.goEq k = false := by
    cases h : k'.goEq k with
    | false => rfl
    | true => rw [goEq_symm h] at hd; cases hd
  have one : ∀ {k x k' x' : Val}, k.goEq k' = false → k'.goEq k = false → ¬ Hit k m → Hit k' m →
      mapInsert k x (mapInsert k' x' m) = mapInsert k' x' (mapInsert k x m) := by
    intro k x k' x' _ hd' hm hm'
    rw [insert_new hm, insert_hit hm']
    refine insert_new ?_
    obtain ⟨l, p, r, hl, -, -, he⟩ := insert_split hm'
    rw [he]
    rintro ⟨q, hq, hg⟩
    rcases List.mem_append.1 hq with hq | hq
    · exact hm ⟨q, by rw [hl]; exact List.mem_append_left _ hq, hg⟩
    · rcases List.mem_cons.1 hq with rfl | hq
      · rw [hd'] at hg; cases hg
      · exact hm ⟨q, by rw [hl]; exact List.mem_append_right _ (List.mem_cons_of_mem _ hq), hg⟩
  by_cases hm : Hit k m
  · by_cases hm' : Hit k' m
    · left
      clear one
      induction m with
      | nil => obtain ⟨p, hp, -⟩ := hm; cases hp
      | cons q m ih =>
        obtain ⟨a, v⟩ := q
        have tail : ∀ {k : Val}, Hit k ((a, v) :: m) → ¬ a.goEq k = true → Hit k m := by
          rintro k ⟨p, hp, he⟩ hn
          rcases List.mem_cons.1 hp with rfl | hp
          · exact absurd he hn
          · exact ⟨p, hp, he⟩
        by_cases h1 : a.goEq k = true
        · have h2 : ¬ a.goEq k' = true := fun h => by rw [goEq_trans (goEq_symm h1) h] at hd; cases hd
          simp [mapInsert, h1, h2, hd]
        · by_cases h2 : a.goEq k' = true
          · simp [mapInsert, h1, h2, hd']
          · simp only [mapInsert, h1, h2]
            simp only [mapInsert, h1, h2, if_false, Bool.false_eq_true]
            rw [ih (tail hm h1) (tail hm' h2)]
    · exact .inl (one hd' hd hm' hm).symm
  · by_cases hm' : Hit k' m
    · exact .inl (one hd hd' hm hm')
    · right
      rw [insert_new hm, insert_new hm']
      refine ⟨?_, ?_⟩
      · rw [insert_new ?_]
        · simp
        · rintro ⟨q, hq, hg⟩
          rcases List.mem_append.1 hq with hq | hq
          · exact hm ⟨q, hq, hg⟩
          · cases List.mem_singleton.1 hq; rw [hd'] at hg; cases hg
      · rw [insert_new ?_]
        · simp
        · rintro ⟨q, hq, hg⟩
          rcases List.mem_append.1 hq with hq | hq
          · exact hm' ⟨q, hq, hg⟩
          · cases List.mem_singleton.1 hq; rw [hd] at hg; cases hg

/-! ### Keys -/

/-- What a key document becomes. -/
inductive KeyVal (W : World) (n : Nat) : KeyMode → Doc → Val → Prop
  | key {k kd kv} : KeyType W k → DecDoc W k n kd (W.zero k) kv → Hashable kv → KeyVal W n (.ofType k) kd kv
  | ptrKey {k p} : Plain W k (.ptr p) → W.unmOf p = none → KeyType W p → KeyVal W n (.ofType k) .null .ptrNil
  | anyInt {txt i} : IntText txt i → InRange .i64 i → KeyVal W n .anyKey (.int txt) (.iface (.int .i64) (.int i))
  | anyStr {len s} : LenText len s.length → KeyVal W n .anyKey (.str len s) (.iface .str (.str s))

theorem pairs_cons {km : KeyMode} {e : Ty} {n : Nat} {kd d : Doc} {es : List (Doc × Doc)} {m m' : List (Val × Val)} :
    DecPairs W km e n ((kd, d) :: es) m m' ↔ ∃ kv x, KeyVal W n km kd kv ∧ DecDoc W e n d (W.zero e) x ∧ DecPairs W km e n es (mapInsert kv x m) m' := by
  constructor
  · intro h
    cases h with
    | key a b c d h => exact ⟨_, _, .key a b d, c, h⟩
    | ptrKey a b c d h => exact ⟨_, _, .ptrKey a b c, d, h⟩
    | anyInt a b c h => exact ⟨_, _, .anyInt a b, c, h⟩
    | anyStr a b h => exact ⟨_, _, .anyStr a, b, h⟩
  · rintro ⟨kv, x, hk, hx, h⟩
    cases hk with
    | key a b c => exact .key a b hx c h
    | ptrKey a b c => exact .ptrKey a b c hx h
    | anyInt a b => exact .anyInt a b hx h
    | anyStr a => exact .anyStr a hx h

/-- The keys of the map type are of a type without methods. -/
def PlainKeys (W : World) : KeyMode → Prop
  | .ofType k => W.unmOf k = none ∧ ∀ i, W.resolve k ≠ .iface i
  | .anyKey => True

theorem intKey_val {n : Nat} {k : Ty} {s : Bytes} {z v : Val} (hu : W.unmOf k = none) (hi : ∀ i, W.resolve k ≠ .iface i) (hk : KeyType W k)
    (h : DecDoc W k n (.int s) z v) : ∃ i, IntText s i ∧ (v = .int i ∧ (∃ j, W.resolve k = .int j) ∨ (∃ m : Nat, i = m ∧ v = .uint m) ∧ (∃ j, W.resolve k = .uint j) ∨
      v = .iface (.int .i64) (.int i) ∧ W.resolve k = .any) := by
  cases h with
  | unm h => rw [hu] at h; cases h
  | ptrNew h => simp [KeyType, hu, h.2] at hk
  | ptrOld h => simp [KeyType, hu, h.2] at hk
  | int h1 h2 => exact ⟨_, h2, .inl ⟨rfl, _, h1.2⟩⟩
  | uint h1 h2 => exact ⟨_, .pos h2, .inr (.inl ⟨⟨_, rfl, rfl⟩, _, h1.2⟩)⟩
  | anyInt h1 h2 => exact ⟨_, h2, .inr (.inr ⟨rfl, h1.2⟩)⟩
  | ifaceDyn h => exact absurd h.2 (hi _)
  | map _ h | structEmpty _ h | struct _ h => cases h

theorem strKey_val {n : Nat} {k : Ty} {l s : Bytes} {z v : Val} (hu : W.unmOf k = none) (hi : ∀ i, W.resolve k ≠ .iface i) (hk : KeyType W k)
    (h : DecDoc W k n (.str l s) z v) : v = .str s ∧ W.resolve k = .str ∨ v = .iface .str (.str s) ∧ W.resolve k = .any := by
  cases h with
  | unm h => rw [hu] at h; cases h
  | ptrNew h => simp [KeyType, hu, h.2] at hk
  | ptrOld h => simp [KeyType, hu, h.2] at hk
  | str h1 h2 => exact .inl ⟨rfl, h1.2⟩
  | bytes h => simp [KeyType, hu, h.2] at hk
  | anyStr h1 h2 => exact .inr ⟨rfl, h1.2⟩
  | ifaceDyn h => exact absurd h.2 (hi _)
  | map _ h | structEmpty _ h | struct _ h => cases h

theorem keys_differ {n : Nat} {km : KeyMode} {a b : Doc} {u v : Val} (hp : PlainKeys W km) (hd : KeysDiffer a b) (hu : KeyVal W n km a u)
    (hv : KeyVal W n km b v) : u.goEq v = false := by
  cases hu with
  | anyInt h1 h2 =>
    cases hv with
    | anyInt h3 h4 => cases hd with | ints h5 h6 h7 => cases intText_unique h1 h5; cases intText_unique h3 h6; simpa [Val.goEq] using h7
    | anyStr h3 => simp [Val.goEq]
  | anyStr h1 =>
    cases hv with
    | anyInt h3 h4 => simp [Val.goEq]
    | anyStr h3 => cases hd with | strs h5 => simpa [Val.goEq] using h5
  | ptrKey => cases hd
  | key hk h1 _ =>
    cases hv with
    | ptrKey => cases hd
    | key _ h2 _ =>
      cases hd with
      | ints h5 h6 h7 =>
        obtain ⟨i, hi, h1⟩ := intKey_val hp.1 hp.2 hk h1
        obtain ⟨j, hj, h2⟩ := intKey_val hp.1 hp.2 hk h2
        cases intText_unique hi h5; cases intText_unique hj h6
        rcases h1 with ⟨rfl, j1, e1⟩ | ⟨⟨m1, rfl, rfl⟩, j1, e1⟩ | ⟨rfl, e1⟩ <;> rcases h2 with ⟨rfl, j2, e2⟩ | ⟨⟨m2, rfl, rfl⟩, j2, e2⟩ | ⟨rfl, e2⟩ <;>
          first
            | (simp [Val.goEq]; omega)
            | simp [Val.goEq]
      | strs h5 =>
        rcases strKey_val hp.1 hp.2 hk h1 with ⟨rfl, e1⟩ | ⟨rfl, e1⟩ <;> rcases strKey_val hp.1 hp.2 hk h2 with ⟨rfl, e2⟩ | ⟨rfl, e2⟩ <;>
          simp [Val.goEq, h5]
      | intStr =>
        obtain ⟨i, -, h1⟩ := intKey_val hp.1 hp.2 hk h1
        rcases h1 with ⟨rfl, j1, e1⟩ | ⟨⟨m1, rfl, rfl⟩, j1, e1⟩ | ⟨rfl, e1⟩ <;> rcases strKey_val hp.1 hp.2 hk h2 with ⟨rfl, e2⟩ | ⟨rfl, e2⟩ <;> simp [Val.goEq]
      | strInt =>
        obtain ⟨i, -, h2⟩ := intKey_val hp.1 hp.2 hk h2
        rcases h2 with ⟨rfl, j1, e1⟩ | ⟨⟨m1, rfl, rfl⟩, j1, e1⟩ | ⟨rfl, e1⟩ <;> rcases strKey_val hp.1 hp.2 hk h1 with ⟨rfl, e2⟩ | ⟨rfl, e2⟩ <;> simp [Val.goEq]

/-! ### Entries in another order -/

theorem pairs_tail {km : KeyMode} {e : Ty} {n : Nat} {b b' : List (Val × Val)} (hb : b.Perm b') : ∀ {es : List (Doc × Doc)} {a c m' : List (Val × Val)},
    (∀ kd x, (kd, x) ∈ es → ∀ kv, KeyVal W n km kd kv → ¬ Hit kv b) → DecPairs W km e n es (a ++ (b ++ c)) m' →
    ∃ a' c', m' = a' ++ (b ++ c') ∧ DecPairs W km e n es (a ++ (b' ++ c)) (a' ++ (b' ++ c')) := by
  intro es
  induction es with
  | nil => intro a c m' _ h; cases h; exact ⟨a, c, rfl, .nil⟩
  | cons p es ih =>
    intro a c m' hm h
    obtain ⟨kd, d⟩ := p
    obtain ⟨kv, x, h1, h2, h3⟩ := pairs_cons.1 h
    have hn := hm kd d (List.mem_cons_self ..) kv h1
    have hn' : ¬ Hit kv b' := fun ⟨q, hq, he⟩ => hn ⟨q, hb.mem_iff.2 hq, he⟩
    have hm' : ∀ kd x, (kd, x) ∈ es → ∀ kv, KeyVal W n km kd kv → ¬ Hit kv b := fun kd x hx => hm kd x (List.mem_cons_of_mem _ hx)
    by_cases ha : Hit kv a
    · rw [insert_hit ha] at h3
      obtain ⟨a', c', h4, h5⟩ := ih hm' h3
      exact ⟨a', c', h4, pairs_cons.2 ⟨kv, x, h1, h2, by rw [insert_hit ha]; exact h5⟩⟩
    · rw [insert_miss ha, insert_miss hn] at h3
      obtain ⟨a', c', h4, h5⟩ := ih hm' h3
      exact ⟨a', c', h4, pairs_cons.2 ⟨kv, x, h1, h2, by rw [insert_miss ha, insert_miss hn']; exact h5⟩⟩

theorem pairs_perm {km : KeyMode} (hp : PlainKeys W km) {e : Ty} {n : Nat} {es es' : List (Doc × Doc)} (hs : es.Perm es') :
    Apart es → ∀ {m m' : List (Val × Val)}, DecPairs W km e n es m m' → ∃ m2, DecPairs W km e n es' m m2 ∧ m'.Perm m2 := by
  induction hs with
  | nil => intro _ m m' h; exact ⟨m', h, .refl _⟩
  | cons p _ ih =>
    intro ha m m' h
    obtain ⟨kd, d⟩ := p
    obtain ⟨kv, x, h1, h2, h3⟩ := pairs_cons.1 h
    obtain ⟨m2, h4, h5⟩ := ih (List.pairwise_cons.1 ha).2 h3
    exact ⟨m2, pairs_cons.2 ⟨kv, x, h1, h2, h4⟩, h5⟩
  | swap p q l =>
    intro ha m m' h
    obtain ⟨kd, d⟩ := p
    obtain ⟨kd', d'⟩ := q
    obtain ⟨kv', x', h1, h2, h3⟩ := pairs_cons.1 h
    obtain ⟨kv, x, h4, h5, h6⟩ := pairs_cons.1 h3
    have ha1 := List.pairwise_cons.1 ha
    have ha2 := List.pairwise_cons.1 ha1.2
    have hne : kv'.goEq kv = false := keys_differ hp (ha1.1 _ (List.mem_cons_self ..)) h1 h4
    rcases insert_swap (x := x') (x' := x) hne m with he | ⟨he1, he2⟩
    · exact ⟨m', pairs_cons.2 ⟨kv, x, h4, h5, pairs_cons.2 ⟨kv', x', h1, h2, he ▸ h6⟩⟩, .refl _⟩
    · rw [he2] at h6
      have hb : [(kv', x'), (kv, x)].Perm [(kv, x), (kv', x')] := .swap ..
      obtain ⟨a', c', rfl, h7⟩ := pairs_tail (c := []) hb (fun k y hy u hu => by
        rintro ⟨r, hr, hg⟩
        rcases List.mem_cons.1 hr with rfl | hr
        · rw [keys_differ hp (ha1.1 _ (List.mem_cons_of_mem _ hy)) h1 hu] at hg; cases hg
        · cases List.mem_singleton.1 hr
          rw [keys_differ hp (ha2.1 _ hy) h4 hu] at hg; cases hg) (by simpa using h6)
      refine ⟨a' ++ ([(kv, x), (kv', x')] ++ c'), pairs_cons.2 ⟨kv, x, h4, h5, pairs_cons.2 ⟨kv', x', h1, h2, ?_⟩⟩, ?_⟩
      · rw [he1]; simpa using h7
      · exact List.Perm.append_left _ (hb.append_right _)
  | trans hs1 _ ih1 ih2 =>
    intro ha m m' h
    obtain ⟨m2, h1, h2⟩ := ih1 ha h
    obtain ⟨m3, h3, h4⟩ := ih2 (apart_perm hs1 ha) h1
    exact ⟨m3, h3, h2.trans h4⟩

theorem apart_fields {es : List (Doc × Doc)} (h : Apart es) : DistinctKeys es := by
  refine h.imp fun {p q} hd s s' h1 h2 => ?_
  obtain ⟨k, x⟩ := p
  obtain ⟨k', x'⟩ := q
  cases hd with
  | strs hne => cases h1; cases h2; exact hne
  | ints | intStr => cases h1
  | strInt => cases h2

theorem docsAt_perm {es es' : List (Doc × Doc)} (hp : es.Perm es') (ha : Apart es) (i : Nat) : docsAt es' i = docsAt es i := by
  have hperm : (docsAt es i).Perm (docsAt es' i) := (hp.filter _).map _
  have hl : (docsAt es i).length ≤ 1 := by
    unfold docsAt
    rw [List.length_map]
    have hf : (es.filter fun p => docIndex p.1 == some (i : Int)).Pairwise fun p q => KeysDiffer p.1 q.1 := ha.filter _
    have hm : ∀ p ∈ es.filter (fun p => docIndex p.1 == some (i : Int)), docIndex p.1 = some (i : Int) := fun p hp => by simpa using (List.mem_filter.1 hp).2
    generalize es.filter (fun p => docIndex p.1 == some (i : Int)) = l at hf hm
    match l, hf, hm with
    | [], _, _ => simp
    | [_], _, _ => simp
    | p :: q :: l, hf, hm =>
      have hd := (List.pairwise_cons.1 hf).1 q (List.mem_cons_self ..)
      have e1 := hm p (List.mem_cons_self ..)
      have e2 := hm q (List.mem_cons_of_mem _ (List.mem_cons_self ..))
      obtain ⟨k, x⟩ := p
      obtain ⟨k', x'⟩ := q
      cases hd with
      | ints h1 h2 h3 =>
        simp only [docIndex, intVal_text h1, intVal_text h2, Option.some.injEq] at e1 e2
        exact absurd (e1.trans e2.symm) h3
      | strs | strInt => cases e1
      | intStr => cases e2
  generalize docsAt es i = a at *
  generalize docsAt es' i = b at *
  match a, b, hl, hperm with
  | [], [], _, _ => rfl
  | [a], l, _, hperm => exact List.singleton_perm.1 hperm |>.symm ▸ rfl
  | [], b :: l, _, hperm => exact absurd hperm.length_eq (by simp)
  | a :: b :: l, _, hl, _ => simp at hl

theorem elems_perm {e : Ty} {n : Nat} {es es' : List (Doc × Doc)} (hp : es.Perm es') (ha : Apart es) (hne : es ≠ []) {vs : List Val}
    (h : DecElems W e n es [] vs) : DecElems W e n es' [] vs := by
  have hne' : es' ≠ [] := by rintro rfl; exact hne hp.eq_nil
  obtain ⟨h1, ⟨p, hp1, hp2⟩, h3⟩ := (decElems_iff_nil hne).1 h
  exact (decElems_iff_nil hne').2 ⟨fun p hm => h1 p (hp.mem_iff.2 hm), ⟨p, hp.mem_iff.1 hp1, hp2⟩, fun i hi => by rw [docsAt_perm hp ha]; exact h3 i hi⟩

theorem arrs_perm {e : Ty} {n : Nat} {es es' : List (Doc × Doc)} (hp : es.Perm es') (ha : Apart es) {vs vs' : List Val}
    (h : DecArr W e n es vs vs') : DecArr W e n es' vs vs' := by
  obtain ⟨h1, h2, h3⟩ := decArr_iff.1 h
  exact decArr_iff.2 ⟨h1, fun p hm => h2 p (hp.mem_iff.2 hm), fun i a b h h' => by rw [docsAt_perm hp ha]; exact h3 i a b h h'⟩

/-! ### The last entry -/

theorem elems_append {e : Ty} {n : Nat} {es1 es2 : List (Doc × Doc)} {vs vs' : List Val} :
    DecElems W e n (es1 ++ es2) vs vs' ↔ ∃ us, DecElems W e n es1 vs us ∧ DecElems W e n es2 us vs' := by
  induction es1 generalizing vs with
  | nil => exact ⟨fun h => ⟨vs, .nil, h⟩, fun ⟨us, h1, h2⟩ => by cases h1; exact h2⟩
  | cons p es1 ih =>
    constructor
    · intro h
      cases h with
      | cons a b c d f h => obtain ⟨us, h1, h2⟩ := ih.1 h; exact ⟨us, .cons a b c d f h1, h2⟩
    · rintro ⟨us, h, h2⟩
      cases h with
      | cons a b c d f h => exact .cons a b c d f (ih.2 ⟨us, h, h2⟩)

theorem arrs_append {e : Ty} {n : Nat} {es1 es2 : List (Doc × Doc)} {vs vs' : List Val} :
    DecArr W e n (es1 ++ es2) vs vs' ↔ ∃ us, DecArr W e n es1 vs us ∧ DecArr W e n es2 us vs' := by
  induction es1 generalizing vs with
  | nil => exact ⟨fun h => ⟨vs, .nil, h⟩, fun ⟨us, h1, h2⟩ => by cases h1; exact h2⟩
  | cons p es1 ih =>
    constructor
    · intro h
      cases h with
      | store a b c d h => obtain ⟨us, h1, h2⟩ := ih.1 h; exact ⟨us, .store a b c d h1, h2⟩
      | skip a b c d h => obtain ⟨us, h1, h2⟩ := ih.1 h; exact ⟨us, .skip a b c d h1, h2⟩
    · rintro ⟨us, h, h2⟩
      cases h with
      | store a b c d h => exact .store a b c d (ih.2 ⟨us, h, h2⟩)
      | skip a b c d h => exact .skip a b c d (ih.2 ⟨us, h, h2⟩)

theorem set_split {v0 : Val} {l : List Val} {i : Nat} (h : l[i]? = some v0) : ∃ a b, ∀ v, l.set i v = a ++ v :: b := by
  obtain ⟨hi, -⟩ := List.getElem?_eq_some_iff.1 h
  exact ⟨l.take i, l.drop (i + 1), fun v => by rw [List.set_eq_take_append_cons_drop, if_pos hi]⟩

/-- Types of which all methods that are reached take documents in any order, to the same effect, from which no interface with methods is reached, and maps
and `any` only if `Q`; keys of maps have no methods. -/
def Clean (W : World) (Q : Prop) (t : Ty) : Prop := ∀ t', Reach W t t' →
  (∀ id d d' v, W.unmOf t' = some id → Rearranged d d' → W.unmarshal id d.text = .ok v → ∃ v', W.unmarshal id d'.text = .ok v' ∧ SameMaps Q v v') ∧
  (∀ i, ¬ Plain W t' (.iface i)) ∧ ((∃ k e, Plain W t' (.map k e)) ∨ Plain W t' .any → Q) ∧ ∀ k e, Plain W t' (.map k e) → W.unmOf k = none

theorem clean_comp {t t' : Ty} (h : Clean W Q t) (hc : Component W t t') : Clean W Q t' := fun t'' hr => h t'' (reach_front hc hr)

theorem clean_any (hq : Q) : Clean W Q .any := by
  intro t hr
  rw [reach_any hr]
  exact ⟨(fun _ _ _ _ h => by cases h), (fun i h => by cases h.2), (fun _ => hq), fun k e h => by cases h.2⟩

/-- What is to be shown of two documents. -/
def Follows (W : World) (Q : Prop) (d d' : Doc) : Prop :=
  ∀ t n rv v, Clean W Q t → DecDoc W t n d rv v → ∃ v', DecDoc W t n d' rv v' ∧ SameMaps Q v v'

/-- It is enough to look at types without methods that are not pointers. -/
theorem follows_of {d d' : Doc} (hr : Rearranged d d') (hn : d ≠ .null) (hn' : d' ≠ .null)
    (h : ∀ t n rv v, Clean W Q t → W.unmOf t = none → (∀ e, W.resolve t ≠ .ptr e) → DecDoc W t n d rv v → ∃ v', DecDoc W t n d' rv v' ∧ SameMaps Q v v') :
    Follows W Q d d' := by
  have method : ∀ {t n rv v id}, Clean W Q t → W.unmOf t = some id → DecDoc W t n d rv v → ∃ v', DecDoc W t n d' rv v' ∧ SameMaps Q v v' := by
    intro t n rv v id hc hu hd
    cases hd with
    | unmNull => exact absurd rfl hn
    | unm h1 h2 h3 h4 =>
      obtain ⟨v', h5, h6⟩ := (hc t .refl).1 _ _ _ _ h1 hr h4
      exact ⟨v', .unm h1 hn' (strict_rearranged h3 hr) h5, h6⟩
    | _ hx => rw [hx.1] at hu; cases hu
  intro t n rv v hc hd
  cases hu : W.unmOf t with
  | some id => exact method hc hu hd
  | none =>
  by_cases hp : ∃ e, W.resolve t = .ptr e
  · obtain ⟨e, he⟩ := hp
    have hpt : Plain W t (.ptr e) := ⟨hu, he⟩
    have inner : ∀ {rv v}, W.isPtr e = false → DecDoc W e n d rv v → ∃ v', DecDoc W e n d' rv v' ∧ SameMaps Q v v' := by
      intro rv v hi hd
      cases hu : W.unmOf e with
      | some id => exact method (clean_comp hc (.ptr hpt)) hu hd
      | none => exact h e n rv v (clean_comp hc (.ptr hpt)) hu (fun e' he' => by simp [World.isPtr, he'] at hi) hd
    cases hd with
    | unm h => rw [hpt.1] at h; cases h
    | ptrNew h1 h2 h3 h4 =>
      cases h1.2.symm.trans he
      obtain ⟨v', h5, h6⟩ := inner h2 h4
      exact ⟨_, .ptrNew h1 h2 hn' h5, .ptr h6⟩
    | ptrOld h1 h2 h3 h4 =>
      cases h1.2.symm.trans he
      obtain ⟨v', h5, h6⟩ := inner h2 h4
      exact ⟨_, .ptrOld h1 h2 hn' h5, .ptr h6⟩
    | unmNull | ptrNull | boolNull | intNull | uintNull | f32Null | f64Null | strNull | bytesNull | sliceNull | arrayNull | mapNull | structNull | anyNull | ifaceNull => exact absurd rfl hn
    | _ hx => cases hx.2.symm.trans he
  · exact h t n rv v hc hu (fun e he => hp ⟨e, he⟩) hd

theorem follows_arr {cnt : Bytes} {es es' : List (Doc × Doc)} (hp : es.Perm es') (ha : Apart es) : Follows W Q (.arr cnt es) (.arr cnt es') := by
  refine follows_of (.arr hp) (by simp) (by simp) fun t n rv v hc hu ht hd => ?_
  have hne : es ≠ [] → es' ≠ [] := by rintro h rfl; exact h hp.eq_nil
  cases hd with
  | unm h => rw [hu] at h; cases h
  | ptrNew h => exact absurd h.2 (ht _)
  | ptrOld h => exact absurd h.2 (ht _)
  | sliceEmpty h => cases hp.nil_eq; exact ⟨_, .sliceEmpty h, .refl⟩
  | slice h1 h2 h3 h4 h5 h6 => exact ⟨_, .slice h1 h2 h3 h4 (hne h5) (elems_perm hp ha h5 h6), .refl⟩
  | arrayEmpty h => cases hp.nil_eq; exact ⟨_, .arrayEmpty h, .refl⟩
  | array h1 h2 h3 h4 h5 => exact ⟨_, .array h1 h2 h3 (hne h4) (arrs_perm hp ha h5), .refl⟩
  | map h1 h2 h3 h4 h5 =>
    cases h2
    obtain ⟨m2, h6, h7⟩ := pairs_perm (km := .ofType _) ⟨(hc t .refl).2.2.2 _ _ h1, fun i hi => (clean_comp hc (.mapKey h1) _ .refl).2.1 i ⟨(hc t .refl).2.2.2 _ _ h1, hi⟩⟩ hp ha h5
    exact ⟨_, .map h1 .arr h3 h4 h6, .order ((hc t .refl).2.2.1 (.inl ⟨_, _, h1⟩)) h7⟩
  | structEmpty h1 h2 h3 => cases h2; cases hp.nil_eq; exact ⟨_, .structEmpty h1 .arr h3, .refl⟩
  | struct h1 h2 h3 h4 h5 => cases h2; exact ⟨_, .struct h1 .arr h3 (hne h4) (decFields_perm hp (apart_fields ha) h5), .refl⟩
  | anyArr h1 h2 h3 =>
    obtain ⟨m2, h6, h7⟩ := pairs_perm (km := .anyKey) trivial hp ha h3
    exact ⟨_, .anyArr h1 h2 h6, .iface (.order ((hc t .refl).2.2.1 (.inr h1)) h7)⟩
  | ifaceDyn h => exact absurd h ((hc t .refl).2.1 _)

theorem follows_obj {clen cls cnt : Bytes} {es es' : List (Doc × Doc)} (hp : es.Perm es') (ha : Apart es) :
    Follows W Q (.obj clen cls cnt es) (.obj clen cls cnt es') := by
  refine follows_of (.obj hp) (by simp) (by simp) fun t n rv v hc hu ht hd => ?_
  have hne : es ≠ [] → es' ≠ [] := by rintro h rfl; exact h hp.eq_nil
  cases hd with
  | unm h => rw [hu] at h; cases h
  | ptrNew h => exact absurd h.2 (ht _)
  | ptrOld h => exact absurd h.2 (ht _)
  | map h1 h2 h3 h4 h5 =>
    cases h2 with
    | obj hl =>
    obtain ⟨m2, h6, h7⟩ := pairs_perm (km := .ofType _) ⟨(hc t .refl).2.2.2 _ _ h1, fun i hi => (clean_comp hc (.mapKey h1) _ .refl).2.1 i ⟨(hc t .refl).2.2.2 _ _ h1, hi⟩⟩ hp ha h5
    exact ⟨_, .map h1 (.obj hl) h3 h4 h6, .order ((hc t .refl).2.2.1 (.inl ⟨_, _, h1⟩)) h7⟩
  | structEmpty h1 h2 h3 => cases h2 with | obj hl => cases hp.nil_eq; exact ⟨_, .structEmpty h1 (.obj hl) h3, .refl⟩
  | struct h1 h2 h3 h4 h5 => cases h2 with | obj hl => exact ⟨_, .struct h1 (.obj hl) h3 (hne h4) (decFields_perm hp (apart_fields ha) h5), .refl⟩
  | anyObj h1 h2 h3 h4 =>
    obtain ⟨m2, h6, h7⟩ := pairs_perm (km := .ofType .str) ⟨rfl, fun i h => by cases h⟩ hp ha h4
    exact ⟨_, .anyObj h1 h2 h3 h6, .iface (.order ((hc t .refl).2.2.1 (.inr h1)) h7)⟩
  | ifaceDyn h => exact absurd h ((hc t .refl).2.1 _)

/-- As `Follows`, for one type. -/
def FollowsIn (W : World) (Q : Prop) (t : Ty) (n : Nat) (d d' : Doc) : Prop := ∀ rv v, DecDoc W t n d rv v → ∃ v', DecDoc W t n d' rv v' ∧ SameMaps Q v v'

theorem elems_last {e : Ty} {n : Nat} {es : List (Doc × Doc)} {k x x' : Doc} (hf : FollowsIn W Q e n x x') {vs ws : List Val}
    (h : DecElems W e n (es ++ [(k, x)]) vs ws) : ∃ ws', DecElems W e n (es ++ [(k, x')]) vs ws' ∧ SameMaps Q (.slice ws) (.slice ws') := by
  obtain ⟨us, h1, h2⟩ := elems_append.1 h
  cases h2 with
  | cons a b c d f g =>
    cases g
    obtain ⟨v', h3, h4⟩ := hf _ _ f
    refine ⟨_, elems_append.2 ⟨us, h1, .cons a b c d h3 .nil⟩, ?_⟩
    obtain ⟨l, r, hs⟩ := set_split d
    rw [hs, hs]; exact .slice h4

theorem arrs_last {e : Ty} {n : Nat} {es : List (Doc × Doc)} {k x x' : Doc} (hf : FollowsIn W Q e n x x') (hs : Rearranged x x') {vs ws : List Val}
    (h : DecArr W e n (es ++ [(k, x)]) vs ws) : ∃ ws', DecArr W e n (es ++ [(k, x')]) vs ws' ∧ SameMaps Q (.arr ws) (.arr ws') := by
  obtain ⟨us, h1, h2⟩ := arrs_append.1 h
  cases h2 with
  | store a b c d g =>
    cases g
    obtain ⟨v', h3, h4⟩ := hf _ _ d
    refine ⟨_, arrs_append.2 ⟨us, h1, .store a b c h3 .nil⟩, ?_⟩
    obtain ⟨l, r, hs⟩ := set_split c
    rw [hs, hs]; exact .arr h4
  | skip a b c d g =>
    cases g
    exact ⟨_, arrs_append.2 ⟨_, h1, .skip a b c (strict_rearranged d hs) .nil⟩, .refl⟩

theorem pairs_last {km : KeyMode} {e : Ty} {n : Nat} {es : List (Doc × Doc)} {k x x' : Doc} (hf : FollowsIn W Q e n x x') {m m' : List (Val × Val)}
    (h : DecPairs W km e n (es ++ [(k, x)]) m m') : ∃ m2, DecPairs W km e n (es ++ [(k, x')]) m m2 ∧ SameMaps Q (.map m') (.map m2) := by
  obtain ⟨us, h1, h2⟩ := decPairs_append.1 h
  obtain ⟨kv, y, h3, h4, h5⟩ := pairs_cons.1 h2
  cases h5
  obtain ⟨y', h6, h7⟩ := hf _ _ h4
  exact ⟨_, decPairs_append.2 ⟨us, h1, pairs_cons.2 ⟨kv, y', h3, h6, .nil⟩⟩, same_insert h7 _⟩

theorem wrapped_rearranged {t : Ty} {d d' : Doc} {v0 v : Val} (hs : Rearranged d d') (h : Wrapped W t d v0 v) : d = d' := by
  cases rows_of hs with
  | same => rfl
  | _ => cases h

theorem fields_last {id n : Nat} {es : List (Doc × Doc)} {k x x' : Doc} (hf : ∀ f ∈ W.fields id, FollowsIn W Q f.ty n x x') (hs : Rearranged x x')
    {vs ws : List Val} (h : DecFields W id n (es ++ [(k, x)]) vs ws) :
    ∃ ws', DecFields W id n (es ++ [(k, x')]) vs ws' ∧ SameMaps Q (.struct ws) (.struct ws') := by
  obtain ⟨us, h1, h2⟩ := decFields_append.1 h
  have same : x = x' → ∃ ws', DecFields W id n (es ++ [(k, x')]) vs ws' ∧ SameMaps Q (.struct ws) (.struct ws') := by
    rintro rfl; exact ⟨_, h, .refl⟩
  cases h2 with
  | skip a b c g => cases g; exact ⟨_, decFields_append.2 ⟨_, h1, .skip a b (strict_rearranged c hs) .nil⟩, .refl⟩
  | plain a b c d f g =>
    cases g
    obtain ⟨v', h3, h4⟩ := hf _ (List.mem_iff_getElem?.2 ⟨_, b.1⟩) _ _ f
    refine ⟨_, decFields_append.2 ⟨us, h1, .plain a b c d h3 .nil⟩, ?_⟩
    obtain ⟨l, r, hs⟩ := set_split d
    rw [hs, hs]; exact .struct h4
  | wrapped a b c d e f g => exact same (wrapped_rearranged hs f)
  | wrappedPtrNull a b c d e f g => exact same (by cases rows_of hs; rfl)
  | wrappedPtr a b c d e f g i j h => exact same (wrapped_rearranged hs j)

theorem follows_last_arr {cnt : Bytes} {es : List (Doc × Doc)} {k x x' : Doc} (hf : Follows W Q x x') (hs : Rearranged x x') :
    Follows W Q (.arr cnt (es ++ [(k, x)])) (.arr cnt (es ++ [(k, x')])) := by
  refine follows_of (.inArr (post := []) hs) (by simp) (by simp) fun t n rv v hc hu ht hd => ?_
  have hin : ∀ {e n}, Clean W Q e → FollowsIn W Q e n x x' := fun he rv v h => hf _ _ rv v he h
  generalize hes : es ++ [(k, x)] = L at hd
  have hne : L ≠ [] := by rw [← hes]; simp
  cases hd with
  | unm h => rw [hu] at h; cases h
  | ptrNew h => exact absurd h.2 (ht _)
  | ptrOld h => exact absurd h.2 (ht _)
  | sliceEmpty h => exact absurd rfl hne
  | slice h1 h2 h3 h4 h5 h6 =>
    subst hes
    obtain ⟨ws, h7, h8⟩ := elems_last (hin (clean_comp hc (.slice h1))) h6
    exact ⟨_, .slice h1 h2 h3 h4 (by simp) h7, h8⟩
  | arrayEmpty h => exact absurd rfl hne
  | array h1 h2 h3 h4 h5 =>
    subst hes
    obtain ⟨ws, h7, h8⟩ := arrs_last (hin (clean_comp hc (.array h1))) hs h5
    exact ⟨_, .array h1 h2 h3 (by simp) h7, h8⟩
  | map h1 h2 h3 h4 h5 =>
    cases h2; subst hes
    obtain ⟨m2, h6, h7⟩ := pairs_last (hin (clean_comp hc (.mapVal h1))) h5
    exact ⟨_, .map h1 .arr h3 h4 h6, h7⟩
  | structEmpty h1 h2 h3 => cases h2; exact absurd rfl hne
  | struct h1 h2 h3 h4 h5 =>
    cases h2; subst hes
    obtain ⟨ws, h6, h7⟩ := fields_last (fun f hm => hin (clean_comp hc (.field h1 hm))) hs h5
    exact ⟨_, .struct h1 .arr h3 (by simp) h6, h7⟩
  | anyArr h1 h2 h3 =>
    subst hes
    obtain ⟨m2, h6, h7⟩ := pairs_last (hin (clean_any ((hc t .refl).2.2.1 (.inr h1)))) h3
    exact ⟨_, .anyArr h1 h2 h6, .iface h7⟩
  | ifaceDyn h => exact absurd h ((hc t .refl).2.1 _)

theorem follows_last_obj {clen cls cnt : Bytes} {es : List (Doc × Doc)} {k x x' : Doc} (hf : Follows W Q x x') (hs : Rearranged x x') :
    Follows W Q (.obj clen cls cnt (es ++ [(k, x)])) (.obj clen cls cnt (es ++ [(k, x')])) := by
  refine follows_of (.inObj (post := []) hs) (by simp) (by simp) fun t n rv v hc hu ht hd => ?_
  have hin : ∀ {e n}, Clean W Q e → FollowsIn W Q e n x x' := fun he rv v h => hf _ _ rv v he h
  generalize hes : es ++ [(k, x)] = L at hd
  have hne : L ≠ [] := by rw [← hes]; simp
  cases hd with
  | unm h => rw [hu] at h; cases h
  | ptrNew h => exact absurd h.2 (ht _)
  | ptrOld h => exact absurd h.2 (ht _)
  | map h1 h2 h3 h4 h5 =>
    cases h2 with
    | obj hl =>
    subst hes
    obtain ⟨m2, h6, h7⟩ := pairs_last (hin (clean_comp hc (.mapVal h1))) h5
    exact ⟨_, .map h1 (.obj hl) h3 h4 h6, h7⟩
  | structEmpty h1 h2 h3 => cases h2; exact absurd rfl hne
  | struct h1 h2 h3 h4 h5 =>
    cases h2 with
    | obj hl =>
    subst hes
    obtain ⟨ws, h6, h7⟩ := fields_last (fun f hm => hin (clean_comp hc (.field h1 hm))) hs h5
    exact ⟨_, .struct h1 (.obj hl) h3 (by simp) h6, h7⟩
  | anyObj h1 h2 h3 h4 =>
    subst hes
    obtain ⟨m2, h6, h7⟩ := pairs_last (hin (clean_any ((hc t .refl).2.2.1 (.inr h1)))) h4
    exact ⟨_, .anyObj h1 h2 h3 h6, .iface h7⟩
  | ifaceDyn h => exact absurd h ((hc t .refl).2.1 _)

theorem sameMaps_eq {v v' : Val} (h : SameMaps False v v') : v = v' := by
  induction h with
  | refl => rfl
  | trans _ _ h1 h2 => exact h1.trans h2
  | order h => exact h.elim
  | _ => subst_vars; rfl

theorem follows_trans {a b c : Doc} (h : Follows W Q a b) (h' : Follows W Q b c) : Follows W Q a c := by
  intro t n rv v hc hd
  obtain ⟨v1, h1, h2⟩ := h t n rv v hc hd
  obtain ⟨v2, h3, h4⟩ := h' t n rv v1 hc h1
  exact ⟨v2, h3, .trans h2 h4⟩

theorem to_last (pre post : List (Doc × Doc)) (p : Doc × Doc) : (pre ++ p :: post).Perm ((pre ++ post) ++ [p]) :=
  List.perm_middle.trans (List.perm_append_singleton p (pre ++ post)).symm

theorem follows_rearranged {d d' : Doc} (h : Rearranged d d') (ho : KeysOnce d) : Follows W Q d d' := by
  induction h with
  | refl => exact fun t n rv v _ hd => ⟨v, hd, .refl⟩
  | arr hp => cases ho with | arr h1 h2 => exact follows_arr hp h1
  | obj hp => cases ho with | obj h1 h2 => exact follows_obj hp h1
  | @inArr cnt pre k x x' post hs ih =>
    cases ho with
    | arr h1 h2 =>
      have ha := apart_perm (to_last pre post (k, x)) h1
      exact follows_trans (follows_arr (to_last _ _ _) h1) (follows_trans (follows_last_arr (ih (h2 k x (by simp))) hs)
        (follows_arr (to_last _ _ _).symm (apart_in x' ha)))
  | @inObj clen cls cnt pre k x x' post hs ih =>
    cases ho with
    | obj h1 h2 =>
      have ha := apart_perm (to_last pre post (k, x)) h1
      exact follows_trans (follows_obj (to_last _ _ _) h1) (follows_trans (follows_last_obj (ih (h2 k x (by simp))) hs)
        (follows_obj (to_last _ _ _).symm (apart_in x' ha)))
  | trans hs _ ih1 ih2 => exact follows_trans (ih1 ho) (ih2 (once_rearranged hs ho))

end Verif

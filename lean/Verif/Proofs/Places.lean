import Verif.Proofs.NoType
import Verif.Proofs.DecFacts
/-
An offset in the input is that of at most one place.
-/
namespace Verif
open Spec

variable {W : World} {b : Bytes} {t0 : Ty} {c e x y : Nat}

theorem value_gt (h : ValueAt b c e) : c < e := by
  obtain ⟨n, d, -, -, rfl⟩ := h
  obtain ⟨x, xs, hx, -⟩ := text_head (d := d)
  rw [hx, List.length_cons]; omega

theorem value_unique {e' : Nat} (h : ValueAt b c e) (h' : ValueAt b c e') : e = e' := by
  obtain ⟨n, d, hl, hd, rfl⟩ := h
  obtain ⟨n', d', hl', hd', rfl⟩ := h'
  rw [(lax_unique hl hl' (hd.symm.trans hd')).1]

theorem head_gt (h : HeadAt b c x) : c < x := by
  cases h <;> omega

theorem head_unique (h : HeadAt b c x) (h' : HeadAt b c y) : x = y := by
  cases h with
  | arr h1 h2 h3 =>
    cases h' with
    | arr g1 g2 g3 =>
      rw [h2] at g2
      simp at g2
      obtain ⟨e, -, -⟩ := run_unique h1.2 g1.2 not_digit_58 not_digit_58 g2
      rw [e] at h3; omega
    | obj g0 g1 g2 g3 => rw [h2] at g2; simp at g2
  | obj h0 h1 h2 h3 =>
    cases h' with
    | arr g1 g2 g3 => rw [h2] at g2; simp at g2
    | obj g0 g1 g2 g3 =>
      rw [h2] at g2
      simp at g2
      obtain ⟨e, -, g2⟩ := run_unique h0.1.2 g0.1.2 not_digit_58 not_digit_58 g2
      subst e
      simp at g2
      obtain ⟨e1, g2⟩ := append_unique (h0.2.1.symm.trans g0.2.1) g2
      simp at g2
      obtain ⟨e, -, -⟩ := run_unique h1.2 g1.2 not_digit_58 not_digit_58 g2
      rw [e, e1] at h3; omega

/-- A container that is complete: its pairs follow the header. -/
theorem head_value (h : ValueAt b c e) (hx : HeadAt b c x) :
    ∃ n es, LaxPairs n es ∧ b.drop x = pairsText es ++ 125 :: b.drop e ∧ e = x + (pairsText es).length + 1 := by
  obtain ⟨n, d, hl, hd, he⟩ := h
  cases hx with
  | arr h1 h2 h3 =>
    rw [hd] at h2
    cases hl <;> simp [Doc.text] at h2
    rename_i n cnt es hc hk hv
    obtain ⟨e1, -, h4⟩ := run_unique hc.2 h1.2 not_digit_58 not_digit_58 h2
    subst e1
    simp at h4
    refine ⟨n, es, fun k v hkv => ⟨hk k v hkv, hv k v hkv⟩, h4.symm, ?_⟩
    simp [Doc.text] at he; omega
  | obj h0 h1 h2 h3 =>
    rw [hd] at h2
    cases hl <;> simp [Doc.text] at h2
    rename_i n clen cls cnt es hn hc hk hv
    obtain ⟨e1, -, h4⟩ := run_unique hn.1.2 h0.1.2 not_digit_58 not_digit_58 h2
    subst e1
    simp at h4
    obtain ⟨e2, h4⟩ := append_unique (hn.2.1.symm.trans h0.2.1) h4
    subst e2
    simp at h4
    obtain ⟨e1, -, h4⟩ := run_unique hc.2 h1.2 not_digit_58 not_digit_58 h4
    subst e1
    simp at h4
    refine ⟨n, es, fun k v hkv => ⟨hk k v hkv, hv k v hkv⟩, h4.symm, ?_⟩
    simp [Doc.text] at he; omega

/-- So do its pairs from any entry on. -/
theorem entry_value (h : ValueAt b c e) (hx : EntryAt b c x) :
    ∃ n es, LaxPairs n es ∧ b.drop x = pairsText es ++ 125 :: b.drop e ∧ e = x + (pairsText es).length + 1 := by
  induction hx with
  | first hx => exact head_value h hx
  | next _ h1 h2 ih =>
    obtain ⟨n, es, hl, hd, he⟩ := ih
    obtain ⟨n1, d1, l1, g1, f1⟩ := h1
    obtain ⟨n2, d2, l2, g2, f2⟩ := h2
    rw [g1] at hd
    cases es with
    | nil => exact absurd hd (text_head_125 d1 _ _)
    | cons kv es =>
      obtain ⟨k, v⟩ := kv
      simp only [pairsText, List.append_assoc] at hd
      obtain ⟨e1, hd1⟩ := lax_unique l1 (hl k v (by simp)).1 hd
      rw [g2] at hd1
      obtain ⟨e2, hd2⟩ := lax_unique l2 (hl k v (by simp)).2 hd1
      subst e1 e2
      refine ⟨n, es, fun k v hkv => hl k v (by simp [hkv]), hd2, ?_⟩
      simp only [pairsText, List.length_append] at he
      omega

/-! ### Positions -/

/-- `x` is the position of a key or value in the array or object at `c`. -/
def Child (b : Bytes) (c x : Nat) : Prop := KeyAt b c x ∨ ∃ k, EntryAt b c k ∧ ValueAt b k x

theorem entry_gt (h : EntryAt b c x) : c < x := by
  induction h with
  | first h => exact head_gt h
  | next _ h1 h2 ih => have := value_gt h1; have := value_gt h2; omega

theorem child_gt (h : Child b c x) : c < x := by
  rcases h with h | ⟨k, h1, h2⟩
  · exact entry_gt h.1
  · have := entry_gt h1; have := value_gt h2; omega

theorem drop_append {s : Bytes} (h : b.drop c = s ++ b.drop e) : b.drop (c + s.length) = b.drop e := by
  rw [← List.drop_drop, h]; simp

theorem child_in (h : ValueAt b c e) (hx : Child b c x) : ∃ e', ValueAt b x e' ∧ e' < e := by
  rcases hx with ⟨hx, hne⟩ | ⟨k, hk, hx⟩
  · obtain ⟨n, es, hl, hd, he⟩ := entry_value h hx
    cases es with
    | nil =>
      exfalso
      apply hne
      have := congrArg List.head? hd
      simpa [pairsText, List.head?_drop] using this
    | cons kv es =>
      obtain ⟨k, v⟩ := kv
      refine ⟨x + k.text.length, ⟨n, k, (hl k v (by simp)).1, ?_, rfl⟩, ?_⟩
      · rw [← List.drop_drop, hd]; simp [pairsText]
      · simp only [pairsText, List.length_append] at he; omega
  · obtain ⟨n, es, hl, hd, he⟩ := entry_value h hk
    obtain ⟨n1, d1, l1, g1, f1⟩ := hx
    rw [g1] at hd
    cases es with
    | nil => exact absurd hd (text_head_125 d1 _ _)
    | cons kv es =>
      obtain ⟨k, v⟩ := kv
      simp only [pairsText, List.append_assoc] at hd
      obtain ⟨e1, hd1⟩ := lax_unique l1 (hl k v (by simp)).1 hd
      subst e1
      refine ⟨x + v.text.length, ⟨n, v, (hl d1 v (by simp)).2, ?_, rfl⟩, ?_⟩
      · rw [← List.drop_drop, hd1]; simp
      · simp only [pairsText, List.length_append] at he; omega

/-- Entries come in an order. -/
inductive NthEntry (b : Bytes) (c : Nat) : Nat → Nat → Prop
  | first {u} : HeadAt b c u → NthEntry b c 0 u
  | next {i u k v} : NthEntry b c i u → ValueAt b u k → ValueAt b k v → NthEntry b c (i + 1) v

theorem entry_nth (h : EntryAt b c x) : ∃ i, NthEntry b c i x := by
  induction h with
  | first h => exact ⟨0, .first h⟩
  | next _ h1 h2 ih => obtain ⟨i, hi⟩ := ih; exact ⟨i + 1, .next hi h1 h2⟩

theorem nth_unique {i : Nat} (h : NthEntry b c i x) (h' : NthEntry b c i y) : x = y := by
  induction h generalizing y with
  | first h => cases h' with | first h' => exact head_unique h h'
  | next _ h1 h2 ih =>
    cases h' with
    | next g0 g1 g2 =>
      cases ih g0
      cases value_unique h1 g1
      exact value_unique h2 g2

theorem nth_before {i j : Nat} (h : NthEntry b c i x) (h' : NthEntry b c j y) (hij : i < j) : ∃ k e, ValueAt b x k ∧ ValueAt b k e ∧ e ≤ y := by
  induction h' generalizing i x with
  | first => omega
  | @next j x' k _ h0 h1 h2 ih =>
    by_cases hj : i = j
    · subst hj
      cases nth_unique h h0
      exact ⟨k, _, h1, h2, Nat.le_refl _⟩
    · obtain ⟨k', e, g1, g2, g3⟩ := ih h (by omega)
      have := value_gt h1; have := value_gt h2
      exact ⟨k', e, g1, g2, by omega⟩

theorem entry_order (h : EntryAt b c x) (h' : EntryAt b c y) :
    x = y ∨ (∃ k e, ValueAt b x k ∧ ValueAt b k e ∧ e ≤ y) ∨ ∃ k e, ValueAt b y k ∧ ValueAt b k e ∧ e ≤ x := by
  obtain ⟨i, hi⟩ := entry_nth h
  obtain ⟨j, hj⟩ := entry_nth h'
  rcases Nat.lt_trichotomy i j with hij | rfl | hij
  · exact .inr (.inl (nth_before hi hj hij))
  · exact .inl (nth_unique hi hj)
  · exact .inr (.inr (nth_before hj hi hij))

/-- A value between two keys is complete. -/
theorem child_order (h : Child b c x) (h' : Child b c y) (hxy : x < y) : ∃ e, ValueAt b x e ∧ e ≤ y := by
  rcases h with ⟨h, -⟩ | ⟨k, hk, h⟩ <;> rcases h' with ⟨h', -⟩ | ⟨k', hk', h'⟩
  · rcases entry_order h h' with rfl | ⟨k, e, g1, g2, g3⟩ | ⟨k, e, g1, g2, g3⟩
    · omega
    · have := value_gt g2; exact ⟨k, g1, by omega⟩
    · have := value_gt g1; have := value_gt g2; omega
  · rcases entry_order h hk' with rfl | ⟨k, e, g1, g2, g3⟩ | ⟨k, e, g1, g2, g3⟩
    · exact ⟨y, h', Nat.le_refl _⟩
    · have := value_gt g2; have := value_gt h'; exact ⟨k, g1, by omega⟩
    · have := value_unique g1 h'; subst this; have := value_gt g2; omega
  · rcases entry_order hk h' with rfl | ⟨k, e, g1, g2, g3⟩ | ⟨k, e, g1, g2, g3⟩
    · have := value_gt h; omega
    · have := value_unique g1 h; subst this; exact ⟨e, g2, g3⟩
    · have := value_gt g1; have := value_gt g2; have := value_gt h; omega
  · rcases entry_order hk hk' with rfl | ⟨k, e, g1, g2, g3⟩ | ⟨k, e, g1, g2, g3⟩
    · have := value_unique h h'; omega
    · have := value_unique g1 h; subst this; have := value_gt h'; exact ⟨e, g2, by omega⟩
    · have := value_unique g1 h'; subst this; have := value_gt g2; have := value_gt h; omega

/-- A key is not at the position of a value. -/
theorem key_not_value {k : Nat} (h : EntryAt b c x) (hk : EntryAt b c k) (hv : ValueAt b k x) : False := by
  have := value_gt hv
  rcases entry_order h hk with rfl | ⟨k', e, g1, g2, g3⟩ | ⟨k', e, g1, g2, g3⟩
  · omega
  · have := value_gt g1; have := value_gt g2; omega
  · have := value_unique g1 hv; subst this; have := value_gt g2; omega

theorem value_key_unique {k k' : Nat} (hk : EntryAt b c k) (hv : ValueAt b k x) (hk' : EntryAt b c k') (hv' : ValueAt b k' x) : k = k' := by
  have := value_gt hv; have := value_gt hv'
  rcases entry_order hk hk' with h | ⟨k1, e, g1, g2, g3⟩ | ⟨k1, e, g1, g2, g3⟩
  · exact h
  · have := value_unique g1 hv; subst this; have := value_gt g2; omega
  · have := value_unique g1 hv'; subst this; have := value_gt g2; omega

/-- `x` is the position of something inside the value at `c`. -/
inductive Inside (b : Bytes) (c : Nat) : Nat → Prop
  | refl : Inside b c c
  | step {p x} : Inside b c p → Child b p x → Inside b c x

theorem inside_le (h : Inside b c x) : c ≤ x := by
  induction h with
  | refl => exact Nat.le_refl _
  | step _ h ih => have := child_gt h; omega

theorem inside_in (h : ValueAt b c e) (hx : Inside b c x) : ∃ e', ValueAt b x e' ∧ e' ≤ e := by
  induction hx with
  | refl => exact ⟨e, h, Nat.le_refl _⟩
  | step _ hc ih =>
    obtain ⟨e1, h1, h2⟩ := ih
    obtain ⟨e2, h3, h4⟩ := child_in h1 hc
    exact ⟨e2, h3, by omega⟩

theorem inside_first (h : Inside b c x) : x = c ∨ ∃ p, Child b c p ∧ Inside b p x := by
  induction h with
  | refl => exact .inl rfl
  | step hp hc ih =>
    rename_i p x
    rcases ih with rfl | ⟨q, h1, h2⟩
    · exact .inr ⟨x, hc, .refl⟩
    · exact .inr ⟨q, h1, .step h2 hc⟩

/-- Of two positions the first contains the second or is that of a value that ends before it. -/
theorem inside_order {r : Nat} (y : Nat) : ∀ x, Inside b r x → Inside b r y → x < y → Inside b x y ∨ ∃ e, ValueAt b x e ∧ e ≤ y := by
  induction y using Nat.strongRecOn with
  | _ y ih =>
    intro x hx hy hxy
    cases hy with
    | refl => have := inside_le hx; omega
    | @step p _ hp hc =>
      have hpy := child_gt hc
      rcases Nat.lt_trichotomy x p with h | rfl | h
      · rcases ih p hpy x hx hp h with h1 | ⟨e, h1, h2⟩
        · exact .inl (.step h1 hc)
        · exact .inr ⟨e, h1, by omega⟩
      · exact .inl (.step .refl hc)
      · rcases ih x hxy p hp hx h with h1 | ⟨e, h1, h2⟩
        · rcases inside_first h1 with rfl | ⟨q, hq, hqx⟩
          · omega
          · have := inside_le hqx
            obtain ⟨e, he, hle⟩ := child_order hq hc (by omega)
            obtain ⟨e', he', hle'⟩ := inside_in he hqx
            exact .inr ⟨e', he', by omega⟩
        · obtain ⟨e', he', hle'⟩ := child_in h1 hc
          have := value_gt he'
          omega

theorem parent_lt {r p q : Nat} (hp : Inside b r p) (hq : Inside b r q) (h : Child b p x) (h' : Child b q x) (hpq : p < q) : False := by
  have hqx := child_gt h'
  rcases inside_order q p hp hq hpq with h1 | ⟨e, h1, h2⟩
  · rcases inside_first h1 with rfl | ⟨u, hu, huq⟩
    · omega
    · have := inside_le huq
      obtain ⟨e, he, hle⟩ := child_order hu h (by omega)
      obtain ⟨e1, he1, hle1⟩ := inside_in he huq
      obtain ⟨e2, he2, hlt⟩ := child_in he1 h'
      have := value_gt he2
      omega
  · obtain ⟨e', he', hlt⟩ := child_in h1 h
    have := value_gt he'
    omega

theorem parent_unique {r p q : Nat} (hp : Inside b r p) (hq : Inside b r q) (h : Child b p x) (h' : Child b q x) : p = q := by
  rcases Nat.lt_trichotomy p q with hpq | hpq | hpq
  · exact (parent_lt hp hq h h' hpq).elim
  · exact hpq
  · exact (parent_lt hq hp h' h hpq).elim

/-! ### Places -/

/-- The place of a key or value in the array or object at `p`. -/
inductive Step (W : World) (b : Bytes) (t : Ty) (p : Nat) (n : Names) : Ty → Nat → Names → Prop
  | slice {e c1 c2} : Plain W t (.slice e) → EntryAt b p c1 → ValueAt b c1 c2 → Step W b t p n e c2 n
  | array {l e c1 c2} : Plain W t (.array l e) → EntryAt b p c1 → ValueAt b c1 c2 → Step W b t p n e c2 n
  | mapKey {k v c1} : Plain W t (.map k v) → KeyAt b p c1 → Step W b t p n k c1 n
  | mapVal {k v c1 c2} : Plain W t (.map k v) → EntryAt b p c1 → ValueAt b c1 c2 → Step W b t p n v c2 n
  | anyKey {c1} : IsIface W t → KeyAt b p c1 → Step W b t p n .any c1 n
  | anyVal {c1 c2} : IsIface W t → EntryAt b p c1 → ValueAt b c1 c2 → Step W b t p n .any c2 n
  | structKey {id c1} : Plain W t (.struct id) → KeyAt b p c1 → Step W b t p n .str c1 n
  | field {id c1 c2 kd key i f} : Plain W t (.struct id) → EntryAt b p c1 → FieldKey kd key → At b c1 kd c2 → FieldFor W id key i f →
      Step W b t p n f.ty c2 ⟨W.typeName t, f.name⟩

theorem at_fieldKey {kd : Doc} {key : Bytes} (h : At b c kd x) (hk : FieldKey kd key) : ValueAt b c x := ⟨0, kd, lax_fieldKey hk, h⟩

theorem step_child {t t' : Ty} {p : Nat} {n n' : Names} (h : Step W b t p n t' x n') : Child b p x := by
  cases h with
  | slice _ h1 h2 | array _ h1 h2 | mapVal _ h1 h2 | anyVal _ h1 h2 => exact .inr ⟨_, h1, h2⟩
  | mapKey _ h | anyKey _ h | structKey _ h => exact .inl h
  | field _ h1 hk h2 => exact .inr ⟨_, h1, at_fieldKey h2 hk⟩

theorem step_unique {t t1 t2 : Ty} {p : Nat} {n n1 n2 : Names} (h : Step W b t p n t1 x n1) (h' : Step W b t p n t2 x n2) : t1 = t2 ∧ n1 = n2 := by
  cases h <;> cases h'
  case slice.slice h _ _ _ h' _ => have := h.2.symm.trans h'.2; simp at this; exact ⟨this, rfl⟩
  case array.array h _ _ _ _ h' _ => have := h.2.symm.trans h'.2; simp at this; exact ⟨this.2, rfl⟩
  case mapKey.mapKey h _ _ h' _ => have := h.2.symm.trans h'.2; simp at this; exact ⟨this.1, rfl⟩
  case mapVal.mapVal h _ _ _ _ h' _ => have := h.2.symm.trans h'.2; simp at this; exact ⟨this.2, rfl⟩
  case anyKey.anyKey => exact ⟨rfl, rfl⟩
  case anyVal.anyVal => exact ⟨rfl, rfl⟩
  case structKey.structKey => exact ⟨rfl, rfl⟩
  case field.field id c1 kd key i f h1 h2 h3 h4 h5 id' c1' kd' key' i' f' g1 g2 g3 g4 g5 =>
    have := h1.2.symm.trans g1.2
    simp at this
    subst this
    cases value_key_unique h2 (at_fieldKey h5 h3) g2 (at_fieldKey g5 g3)
    obtain ⟨rfl, -⟩ := lax_unique (n := 0) (m := 0) (lax_fieldKey h3) (lax_fieldKey g3) (h5.1.symm.trans g5.1)
    cases fieldKey_unique h3 g3
    obtain ⟨-, rfl⟩ := fieldFor_unique h4 g4
    exact ⟨rfl, rfl⟩
  all_goals exfalso
  all_goals first
    | exact key_not_value (‹KeyAt b p x›).1 ‹EntryAt b p _› ‹ValueAt b _ x›
    | exact key_not_value (‹KeyAt b p x›).1 ‹EntryAt b p _› (at_fieldKey ‹At b _ _ x› ‹FieldKey _ _›)
    | (simp only [Plain, IsIface] at *; simp_all; done)

/-- A type that is reached through pointers. -/
inductive PtrTo (W : World) (t : Ty) : Ty → Prop
  | refl : PtrTo W t t
  | step {u e} : PtrTo W t u → Plain W u (.ptr e) → PtrTo W t e

/-- Where a value starts, before the pointers. -/
def Start (W : World) (b : Bytes) (t0 t : Ty) (c : Nat) (n : Names) : Prop :=
  (t = t0 ∧ c = 0 ∧ n = ⟨[], []⟩) ∨ ∃ tp p np, Spot W b t0 tp p np ∧ Step W b tp p np t c n

theorem place_start {t : Ty} {n : Names} (h : Spot W b t0 t c n) : ∃ t1, Start W b t0 t1 c n ∧ PtrTo W t1 t := by
  induction h with
  | top => exact ⟨t0, .inl ⟨rfl, rfl, rfl⟩, .refl⟩
  | ptr _ hp ih => obtain ⟨t1, h1, h2⟩ := ih; exact ⟨t1, h1, .step h2 hp⟩
  | slice h h1 h2 h3 => exact ⟨_, .inr ⟨_, _, _, h, .slice h1 h2 h3⟩, .refl⟩
  | array h h1 h2 h3 => exact ⟨_, .inr ⟨_, _, _, h, .array h1 h2 h3⟩, .refl⟩
  | mapKey h h1 h2 => exact ⟨_, .inr ⟨_, _, _, h, .mapKey h1 h2⟩, .refl⟩
  | mapVal h h1 h2 h3 => exact ⟨_, .inr ⟨_, _, _, h, .mapVal h1 h2 h3⟩, .refl⟩
  | anyKey h h1 h2 => exact ⟨_, .inr ⟨_, _, _, h, .anyKey h1 h2⟩, .refl⟩
  | anyVal h h1 h2 h3 => exact ⟨_, .inr ⟨_, _, _, h, .anyVal h1 h2 h3⟩, .refl⟩
  | structKey h h1 h2 => exact ⟨_, .inr ⟨_, _, _, h, .structKey h1 h2⟩, .refl⟩
  | field h h1 h2 h3 h4 h5 h6 => exact ⟨_, .inr ⟨_, _, _, h, .field h1 h2 h3 ⟨h4, h5⟩ h6⟩, .refl⟩

theorem start_inside_of (hi : ∀ {t p n}, p < c → Spot W b t0 t p n → Inside b 0 p) {t : Ty} {n : Names} (h : Start W b t0 t c n) : Inside b 0 c := by
  rcases h with ⟨-, rfl, -⟩ | ⟨tp, p, np, h1, h2⟩
  · exact .refl
  · exact .step (hi (child_gt (step_child h2)) h1) (step_child h2)

theorem place_inside (c : Nat) : ∀ t n, Spot W b t0 t c n → Inside b 0 c := by
  induction c using Nat.strongRecOn with
  | _ c ih =>
    intro t n h
    obtain ⟨t1, h1, -⟩ := place_start h
    exact start_inside_of (fun hp h => ih _ hp _ _ h) h1

theorem ptrTo_total {t u v : Ty} (h : PtrTo W t u) (h' : PtrTo W t v) : PtrTo W u v ∨ PtrTo W v u := by
  induction h with
  | refl => exact .inl h'
  | step _ hp ih =>
    rcases ih with h | h
    · rename_i u e _
      have : ∀ v, PtrTo W u v → v = u ∨ PtrTo W e v := by
        intro v hv
        induction hv with
        | refl => exact .inl rfl
        | step _ hq ih =>
          rcases ih with rfl | ih
          · have := hp.2.symm.trans hq.2; simp at this; subst this; exact .inr .refl
          · exact .inr (.step ih hq)
      rcases this v h with rfl | h
      · exact .inr (.step .refl hp)
      · exact .inl h
    · exact .inr (.step h hp)

theorem ptrTo_stuck {u v : Ty} (h : PtrTo W u v) (hu : ∀ e, ¬ Plain W u (.ptr e)) : v = u := by
  induction h with
  | refl => rfl
  | step _ hp ih => subst ih; exact absurd hp (hu _)

theorem step_stuck {t t' : Ty} {p : Nat} {n n' : Names} (h : Step W b t p n t' x n') : ∀ e, ¬ Plain W t (.ptr e) := by
  intro e he
  have he := he.2
  cases h with
  | slice h | array h | mapKey h | mapVal h | structKey h | field h => have := h.2; rw [he] at this; cases this
  | anyKey h | anyVal h => rcases h with h | ⟨i, h⟩ <;> (have := h.2; rw [he] at this; cases this)

theorem start_unique (c : Nat) : ∀ t n t' n', Start W b t0 t c n → Start W b t0 t' c n' → t = t' ∧ n = n' := by
  induction c using Nat.strongRecOn with
  | _ c ih =>
    rintro t n t' n' (⟨rfl, rfl, rfl⟩ | ⟨tp, p, np, h1, h2⟩) (⟨rfl, h0, rfl⟩ | ⟨tp', p', np', h1', h2'⟩)
    · exact ⟨rfl, rfl⟩
    · exact absurd (child_gt (step_child h2')) (by omega)
    · exact absurd (child_gt (step_child h2)) (by omega)
    · have hpp := parent_unique (place_inside _ _ _ h1) (place_inside _ _ _ h1') (step_child h2) (step_child h2')
      subst hpp
      obtain ⟨s, hs, hs1⟩ := place_start h1
      obtain ⟨s', hs', hs1'⟩ := place_start h1'
      obtain ⟨rfl, rfl⟩ := ih p (child_gt (step_child h2)) _ _ _ _ hs hs'
      have : tp = tp' := by
        rcases ptrTo_total hs1 hs1' with h | h
        · exact (ptrTo_stuck h (step_stuck h2)).symm
        · exact ptrTo_stuck h (step_stuck h2')
      subst this
      exact step_unique h2 h2'

theorem place_unique {t t' : Ty} {n n' : Names} (h : Spot W b t0 t c n) (h' : Spot W b t0 t' c n') : n = n' ∧ (PtrTo W t t' ∨ PtrTo W t' t) := by
  obtain ⟨s, hs, h1⟩ := place_start h
  obtain ⟨s', hs', h1'⟩ := place_start h'
  obtain ⟨rfl, rfl⟩ := start_unique c _ _ _ _ hs hs'
  exact ⟨rfl, ptrTo_total h1 h1'⟩

end Verif

import Verif.Spec.Container
import Verif.Proofs.ScalarFacts
/-
What the entries of arrays, slices and maps add up to.
-/
set_option linter.unusedSimpArgs false
namespace Verif
open Spec

/-! ### Indices -/

theorem intVal_digits {ds : Bytes} (h : IsDigits ds) : intVal ds = digitsVal ds := by
  unfold intVal
  split
  · have := h.2 45 (by simp)
    simp [IsDigit] at this
  · rfl

theorem intVal_text {txt : Bytes} {i : Int} (h : IntText txt i) : intVal txt = i := by
  cases h with
  | pos h => exact intVal_digits h
  | neg h => rfl

theorem docsAt_cons_eq {txt : Bytes} {i : Nat} {d : Doc} {es : List (Doc × Doc)} (h : IntText txt (i : Nat)) :
    docsAt ((.int txt, d) :: es) i = d :: docsAt es i := by
  simp [docsAt, docIndex, intVal_text h]

theorem docsAt_cons_ne {txt : Bytes} {i j : Nat} {d : Doc} {es : List (Doc × Doc)} (h : IntText txt (i : Nat)) (hj : i ≠ j) :
    docsAt ((.int txt, d) :: es) j = docsAt es j := by
  have : ((i : Nat) : Int) ≠ (j : Nat) := by omega
  simp [docsAt, docIndex, intVal_text h, this]

theorem indexDoc_unique {k : Doc} {i j : Nat} (h : IndexDoc k i) (h' : IndexDoc k j) : i = j := by
  obtain ⟨t, rfl, h1, -⟩ := h
  obtain ⟨t', h2, h3, -⟩ := h'
  cases h2
  have := (intVal_text h1).symm.trans (intVal_text h3)
  omega

theorem chain_nil {dec : Doc → Val → Val → Prop} {a b : Val} (h : Chain dec [] a b) : b = a := by
  cases h; rfl

theorem decArr_iff {W : World} {e : Ty} {n : Nat} {es : List (Doc × Doc)} {vs vs' : List Val} : DecArr W e n es vs vs' ↔
    vs'.length = vs.length ∧ (∀ p ∈ es, ∃ i, IndexDoc p.1 i ∧ (vs.length ≤ i → Strict n p.2)) ∧
    ∀ (i : Nat) (a b : Val), vs[i]? = some a → vs'[i]? = some b → Chain (DecDoc W e n) (docsAt es i) a b := by
  induction es generalizing vs with
  | nil =>
    constructor
    · intro h; cases h
      exact ⟨rfl, by simp, fun i a b h h' => by rw [h] at h'; cases h'; exact .nil⟩
    · rintro ⟨h1, -, h2⟩
      have : vs' = vs := by
        refine List.ext_getElem? fun i => ?_
        by_cases hi : i < vs.length
        · have := h2 i _ _ (List.getElem?_eq_getElem hi) (List.getElem?_eq_getElem (by omega))
          rw [List.getElem?_eq_getElem hi, List.getElem?_eq_getElem (by omega : i < vs'.length), chain_nil this]
        · rw [List.getElem?_eq_none (by omega), List.getElem?_eq_none (by omega)]
      subst this; exact .nil
  | cons p es ih =>
    constructor
    · intro h
      cases h with
      | @store _ _ txt i d _ _ v0 v _ h1 h2 h3 h4 h5 =>
        have hi := (List.getElem?_eq_some_iff.1 h3).1
        obtain ⟨a1, a2, a3⟩ := ih.1 h5
        rw [List.length_set] at a1 a2
        refine ⟨a1, ?_, ?_⟩
        · intro q hq
          rcases List.mem_cons.1 hq with rfl | hq
          · exact ⟨i, ⟨txt, rfl, h1, h2⟩, by omega⟩
          · exact a2 q hq
        · intro j a b ha hb
          by_cases hij : i = j
          · subst hij
            rw [h3] at ha; cases ha
            rw [docsAt_cons_eq h1]
            exact .cons h4 (a3 i v b (List.getElem?_set_self hi) hb)
          · rw [docsAt_cons_ne h1 hij]
            exact a3 j a b (by rw [List.getElem?_set_ne hij]; exact ha) hb
      | @skip _ _ txt i d _ _ _ h1 h2 h3 h4 h5 =>
        obtain ⟨a1, a2, a3⟩ := ih.1 h5
        refine ⟨a1, ?_, ?_⟩
        · intro q hq
          rcases List.mem_cons.1 hq with rfl | hq
          · exact ⟨i, ⟨txt, rfl, h1, h2⟩, fun _ => h4⟩
          · exact a2 q hq
        · intro j a b ha hb
          have hij : i ≠ j := by
            rintro rfl
            have := (List.getElem?_eq_some_iff.1 ha).1
            omega
          rw [docsAt_cons_ne h1 hij]
          exact a3 j a b ha hb
    · rintro ⟨a1, a2, a3⟩
      obtain ⟨k, d⟩ := p
      obtain ⟨i, ⟨txt, rfl, h1, h2⟩, hs⟩ := a2 _ List.mem_cons_self
      have a2' : ∀ p ∈ es, ∃ i, IndexDoc p.1 i ∧ (vs.length ≤ i → Strict n p.2) := fun p hp => a2 p (List.mem_cons_of_mem _ hp)
      by_cases hi : i < vs.length
      · have h := a3 i _ _ (List.getElem?_eq_getElem hi) (List.getElem?_eq_getElem (by omega))
        rw [docsAt_cons_eq h1] at h
        cases h with
        | @cons _ _ _ m _ hd hc =>
          refine .store h1 h2 (List.getElem?_eq_getElem hi) hd (ih.2 ⟨by simp [a1], by simpa using a2', ?_⟩)
          intro j a b ha hb
          by_cases hij : i = j
          · subst hij
            rw [List.getElem?_set_self hi] at ha; cases ha
            rw [List.getElem?_eq_getElem (by omega)] at hb; cases hb
            exact hc
          · rw [List.getElem?_set_ne hij] at ha
            have := a3 j a b ha hb
            rwa [docsAt_cons_ne h1 hij] at this
      · refine .skip h1 h2 (by omega) (hs (by omega)) (ih.2 ⟨a1, a2', ?_⟩)
        intro j a b ha hb
        have := a3 j a b ha hb
        have hij : i ≠ j := by
          rintro rfl
          have := (List.getElem?_eq_some_iff.1 ha).1
          omega
        rwa [docsAt_cons_ne h1 hij] at this

theorem padTo_length (z : Val) (i : Nat) (vs : List Val) : (padTo z i vs).length = max vs.length (i + 1) := by
  simp [padTo]; omega

/-- The value at a position of a slice that may not exist yet. -/
def getZ (z : Val) (vs : List Val) (i : Nat) : Val := vs[i]?.getD z

theorem getZ_padTo {z : Val} {i j : Nat} {vs : List Val} : getZ z (padTo z i vs) j = getZ z vs j := by
  unfold getZ padTo
  by_cases hj : j < vs.length
  · rw [List.getElem?_append_left hj]
  · rw [List.getElem?_append_right (by omega), List.getElem?_replicate, List.getElem?_eq_none (l := vs) (by omega)]
    split <;> rfl

theorem getZ_set {z v : Val} {i j : Nat} {vs : List Val} :
    getZ z ((padTo z i vs).set i v) j = if i = j then v else getZ z vs j := by
  have hlt : i < (padTo z i vs).length := by rw [padTo_length]; omega
  split
  · rename_i h; subst h
    simp [getZ, List.getElem?_set_self hlt]
  · rename_i h
    rw [← getZ_padTo (i := i) (j := j) (vs := vs)]; simp only [getZ]; rw [List.getElem?_set_ne h]

theorem decElems_iff {W : World} {e : Ty} {n : Nat} {es : List (Doc × Doc)} {vs vs' : List Val}
    (hfit : esize W e * vs.length ≤ 2 ^ 48 ∧ vs.length < 2 ^ 63) : DecElems W e n es vs vs' ↔
    (∀ p ∈ es, ∃ i, IndexDoc p.1 i ∧ i < vs'.length ∧ i + 1 < 2 ^ 63 ∧ esize W e * (i + 1) ≤ 2 ^ 48) ∧
    (vs'.length = vs.length ∨ ∃ p ∈ es, ∃ i, IndexDoc p.1 i ∧ vs'.length = i + 1) ∧ vs.length ≤ vs'.length ∧
    ∀ i : Nat, Chain (DecDoc W e n) (docsAt es i) (getZ (W.zero e) vs i) (getZ (W.zero e) vs' i) := by
  induction es generalizing vs with
  | nil =>
    constructor
    · intro h
      cases h
      exact ⟨by simp, .inl rfl, Nat.le_refl _, fun i => .nil⟩
    · rintro ⟨-, h1, -, h2⟩
      have h1 : vs'.length = vs.length := by simpa using h1
      have : vs' = vs := by
        refine List.ext_getElem? fun i => ?_
        by_cases hi : i < vs.length
        · have := h2 i
          simp only [docsAt, List.filter_nil, List.map_nil, getZ] at this
          rw [List.getElem?_eq_getElem hi, List.getElem?_eq_getElem (by omega : i < vs'.length)] at this ⊢
          rw [show vs'[i] = vs[i] from chain_nil this]
        · rw [List.getElem?_eq_none (by omega), List.getElem?_eq_none (by omega)]
      subst this; exact .nil
  | cons p es ih =>
    have hfit' : ∀ i v, (i + 1 < 2 ^ 63 ∧ esize W e * (i + 1) ≤ 2 ^ 48) →
        esize W e * ((padTo (W.zero e) i vs).set i v).length ≤ 2 ^ 48 ∧ ((padTo (W.zero e) i vs).set i v).length < 2 ^ 63 := by
      intro i v ⟨h1, h2⟩
      rw [List.length_set, padTo_length]
      rcases Nat.le_total vs.length (i + 1) with h | h
      · rw [Nat.max_eq_right h]; omega
      · rw [Nat.max_eq_left h]; exact hfit
    constructor
    · intro h
      cases h with
      | @cons _ _ txt i d _ _ v0 v _ h1 h2 h3 h4 h5 h6 =>
        have hsz : i + 1 < 2 ^ 63 ∧ esize W e * (i + 1) ≤ 2 ^ 48 := by
          by_cases hg : vs.length ≤ i
          · exact h3 hg
          · exact ⟨by omega, Nat.le_trans (Nat.mul_le_mul_left _ (by omega)) hfit.1⟩
        obtain ⟨a1, a2, a4, a3⟩ := (ih (hfit' i v hsz)).1 h6
        rw [List.length_set, padTo_length] at a4 a2
        refine ⟨?_, ?_, by omega, ?_⟩
        · intro q hq
          rcases List.mem_cons.1 hq with rfl | hq
          · exact ⟨i, ⟨txt, rfl, h1, h2⟩, by omega, hsz⟩
          · exact a1 q hq
        · rcases a2 with a2 | ⟨q, hq, j, hj⟩
          · by_cases hl : vs.length ≤ i
            · right
              exact ⟨_, List.mem_cons_self, i, ⟨txt, rfl, h1, h2⟩, by omega⟩
            · left; omega
          · exact .inr ⟨q, List.mem_cons_of_mem _ hq, j, hj⟩
        · intro j
          have := a3 j
          rw [getZ_set] at this
          by_cases hij : i = j
          · subst hij
            rw [docsAt_cons_eq h1]
            have hz : getZ (W.zero e) vs i = v0 := by rw [← getZ_padTo (i := i)]; simp [getZ, h4]
            rw [if_pos rfl] at this
            rw [hz]
            exact .cons h5 this
          · rw [docsAt_cons_ne h1 hij]
            rw [if_neg hij] at this
            exact this
    · rintro ⟨a1, a2, a4, a3⟩
      obtain ⟨k, d⟩ := p
      obtain ⟨i, ⟨txt, rfl, h1, h2⟩, hlt, hsz⟩ := a1 _ List.mem_cons_self
      have h := a3 i
      rw [docsAt_cons_eq h1] at h
      generalize hg : getZ (W.zero e) vs' i = g at h
      cases h with
      | @cons _ _ _ m _ hd hc =>
        have hz : (padTo (W.zero e) i vs)[i]? = some (getZ (W.zero e) vs i) := by
          rw [← getZ_padTo (i := i)]
          simp only [getZ]
          rw [List.getElem?_eq_getElem (by rw [padTo_length]; omega)]
          rfl
        refine .cons h1 h2 (fun _ => hsz) hz hd ((ih (hfit' i m hsz)).2 ⟨?_, ?_, ?_, ?_⟩)
        · exact fun p hp => a1 p (List.mem_cons_of_mem _ hp)
        · rw [List.length_set, padTo_length]
          rcases a2 with a2 | ⟨q, hq, j, hj, hl⟩
          · left; omega
          · rcases List.mem_cons.1 hq with rfl | hq
            · left
              have := indexDoc_unique hj ⟨txt, rfl, h1, h2⟩
              omega
            · exact .inr ⟨q, hq, j, hj, hl⟩
        · rw [List.length_set, padTo_length]; omega
        · intro j
          rw [getZ_set]
          by_cases hij : i = j
          · subst hij; rw [if_pos rfl, hg]; exact hc
          · rw [if_neg hij]
            have := a3 j
            rwa [docsAt_cons_ne h1 hij] at this

theorem docsAt_none {es : List (Doc × Doc)} {i : Nat} (h : ∀ p ∈ es, ∃ j, IndexDoc p.1 j ∧ j ≠ i) : docsAt es i = [] := by
  simp only [docsAt, List.map_eq_nil_iff, List.filter_eq_nil_iff]
  intro p hp
  obtain ⟨j, ⟨txt, h1, h2, -⟩, hne⟩ := h p hp
  rw [h1]
  simp only [docIndex, intVal_text h2, beq_iff_eq, Option.some.injEq]
  omega

theorem decElems_iff_nil {W : World} {e : Ty} {n : Nat} {es : List (Doc × Doc)} {vs : List Val} (hne : es ≠ []) : DecElems W e n es [] vs ↔
    (∀ p ∈ es, ∃ i, IndexDoc p.1 i ∧ i < vs.length ∧ i + 1 < 2 ^ 63 ∧ esize W e * (i + 1) ≤ 2 ^ 48) ∧
    (∃ p ∈ es, ∃ i, IndexDoc p.1 i ∧ vs.length = i + 1) ∧
    ∀ i, i < vs.length → ∃ b, vs[i]? = some b ∧ Chain (DecDoc W e n) (docsAt es i) (W.zero e) b := by
  rw [decElems_iff (by simp)]
  constructor
  · rintro ⟨h1, h2, -, h3⟩
    refine ⟨h1, h2.resolve_left fun h => ?_, fun i hi => ?_⟩
    · obtain ⟨p, hp⟩ := List.exists_mem_of_ne_nil _ hne
      obtain ⟨i, -, hi, -⟩ := h1 p hp
      simp at h
      simp [h] at hi
    · refine ⟨_, List.getElem?_eq_getElem hi, ?_⟩
      have := h3 i
      simp only [getZ, List.getElem?_nil, Option.getD_none, List.getElem?_eq_getElem hi, Option.getD_some] at this
      exact this
  · rintro ⟨h1, h2, h3⟩
    refine ⟨h1, .inr h2, by simp, fun i => ?_⟩
    by_cases hi : i < vs.length
    · obtain ⟨b, hb, hc⟩ := h3 i hi
      simp only [getZ, List.getElem?_nil, Option.getD_none, hb, Option.getD_some]
      exact hc
    · rw [docsAt_none fun p hp => by
        obtain ⟨j, hj, hlt, -⟩ := h1 p hp
        exact ⟨j, hj, by omega⟩]
      simp only [getZ, List.getElem?_nil, Option.getD_none, List.getElem?_eq_none (show vs.length ≤ i by omega)]
      exact .nil

/-! ### Go equality -/

theorem or_mask64 {a b m : UInt64} : (a ||| b) &&& m = 0 ↔ a &&& m = 0 ∧ b &&& m = 0 := by
  simp only [← UInt64.toBitVec_inj, UInt64.toBitVec_and, UInt64.toBitVec_or, UInt64.toBitVec_zero, BitVec.and_or_distrib_right,
    BitVec.or_eq_zero_iff]

theorem or_mask32 {a b m : UInt32} : (a ||| b) &&& m = 0 ↔ a &&& m = 0 ∧ b &&& m = 0 := by
  simp only [← UInt32.toBitVec_inj, UInt32.toBitVec_and, UInt32.toBitVec_or, UInt32.toBitVec_zero, BitVec.and_or_distrib_right,
    BitVec.or_eq_zero_iff]

theorem f64Eq_iff {a b : UInt64} : f64Eq a b = true ↔
    (¬ a &&& 0x7FFFFFFFFFFFFFFF > 0x7FF0000000000000) ∧ (¬ b &&& 0x7FFFFFFFFFFFFFFF > 0x7FF0000000000000) ∧
    (a = b ∨ (a &&& 0x7FFFFFFFFFFFFFFF = 0 ∧ b &&& 0x7FFFFFFFFFFFFFFF = 0)) := by
  simp only [f64Eq, Bool.and_eq_true, Bool.not_eq_true', decide_eq_false_iff_not, Bool.or_eq_true, beq_iff_eq, or_mask64, and_assoc]

theorem f32Eq_iff {a b : UInt32} : f32Eq a b = true ↔
    (¬ a &&& 0x7FFFFFFF > 0x7F800000) ∧ (¬ b &&& 0x7FFFFFFF > 0x7F800000) ∧
    (a = b ∨ (a &&& 0x7FFFFFFF = 0 ∧ b &&& 0x7FFFFFFF = 0)) := by
  simp only [f32Eq, Bool.and_eq_true, Bool.not_eq_true', decide_eq_false_iff_not, Bool.or_eq_true, beq_iff_eq, or_mask32, and_assoc]

theorem f64Eq_symm {a b : UInt64} (h : f64Eq a b = true) : f64Eq b a = true := by
  rw [f64Eq_iff] at h ⊢
  obtain ⟨h1, h2, h3⟩ := h
  exact ⟨h2, h1, h3.imp Eq.symm And.symm⟩

theorem f32Eq_symm {a b : UInt32} (h : f32Eq a b = true) : f32Eq b a = true := by
  rw [f32Eq_iff] at h ⊢
  obtain ⟨h1, h2, h3⟩ := h
  exact ⟨h2, h1, h3.imp Eq.symm And.symm⟩

theorem f64Eq_trans {a b c : UInt64} (h : f64Eq a b = true) (h' : f64Eq b c = true) : f64Eq a c = true := by
  rw [f64Eq_iff] at h h' ⊢
  obtain ⟨h1, h2, h3⟩ := h
  obtain ⟨g1, g2, g3⟩ := h'
  refine ⟨h1, g2, ?_⟩
  rcases h3 with rfl | ⟨h3, h4⟩ <;> rcases g3 with rfl | ⟨g3, g4⟩
  · exact .inl rfl
  · exact .inr ⟨g3, g4⟩
  · exact .inr ⟨h3, h4⟩
  · exact .inr ⟨h3, g4⟩

theorem f32Eq_trans {a b c : UInt32} (h : f32Eq a b = true) (h' : f32Eq b c = true) : f32Eq a c = true := by
  rw [f32Eq_iff] at h h' ⊢
  obtain ⟨h1, h2, h3⟩ := h
  obtain ⟨g1, g2, g3⟩ := h'
  refine ⟨h1, g2, ?_⟩
  rcases h3 with rfl | ⟨h3, h4⟩ <;> rcases g3 with rfl | ⟨g3, g4⟩
  · exact .inl rfl
  · exact .inr ⟨g3, g4⟩
  · exact .inr ⟨h3, h4⟩
  · exact .inr ⟨h3, g4⟩

theorem goEq_symm {a b : Val} : a.goEq b = true → b.goEq a = true := by
  refine Val.rec (motive_1 := fun a => ∀ b, a.goEq b = true → b.goEq a = true)
    (motive_2 := fun as => ∀ bs, goEqList as bs = true → goEqList bs as = true) (motive_3 := fun _ => True) (motive_4 := fun _ => True)
    ?_ ?_ ?_ ?_ ?_ ?_ ?_ ?_ ?_ ?_ ?_ ?_ ?_ ?_ ?_ ?_ ?_ ?_ ?_ ?_ ?_ ?_ ?_ a b
  case refine_4 => intro x b h; cases b <;> simp [Val.goEq] at h ⊢; exact f32Eq_symm h
  case refine_5 => intro x b h; cases b <;> simp [Val.goEq] at h ⊢; exact f64Eq_symm h
  case refine_9 => intro es ih b h; cases b <;> simp [Val.goEq] at h ⊢; exact ih _ h
  case refine_14 => intro es ih b h; cases b <;> simp [Val.goEq] at h ⊢; exact ih _ h
  case refine_16 => intro t v ih b h; cases b <;> simp [Val.goEq] at h ⊢; exact ⟨h.1.symm, ih _ h.2⟩
  case refine_19 => intro bs h; cases bs <;> simp [goEqList] at h ⊢
  case refine_20 =>
    intro x xs ihx ihxs bs h
    cases bs <;> simp [goEqList] at h ⊢
    exact ⟨ihx _ h.1, ihxs _ h.2⟩
  case refine_21 => trivial
  case refine_22 => intros; trivial
  case refine_23 => intros; trivial
  all_goals intros; rename_i b h; cases b <;> simp [Val.goEq] at h ⊢ <;> exact h.symm

theorem goEq_trans {a b c : Val} : a.goEq b = true → b.goEq c = true → a.goEq c = true := by
  refine Val.rec (motive_1 := fun a => ∀ b c, a.goEq b = true → b.goEq c = true → a.goEq c = true)
    (motive_2 := fun as => ∀ bs cs, goEqList as bs = true → goEqList bs cs = true → goEqList as cs = true) (motive_3 := fun _ => True) (motive_4 := fun _ => True)
    ?_ ?_ ?_ ?_ ?_ ?_ ?_ ?_ ?_ ?_ ?_ ?_ ?_ ?_ ?_ ?_ ?_ ?_ ?_ ?_ ?_ ?_ ?_ a b c
  case refine_4 => intro x b c h h'; cases b <;> simp [Val.goEq] at h; cases c <;> simp [Val.goEq] at h' ⊢; exact f32Eq_trans h h'
  case refine_5 => intro x b c h h'; cases b <;> simp [Val.goEq] at h; cases c <;> simp [Val.goEq] at h' ⊢; exact f64Eq_trans h h'
  case refine_9 => intro es ih b c h h'; cases b <;> simp [Val.goEq] at h; cases c <;> simp [Val.goEq] at h' ⊢; exact ih _ _ h h'
  case refine_14 => intro es ih b c h h'; cases b <;> simp [Val.goEq] at h; cases c <;> simp [Val.goEq] at h' ⊢; exact ih _ _ h h'
  case refine_16 =>
    intro t v ih b c h h'; cases b <;> simp [Val.goEq] at h; cases c <;> simp [Val.goEq] at h' ⊢
    exact ⟨h.1.trans h'.1, ih _ _ h.2 h'.2⟩
  case refine_19 => intro bs cs h h'; cases bs <;> simp [goEqList] at h; cases cs <;> simp [goEqList] at h' ⊢
  case refine_20 =>
    intro x xs ihx ihxs bs cs h h'
    cases bs <;> simp [goEqList] at h
    cases cs <;> simp [goEqList] at h' ⊢
    exact ⟨ihx _ _ h.1 h'.1, ihxs _ _ h.2 h'.2⟩
  case refine_21 => trivial
  case refine_22 => intros; trivial
  case refine_23 => intros; trivial
  all_goals
    intros; rename_i b c h h'; cases b <;> simp [Val.goEq] at h
    try (cases c <;> simp [Val.goEq] at h' ⊢ <;> exact h.trans h')

/-! ### Maps -/

theorem lookup_mapInsert {q k v : Val} {es : List (Val × Val)} : lookup q (mapInsert k v es) = if k.goEq q then some v else lookup q es := by
  induction es with
  | nil => simp [mapInsert, lookup]
  | cons p es ih =>
    obtain ⟨k', v'⟩ := p
    unfold mapInsert
    by_cases hk : k'.goEq k = true
    · rw [if_pos hk]
      simp only [lookup]
      by_cases hq : k.goEq q = true
      · rw [if_pos hq, if_pos hq]
      · have : ¬ k'.goEq q = true := fun h => hq (goEq_trans (goEq_symm hk) h)
        rw [if_neg hq, if_neg hq, if_neg this]
    · rw [if_neg hk]
      simp only [lookup, ih]
      by_cases hq' : k'.goEq q = true
      · have : ¬ k.goEq q = true := fun h => hk (goEq_trans hq' (goEq_symm h))
        rw [if_pos hq', if_neg this, if_pos hq']
      · rw [if_neg hq', if_neg hq']

theorem lookup_append {q : Val} {xs ys : List (Val × Val)} : lookup q (xs ++ ys) = (lookup q xs).or (lookup q ys) := by
  induction xs with
  | nil => simp [lookup]
  | cons p xs ih =>
    obtain ⟨k, v⟩ := p
    simp only [List.cons_append, lookup]
    split
    · rfl
    · exact ih

/-- The keys and values that the entries of a map decode to. -/
def Decoded (W : World) (k e : Ty) (n : Nat) (es : List (Doc × Doc)) (kvs : List (Val × Val)) : Prop :=
  kvs.length = es.length ∧
  ∀ p ∈ es.zip kvs, DecDoc W k n p.1.1 (W.zero k) p.2.1 ∧ DecDoc W e n p.1.2 (W.zero e) p.2.2 ∧ Hashable p.2.1

theorem decPairs_iff {W : World} {k e : Ty} {n : Nat} (hk : KeyType W k) {es : List (Doc × Doc)} {base new : List (Val × Val)} :
    DecPairs W (.ofType k) e n es base new ↔
    ∃ kvs, Decoded W k e n es kvs ∧ new = kvs.foldl (fun m p => mapInsert p.1 p.2 m) base := by
  induction es generalizing base with
  | nil =>
    constructor
    · intro h; cases h; exact ⟨[], ⟨rfl, by simp⟩, rfl⟩
    · rintro ⟨kvs, ⟨h1, -⟩, rfl⟩
      cases List.length_eq_zero_iff.1 h1
      exact .nil
  | cons p es ih =>
    constructor
    · intro h
      cases h with
      | @key _ _ _ kd d _ kv x _ _ h1 h2 h3 h4 h5 =>
        obtain ⟨kvs, ⟨a1, a2⟩, a3⟩ := ih.1 h5
        refine ⟨(kv, x) :: kvs, ⟨by simp [a1], ?_⟩, a3⟩
        intro p hp
        simp only [List.zip_cons_cons, List.mem_cons] at hp
        rcases hp with rfl | hp
        · exact ⟨h2, h3, h4⟩
        · exact a2 p hp
      | @ptrKey _ p _ _ _ _ _ _ _ h1 h2 h3 =>
        exfalso
        unfold KeyType at hk
        simp [h1.1, h1.2] at hk
    · rintro ⟨kvs, ⟨h1, h2⟩, rfl⟩
      obtain ⟨kd, d⟩ := p
      cases kvs with
      | nil => simp at h1
      | cons q kvs =>
        obtain ⟨kv, x⟩ := q
        obtain ⟨b1, b2, b3⟩ := h2 ((kd, d), (kv, x)) (by simp)
        refine .key hk b1 b2 b3 (ih.2 ⟨kvs, ⟨by simpa using h1, fun p hp => h2 p ?_⟩, rfl⟩)
        simp only [List.zip_cons_cons, List.mem_cons]; exact .inr hp

theorem lookup_foldl {q : Val} {kvs base : List (Val × Val)} :
    lookup q (kvs.foldl (fun m p => mapInsert p.1 p.2 m) base) = (lookupLast q kvs).or (lookup q base) := by
  induction kvs generalizing base with
  | nil => simp [lookupLast, lookup]
  | cons p kvs ih =>
    rw [List.foldl_cons, ih, lookup_mapInsert]
    obtain ⟨k, v⟩ := p
    simp only [lookupLast, List.reverse_cons, lookup_append, lookup]
    cases lookup q kvs.reverse <;> simp
    split <;> rfl

theorem mapInsert_keys {k v : Val} {es : List (Val × Val)} {p : Val × Val} (h : p ∈ mapInsert k v es) : p.1 = k ∨ ∃ q ∈ es, p.1 = q.1 := by
  induction es with
  | nil => simp [mapInsert] at h; left; rw [h]
  | cons e es ih =>
    obtain ⟨k', v'⟩ := e
    unfold mapInsert at h
    split at h
    · rcases List.mem_cons.1 h with h | h
      · left; rw [h]
      · right; exact ⟨p, List.mem_cons_of_mem _ h, rfl⟩
    · rcases List.mem_cons.1 h with h | h
      · right; exact ⟨(k', v'), by simp, by rw [h]⟩
      · rcases ih h with h | ⟨q, hq, h⟩
        · left; exact h
        · right; exact ⟨q, List.mem_cons_of_mem _ hq, h⟩

/-- No two entries have equal keys. -/
def NoDup (es : List (Val × Val)) : Prop := es.Pairwise fun p q => ¬ p.1.goEq q.1 = true

theorem noDup_mapInsert {k v : Val} {es : List (Val × Val)} (h : NoDup es) : NoDup (mapInsert k v es) := by
  induction es with
  | nil => simp [mapInsert, NoDup]
  | cons e es ih =>
    obtain ⟨k', v'⟩ := e
    obtain ⟨h1, h2⟩ := List.pairwise_cons.1 h
    unfold mapInsert
    split
    · rename_i he
      exact List.pairwise_cons.2 ⟨fun p hp hq => h1 p hp (goEq_trans he hq), h2⟩
    · rename_i hne
      refine List.pairwise_cons.2 ⟨fun p hp => ?_, ih h2⟩
      rcases mapInsert_keys hp with he | ⟨q, hq, he⟩
      · rw [he]; exact hne
      · rw [he]; exact h1 q hq

theorem noDup_foldl {kvs base : List (Val × Val)} (h : NoDup base) : NoDup (kvs.foldl (fun m p => mapInsert p.1 p.2 m) base) := by
  induction kvs generalizing base with
  | nil => exact h
  | cons p kvs ih => exact ih (noDup_mapInsert h)

theorem mem_mapInsert_iff {k v : Val} {es : List (Val × Val)} (h : NoDup es) {p : Val × Val} :
    p ∈ mapInsert k v es ↔ p = (k, v) ∨ p ∈ es ∧ ¬ p.1.goEq k = true := by
  induction es with
  | nil => simp [mapInsert]
  | cons e es ih =>
    obtain ⟨k', v'⟩ := e
    obtain ⟨h1, h2⟩ := List.pairwise_cons.1 h
    unfold mapInsert
    by_cases hk : k'.goEq k = true
    · rw [if_pos hk, List.mem_cons, List.mem_cons]
      constructor
      · rintro (hp | hp)
        · exact .inl hp
        · exact .inr ⟨.inr hp, fun hq => h1 p hp (goEq_trans hk (goEq_symm hq))⟩
      · rintro (hp | ⟨rfl | hp, hq⟩)
        · exact .inl hp
        · exact absurd hk hq
        · exact .inr hp
    · rw [if_neg hk, List.mem_cons, List.mem_cons, ih h2]
      constructor
      · rintro (rfl | hp | ⟨hp, hq⟩)
        · exact .inr ⟨.inl rfl, hk⟩
        · exact .inl hp
        · exact .inr ⟨.inr hp, hq⟩
      · rintro (hp | ⟨hp | hp, hq⟩)
        · exact .inr (.inl hp)
        · exact .inl hp
        · exact .inr (.inr ⟨hp, hq⟩)

/-- The entries after inserting a list of pairs: the pairs that no later pair replaces, and the old entries that no pair replaces. -/
theorem mem_foldl_iff {kvs base : List (Val × Val)} (h : NoDup base) {p : Val × Val} :
    p ∈ kvs.foldl (fun m q => mapInsert q.1 q.2 m) base ↔
      (∃ xs ys, kvs = xs ++ p :: ys ∧ ∀ q ∈ ys, ¬ p.1.goEq q.1 = true) ∨ p ∈ base ∧ ∀ q ∈ kvs, ¬ p.1.goEq q.1 = true := by
  induction kvs generalizing base with
  | nil => simp
  | cons a kvs ih =>
    rw [List.foldl_cons, ih (noDup_mapInsert h), mem_mapInsert_iff h]
    constructor
    · rintro (⟨xs, ys, rfl, hy⟩ | ⟨hp | ⟨hp, hq⟩, hr⟩)
      · exact .inl ⟨a :: xs, ys, rfl, hy⟩
      · exact .inl ⟨[], kvs, by rw [hp]; rfl, hr⟩
      · exact .inr ⟨hp, fun q hm => (List.mem_cons.1 hm).elim (fun h => h ▸ hq) (hr q)⟩
    · rintro (⟨xs, ys, he, hy⟩ | ⟨hp, hr⟩)
      · cases xs with
        | nil => cases he; exact .inr ⟨.inl rfl, hy⟩
        | cons x xs => cases he; exact .inl ⟨xs, ys, rfl, hy⟩
      · exact .inr ⟨.inr ⟨hp, hr a List.mem_cons_self⟩, fun q hm => hr q (List.mem_cons_of_mem _ hm)⟩

/-! ### Texts of entries -/

theorem mem_pairs_len {es : List (Doc × Doc)} {k d : Doc} (h : (k, d) ∈ es) : k.text.length + d.text.length ≤ (pairsText es).length := by
  induction es with
  | nil => simp at h
  | cons p es ih =>
    obtain ⟨k', d'⟩ := p
    rcases List.mem_cons.1 h with h | h
    · cases h; simp [pairsText]
    · have := ih h; simp [pairsText]; omega

theorem container_len {d : Doc} {cnt : Bytes} {es : List (Doc × Doc)} (h : Container d cnt es) : (pairsText es).length < d.text.length := by
  cases h <;> simp only [Doc.text, List.length_append, List.length_cons, List.length_nil] <;> omega

theorem decDoc_array_iff {W : World} {t e : Ty} {l n : Nat} {cnt : Bytes} {es : List (Doc × Doc)} {rv v : Val} (hp : Plain W t (.array l e)) :
    DecDoc W t (n + 1) (.arr cnt es) rv v ↔
      (cnt = [48] ∧ es = [] ∨ cnt.head? ≠ some 48 ∧ es ≠ [] ∧ ∃ m, LenText cnt m) ∧
      ∃ vs, v = .arr vs ∧ DecArr W e n es (List.replicate l (W.zero e)) vs := by
  obtain ⟨hu, hr⟩ := hp
  constructor
  · intro h
    cases h
    case arrayEmpty l' e' hp' =>
      cases (hr.symm.trans hp'.2)
      exact ⟨.inl ⟨rfl, rfl⟩, _, rfl, .nil⟩
    case array l' e' m vs hp' h1 h2 h3 h4 =>
      cases (hr.symm.trans hp'.2)
      exact ⟨.inr ⟨h2, h3, _, h1⟩, _, rfl, h4⟩
    all_goals simp_all [Plain]
  · rintro ⟨⟨rfl, rfl⟩ | ⟨h1, h2, m, h3⟩, vs, rfl, h⟩
    · cases h; exact .arrayEmpty ⟨hu, hr⟩
    · exact .array ⟨hu, hr⟩ h3 h1 h2 h

theorem decDoc_slice_iff {W : World} {t e : Ty} {n : Nat} {cnt : Bytes} {es : List (Doc × Doc)} {rv v : Val} (hp : Plain W t (.slice e)) :
    DecDoc W t (n + 1) (.arr cnt es) rv v ↔
      (cnt = [48] ∧ es = [] ∧ v = .sliceNil ∨ cnt.head? ≠ some 48 ∧ es ≠ [] ∧ (∃ m, LenText cnt m ∧ esize W e * m ≤ 2 ^ 48) ∧
      ∃ vs, v = .slice vs ∧ DecElems W e n es [] vs) := by
  obtain ⟨hu, hr⟩ := hp
  constructor
  · intro h
    cases h
    case sliceEmpty e' hp' =>
      cases (hr.symm.trans hp'.2)
      exact .inl ⟨rfl, rfl, rfl⟩
    case slice e' m vs h3 hp' h1 h2 h4 h5 =>
      cases (hr.symm.trans hp'.2)
      exact .inr ⟨h2, h4, ⟨_, h1, h3⟩, _, rfl, h5⟩
    all_goals simp_all [Plain]
  · rintro (⟨rfl, rfl, rfl⟩ | ⟨h1, h2, ⟨m, h3, h4⟩, vs, rfl, h⟩)
    · exact .sliceEmpty ⟨hu, hr⟩
    · exact .slice ⟨hu, hr⟩ h3 h1 h4 h2 h

end Verif

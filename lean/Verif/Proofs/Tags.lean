import Verif.Spec.Decode
import Verif.Model.Decode
/-
The struct tag parser computes the meaning of tags given by the specification.
-/
namespace Verif
open Spec

theorem splitComma_ne_nil (s : Bytes) : splitComma s ≠ [] := by
  cases s with
  | nil => simp [splitComma]
  | cons c cs =>
    simp only [splitComma]
    split
    · simp
    · split <;> simp

theorem splitComma_join (s : Bytes) : joinComma (splitComma s) = s := by
  induction s with
  | nil => rfl
  | cons c cs ih =>
    simp only [splitComma]
    split
    · rename_i h; subst h
      rcases h : splitComma cs with _ | ⟨w, ws⟩
      · exact absurd h (splitComma_ne_nil _)
      · rw [h] at ih; rw [joinComma, ih]; simp; simp
    · rcases h : splitComma cs with _ | ⟨w, ws⟩
      · exact absurd h (splitComma_ne_nil _)
      · rw [h] at ih
        cases ws with
        | nil => simpa [joinComma] using ih
        | cons w' ws => simp only [joinComma] at ih ⊢; simp [ih]

theorem splitComma_mem (s : Bytes) : ∀ w ∈ splitComma s, (44 : Byte) ∉ w := by
  induction s with
  | nil => simp [splitComma]
  | cons c cs ih =>
    simp only [splitComma]
    split
    · simp only [List.mem_cons, forall_eq_or_imp]; exact ⟨by simp, ih⟩
    · rcases h : splitComma cs with _ | ⟨w, ws⟩
      · exact absurd h (splitComma_ne_nil _)
      · rw [h] at ih
        simp only [List.mem_cons, forall_eq_or_imp, not_or] at ih ⊢
        exact ⟨⟨fun h => by simp_all, ih.1⟩, ih.2⟩

theorem splitComma_word {w : Bytes} (h : (44 : Byte) ∉ w) : splitComma w = [w] := by
  induction w with
  | nil => rfl
  | cons c cs ih =>
    simp only [List.mem_cons, not_or] at h
    rw [splitComma, if_neg (fun e => h.1 e.symm), ih h.2]

theorem splitComma_word_cons {w r : Bytes} (h : (44 : Byte) ∉ w) : splitComma (w ++ 44 :: r) = w :: splitComma r := by
  induction w with
  | nil => simp [splitComma]
  | cons c cs ih =>
    simp only [List.mem_cons, not_or] at h
    rw [List.cons_append, splitComma, if_neg (fun e => h.1 e.symm), ih h.2]

theorem splitComma_of_join {ws : List Bytes} (hne : ws ≠ []) (h : ∀ w ∈ ws, (44 : Byte) ∉ w) : splitComma (joinComma ws) = ws := by
  induction ws with
  | nil => simp at hne
  | cons w ws ih =>
    simp only [List.mem_cons, forall_eq_or_imp] at h
    cases ws with
    | nil => simpa [joinComma] using splitComma_word h.1
    | cons w' ws' => rw [joinComma, splitComma_word_cons h.1, ih (by simp) h.2]; simp

theorem tagByteOk_iff {c : Byte} : tagByteOk c = true ↔ KeyChar c := by
  unfold tagByteOk KeyChar
  simp only [Bool.or_eq_true, decide_eq_true_eq, List.contains_iff_mem, tagPunct]
  constructor
  · rintro (((h | h) | h) | h) <;> simp_all
  · rintro (h | h | h | h)
    · exact Or.inl (Or.inl (Or.inr h))
    · exact Or.inl (Or.inr h)
    · exact Or.inr h
    · exact Or.inl (Or.inl (Or.inl h))

theorem isValidTag_iff {W : World} {s : Bytes} : isValidTag W s = true ↔ ValidKey W s := by
  unfold isValidTag ValidKey
  simp only [Bool.and_eq_true, Bool.or_eq_true, List.all_eq_true, decide_eq_true_eq, tagByteOk_iff, Bool.not_eq_true',
    List.isEmpty_eq_false_iff, and_assoc, ne_eq]

theorem applyOpts_eq (st : StructTag) (os : List Bytes) :
    applyOpts st os = { key := st.key, omitEmpty := st.omitEmpty || decide (omitemptyOpt ∈ os),
                        isString := st.isString || decide (stringOpt ∈ os) } := by
  induction os generalizing st with
  | nil => simp [applyOpts]
  | cons o os ih =>
    simp only [applyOpts]
    have hne : omitemptyOpt ≠ stringOpt := by decide
    split
    · rename_i h; subst h
      rw [ih]; simp [hne.symm]
    · split
      · rename_i h; subst h
        rw [ih]; simp [hne]
      · rename_i h1 h2
        rw [ih]; simp [Ne.symm h1, Ne.symm h2]

theorem structTag_meaning (W : World) (f : Field) :
    TagMeaning W f (structTag W f).key ((structTag W f).omitEmpty = true) ((structTag W f).isString = true) := by
  rcases h : splitComma f.tag with _ | ⟨o, os⟩
  · exact absurd h (splitComma_ne_nil _)
  have hm := splitComma_mem f.tag
  rw [h] at hm
  simp only [List.mem_cons, forall_eq_or_imp] at hm
  refine ⟨o, os, by rw [← h, splitComma_join], hm.1, hm.2, ?_, ?_, ?_⟩
  · simp only [structTag, h, applyOpts_eq]
    by_cases hv : isValidTag W o = true
    · left
      have := isValidTag_iff.1 hv
      refine ⟨this, ?_⟩
      rw [if_pos]; simp [hv, this.1]
    · right
      refine ⟨fun h' => hv (isValidTag_iff.2 h'), ?_⟩
      rw [if_neg]; simp [hv]
  · simp only [structTag, h, applyOpts_eq, Bool.false_or, decide_eq_true_iff]; rfl
  · simp only [structTag, h, applyOpts_eq, Bool.false_or, decide_eq_true_iff]; rfl

theorem tagMeaning_iff {W : World} {f : Field} {key : Bytes} {om str : Prop} :
    TagMeaning W f key om str ↔ key = (structTag W f).key ∧ (om ↔ (structTag W f).omitEmpty = true) ∧
      (str ↔ (structTag W f).isString = true) := by
  constructor
  · rintro ⟨o, os, h1, h2, h3, h4, h5, h6⟩
    obtain ⟨o', os', g1, g2, g3, g4, g5, g6⟩ := structTag_meaning W f
    have e1 : splitComma f.tag = o :: os := by
      rw [h1]; exact splitComma_of_join (by simp) (by simpa using ⟨h2, h3⟩)
    have e2 : splitComma f.tag = o' :: os' := by
      rw [g1]; exact splitComma_of_join (by simp) (by simpa using ⟨g2, g3⟩)
    rw [e1] at e2; cases e2
    refine ⟨?_, h5.trans g5.symm, h6.trans g6.symm⟩
    rcases h4 with ⟨a, b⟩ | ⟨a, b⟩ <;> rcases g4 with ⟨c, d⟩ | ⟨c, d⟩
    · rw [b, d]
    · exact absurd a c
    · exact absurd c a
    · rw [b, d]
  · rintro ⟨rfl, h1, h2⟩
    obtain ⟨o', os', g1, g2, g3, g4, g5, g6⟩ := structTag_meaning W f
    exact ⟨o', os', g1, g2, g3, g4, h1.trans g5, h2.trans g6⟩

theorem hasKey_iff {W : World} {f : Field} {key : Bytes} : HasKey W f key ↔ (structTag W f).key = key := by
  constructor
  · rintro ⟨om, str, h⟩; exact (tagMeaning_iff.1 h).1.symm
  · rintro rfl; exact ⟨_, _, structTag_meaning W f⟩

theorem hasString_iff {W : World} {f : Field} : HasString W f ↔ (structTag W f).isString = true := by
  constructor
  · rintro ⟨k, om, h⟩; exact (tagMeaning_iff.1 h).2.2.1 trivial
  · intro h; exact ⟨_, _, tagMeaning_iff.2 ⟨rfl, Iff.rfl, by simp [h]⟩⟩

theorem visible_iff {f : Field} : Visible f ↔ isIgnored f = false := by
  unfold Visible isIgnored
  cases f.exported <;> simp

/-! ### The field table of a struct decoder -/

/-- The entry that `fieldSets` (compile.go:271-306) makes for field `f` at position `i`. -/
def mkSet (W : World) (i : Nat) (f : Field) : FieldSet :=
  { key := (structTag W f).key, idx := i, ty := f.ty, str := (structTag W f).isString && stringTagOk W f.ty }

theorem fieldSets_find {W : World} {key : Bytes} {fs : List Field} {k : Nat} :
    (∃ (i : Nat) (f : Field), fs[i]? = some f ∧ isIgnored f = false ∧ (structTag W f).key = key ∧
      (∀ (j : Nat) (g : Field), j < i → fs[j]? = some g → isIgnored g = false → (structTag W g).key ≠ key) ∧
      (fieldSets W k fs).find? (fun s => decide (s.key = key)) = some (mkSet W (k + i) f)) ∨
    ((∀ (j : Nat) (g : Field), fs[j]? = some g → isIgnored g = false → (structTag W g).key ≠ key) ∧
      (fieldSets W k fs).find? (fun s => decide (s.key = key)) = none) := by
  induction fs generalizing k with
  | nil => right; simp [fieldSets]
  | cons f fs ih =>
    by_cases hig : isIgnored f = true
    · rcases @ih (k + 1) with ⟨i, g, h1, h2, h3, h4, h5⟩ | ⟨h1, h2⟩
      · left
        refine ⟨i + 1, g, by simpa using h1, h2, h3, ?_, ?_⟩
        · intro j g' hj hg hi
          cases j with
          | zero => simp at hg; subst hg; simp [hig] at hi
          | succ j => exact h4 j g' (by omega) (by simpa using hg) hi
        · simp only [fieldSets, hig, if_true, h5]; congr 2; omega
      · right
        refine ⟨?_, by simp only [fieldSets, hig, if_true, h2]⟩
        intro j g' hg hi
        cases j with
        | zero => simp at hg; subst hg; simp [hig] at hi
        | succ j => exact h1 j g' (by simpa using hg) hi
    · simp only [Bool.not_eq_true] at hig
      by_cases hk : (structTag W f).key = key
      · left
        refine ⟨0, f, rfl, hig, hk, by simp, ?_⟩
        simp [fieldSets, hig, hk, mkSet]
      · rcases @ih (k + 1) with ⟨i, g, h1, h2, h3, h4, h5⟩ | ⟨h1, h2⟩
        · left
          refine ⟨i + 1, g, by simpa using h1, h2, h3, ?_, ?_⟩
          · intro j g' hj hg hi
            cases j with
            | zero => simp at hg; subst hg; exact hk
            | succ j => exact h4 j g' (by omega) (by simpa using hg) hi
          · simp [fieldSets, hig, hk, h5]; congr 1; omega
        · right
          refine ⟨?_, by simp [fieldSets, hig, hk, h2]⟩
          intro j g' hg hi
          cases j with
          | zero => simp at hg; subst hg; exact hk
          | succ j => exact h1 j g' (by simpa using hg) hi

theorem find_some {W : World} {id : Nat} {key : Bytes} {s : FieldSet}
    (h : (fieldSets W 0 (W.fields id)).find? (fun s => decide (s.key = key)) = some s) :
    ∃ i f, FieldFor W id key i f ∧ s = mkSet W i f := by
  rcases @fieldSets_find W key (W.fields id) 0 with ⟨i, f, h1, h2, h3, h4, h5⟩ | ⟨h1, h2⟩
  · rw [h5] at h; cases h
    refine ⟨i, f, ⟨h1, visible_iff.2 h2, hasKey_iff.2 h3, ?_⟩, by simp⟩
    intro j g hj hg hv hk
    exact h4 j g hj hg (visible_iff.1 hv) (hasKey_iff.1 hk)
  · rw [h2] at h; cases h

theorem find_none {W : World} {id : Nat} {key : Bytes} :
    (fieldSets W 0 (W.fields id)).find? (fun s => decide (s.key = key)) = none ↔ NoField W id key := by
  rcases @fieldSets_find W key (W.fields id) 0 with ⟨i, f, h1, h2, h3, h4, h5⟩ | ⟨h1, h2⟩
  · rw [h5]
    constructor
    · simp
    · intro h; exact absurd (hasKey_iff.2 h3) (h i f h1 (visible_iff.2 h2))
  · rw [h2]
    refine ⟨fun _ j g hg hv hk => h1 j g hg (visible_iff.1 hv) (hasKey_iff.1 hk), fun _ => rfl⟩

theorem fieldFor_unique {W : World} {id : Nat} {key : Bytes} {i j : Nat} {f g : Field}
    (h : FieldFor W id key i f) (h' : FieldFor W id key j g) : i = j ∧ f = g := by
  obtain ⟨a1, a2, a3, a4⟩ := h
  obtain ⟨b1, b2, b3, b4⟩ := h'
  rcases Nat.lt_trichotomy i j with hlt | rfl | hlt
  · exact absurd a3 (b4 i f hlt a1 a2)
  · rw [a1] at b1; cases b1; exact ⟨rfl, rfl⟩
  · exact absurd b3 (a4 j g hlt b1 b2)

theorem find_of_fieldFor {W : World} {id : Nat} {key : Bytes} {i : Nat} {f : Field} (h : FieldFor W id key i f) :
    (fieldSets W 0 (W.fields id)).find? (fun s => decide (s.key = key)) = some (mkSet W i f) := by
  rcases hf : (fieldSets W 0 (W.fields id)).find? (fun s => decide (s.key = key)) with _ | s
  · exact absurd h.2.2.1 (find_none.1 hf i f h.1 h.2.1)
  · obtain ⟨j, g, hg, rfl⟩ := find_some hf
    obtain ⟨rfl, rfl⟩ := fieldFor_unique h hg
    exact hf

theorem stringTagOk_iff {W : World} {t : Ty} : stringTagOk W t = false ↔ StringIgnored W t := by
  unfold stringTagOk StringIgnored
  cases h : W.unmOf t with
  | some id => simp
  | none => cases h' : W.resolve t <;> simp

theorem wrappable_iff {W : World} {t : Ty} : wrappable W t = true ↔ IsScalar W t := by
  unfold wrappable IsScalar Plain
  cases h : W.unmOf t with
  | some id => simp
  | none => cases h' : W.resolve t <;> simp

theorem isScalar_not_ignored {W : World} {t : Ty} (h : IsScalar W t) : ¬ StringIgnored W t := by
  rw [← wrappable_iff] at h
  rw [← stringTagOk_iff]
  unfold wrappable at h
  unfold stringTagOk
  cases h : W.unmOf t with
  | some id => simp_all
  | none => cases h' : W.resolve t <;> simp_all

theorem ptr_not_ignored {W : World} {t e : Ty} (h : Plain W t (.ptr e)) : ¬ StringIgnored W t := by
  rw [← stringTagOk_iff]
  unfold stringTagOk
  simp [h.1, h.2]

end Verif

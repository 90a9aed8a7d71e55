import Verif.Proofs.Php
import Verif.Spec.Lossless
/-
What is lost when a PHP value is read into an `any`.
-/
namespace Verif
open Spec

variable {W : World}

theorem arrVals_map (es : List (PKey × Php)) : arrVals es = es.map fun e => (e.1.val, e.2.val) := by
  induction es with
  | nil => rfl
  | cons e es ih => obtain ⟨k, v⟩ := e; simp [arrVals, ih]

theorem objVals_map (es : List (Bytes × Php)) : objVals es = es.map fun e => (.str e.1, e.2.val) := by
  induction es with
  | nil => rfl
  | cons e es ih => obtain ⟨k, v⟩ := e; simp [objVals, ih]

theorem pkey_val_inj {k k' : PKey} (h : k.val = k'.val) : k = k' := by
  cases k <;> cases k' <;> simp_all [PKey.val]

/-- A reordered image is the image of a reordered list. -/
theorem perm_of_map {α β : Type} {f : α → β} {xs : List α} {ys : List β} (h : ys.Perm (xs.map f)) : ∃ zs : List α, zs.Perm xs ∧ ys = zs.map f := by
  generalize hm : xs.map f = ms at h
  induction h generalizing xs with
  | nil => cases xs with
    | nil => exact ⟨[], .refl _, rfl⟩
    | cons => cases hm
  | cons a _ ih => cases xs with
    | nil => cases hm
    | cons x xs =>
      cases hm
      obtain ⟨zs, h1, rfl⟩ := ih rfl
      exact ⟨x :: zs, h1.cons _, rfl⟩
  | swap a b => match xs, hm with
    | x :: y :: xs, hm => cases hm; exact ⟨y :: x :: xs, .swap .., rfl⟩
  | trans _ _ ih1 ih2 =>
    obtain ⟨zs, h1, rfl⟩ := ih2 hm
    obtain ⟨zs', h2, rfl⟩ := ih1 rfl
    exact ⟨zs', h2.trans h1, rfl⟩

theorem same_of_alike {p p' : Php} (h : AlikePhp p p') : SameAny p.val p'.val := by
  induction h with
  | null => exact .nil
  | bool => exact .bool
  | int => exact .int
  | float => exact .f64
  | str => exact .str
  | @arr es es' fs h1 h2 h3 _ ih =>
    refine .map (n := arrVals fs) (by rw [arrVals_map, arrVals_map]; exact h1.map _) (by simp [arrVals_map, h2]) ?_ ?_ <;>
      rw [arrVals_map, arrVals_map] <;> intro i x y hx hy <;> rw [List.getElem?_map, Option.map_eq_some_iff] at hx hy <;>
      obtain ⟨x, hx, rfl⟩ := hx <;> obtain ⟨y, hy, rfl⟩ := hy
    · exact congrArg PKey.val (h3 i x y hx hy)
    · exact ih i x y hx hy
  | @obj _ _ es es' fs h1 h2 h3 _ ih =>
    refine .map (n := objVals fs) (by rw [objVals_map, objVals_map]; exact h1.map _) (by simp [objVals_map, h2]) ?_ ?_ <;>
      rw [objVals_map, objVals_map] <;> intro i x y hx hy <;> rw [List.getElem?_map, Option.map_eq_some_iff] at hx hy <;>
      obtain ⟨x, hx, rfl⟩ := hx <;> obtain ⟨y, hy, rfl⟩ := hy
    · exact congrArg Val.str (h3 i x y hx hy)
    · exact ih i x y hx hy

theorem php_alike_of_same {v v' : Val} (h : SameAny v v') : ∀ {p p' : Php}, p.val = v → p'.val = v' → AlikePhp p p' := by
  induction h with
  | nil => intro p p' h1 h2; cases p <;> cases h1; cases p' <;> cases h2; exact .null
  | bool => intro p p' h1 h2; cases p <;> cases h1; cases p' <;> cases h2; exact .bool
  | int => intro p p' h1 h2; cases p <;> cases h1; cases p' <;> cases h2; exact .int
  | f64 => intro p p' h1 h2; cases p <;> cases h1; cases p' <;> cases h2; exact .float
  | str => intro p p' h1 h2; cases p <;> cases h1; cases p' <;> cases h2; exact .str
  | @map t m m' n hp hl hk _ ih =>
    intro p p' h1 h2
    cases p with
    | arr es =>
      cases h1
      cases p' <;> cases h2
      rename_i es'
      rw [arrVals_map] at hp
      obtain ⟨fs, h3, rfl⟩ := perm_of_map hp
      rw [arrVals_map] at hl hk ih
      have at1 : ∀ (i : Nat) (x : PKey × Php), es[i]? = some x → (es.map fun e => (e.1.val, e.2.val))[i]? = some (x.1.val, x.2.val) :=
        fun i x hx => by rw [List.getElem?_map, hx]; rfl
      have at2 : ∀ (i : Nat) (x : PKey × Php), fs[i]? = some x → (fs.map fun e => (e.1.val, e.2.val))[i]? = some (x.1.val, x.2.val) :=
        fun i x hx => by rw [List.getElem?_map, hx]; rfl
      exact .arr h3 (by simpa using hl) (fun i x y hx hy => pkey_val_inj (hk i _ _ (at1 i x hx) (at2 i y hy)))
        fun i x y hx hy => ih i _ _ (at1 i x hx) (at2 i y hy) rfl rfl
    | obj c es =>
      cases h1
      cases p' <;> cases h2
      rename_i c' es'
      rw [objVals_map] at hp
      obtain ⟨fs, h3, rfl⟩ := perm_of_map hp
      rw [objVals_map] at hl hk ih
      have at1 : ∀ (i : Nat) (x : Bytes × Php), es[i]? = some x → (es.map fun e => (Val.str e.1, e.2.val))[i]? = some (Val.str x.1, x.2.val) :=
        fun i x hx => by rw [List.getElem?_map, hx]; rfl
      have at2 : ∀ (i : Nat) (x : Bytes × Php), fs[i]? = some x → (fs.map fun e => (Val.str e.1, e.2.val))[i]? = some (Val.str x.1, x.2.val) :=
        fun i x hx => by rw [List.getElem?_map, hx]; rfl
      exact .obj h3 (by simpa using hl) (fun i x y hx hy => Val.str.inj (hk i _ _ (at1 i x hx) (at2 i y hy)))
        fun i x y hx hy => ih i _ _ (at1 i x hx) (at2 i y hy) rfl rfl
    | _ => cases h1

/-! ### Every value read is that of a PHP value -/

/-- Inserting into a list of entries. -/
def phpInsert {κ : Type} [DecidableEq κ] (k : κ) (v : Php) : List (κ × Php) → List (κ × Php)
  | [] => [(k, v)]
  | (k', v') :: es => if k' = k then (k, v) :: es else (k', v') :: phpInsert k v es

section
variable {κ : Type} [DecidableEq κ]

theorem mem_phpInsert {k : κ} {v : Php} {es : List (κ × Php)} {e : κ × Php} (h : e ∈ phpInsert k v es) : e = (k, v) ∨ e ∈ es := by
  induction es with
  | nil => simpa [phpInsert] using h
  | cons x es ih =>
    obtain ⟨k', v'⟩ := x
    simp only [phpInsert] at h
    split at h
    · rcases List.mem_cons.1 h with h | h
      · exact .inl h
      · exact .inr (List.mem_cons_of_mem _ h)
    · rcases List.mem_cons.1 h with h | h
      · exact .inr (h ▸ List.mem_cons_self)
      · exact (ih h).imp id (List.mem_cons_of_mem _)

theorem nodup_phpInsert {k : κ} {v : Php} {es : List (κ × Php)} (h : (es.map (·.1)).Nodup) : ((phpInsert k v es).map (·.1)).Nodup := by
  induction es with
  | nil => simp [phpInsert]
  | cons x es ih =>
    obtain ⟨k', v'⟩ := x
    simp only [List.map_cons, List.nodup_cons] at h
    simp only [phpInsert]
    split
    · rename_i he; subst he; simp only [List.map_cons, List.nodup_cons]; exact h
    · rename_i he
      simp only [List.map_cons, List.nodup_cons]
      refine ⟨fun hm => ?_, ih h.2⟩
      obtain ⟨e, h1, h2⟩ := List.mem_map.1 hm
      rcases mem_phpInsert h1 with rfl | h3
      · exact he h2.symm
      · exact h.1 (h2 ▸ List.mem_map_of_mem h3)

/-- Inserting all entries, one after the other. -/
def phpInsertAll (m es : List (κ × Php)) : List (κ × Php) := es.foldl (fun m e => phpInsert e.1 e.2 m) m

theorem phpInsertAll_spec {es : List (κ × Php)} : ∀ {m : List (κ × Php)}, (m.map (·.1)).Nodup →
    ((phpInsertAll m es).map (·.1)).Nodup ∧ ∀ e ∈ phpInsertAll m es, e ∈ m ∨ e ∈ es := by
  induction es with
  | nil => exact fun h => ⟨h, fun e he => .inl he⟩
  | cons x es ih =>
    intro m h
    have := ih (nodup_phpInsert (k := x.1) (v := x.2) h)
    refine ⟨this.1, fun e he => ?_⟩
    rcases this.2 e he with h1 | h1
    · rcases mem_phpInsert h1 with h2 | h2
      · exact .inr (h2 ▸ List.mem_cons_self)
      · exact .inl h2
    · exact .inr (List.mem_cons_of_mem _ h1)

/-- Insertion does the same to the entries of Go maps, if `f` maps keys to values that are equal for equal keys only. -/
theorem insert_vals {f : κ → Val} (hf : ∀ k k', (f k).goEq (f k') = decide (k = k')) {es : List (κ × Php)} : ∀ {m : List (κ × Php)},
    (es.map fun e => (f e.1, e.2.val)).foldl (fun m p => mapInsert p.1 p.2 m) (m.map fun e => (f e.1, e.2.val)) =
      (phpInsertAll m es).map fun e => (f e.1, e.2.val) := by
  have one : ∀ {k : κ} {v : Php} {m : List (κ × Php)}, mapInsert (f k) v.val (m.map fun e => (f e.1, e.2.val)) = (phpInsert k v m).map fun e => (f e.1, e.2.val) := by
    intro k v m
    induction m with
    | nil => rfl
    | cons x m ih =>
      obtain ⟨k', v'⟩ := x
      simp only [List.map_cons, mapInsert, phpInsert, hf, decide_eq_true_eq]
      split
      · rfl
      · rw [ih]; rfl
  induction es with
  | nil => intro m; rfl
  | cons x es ih =>
    intro m
    simp only [List.map_cons, List.foldl_cons, one]
    exact ih
end

theorem arrDepth_le {es : List (PKey × Php)} {n : Nat} : arrDepth es ≤ n ↔ ∀ e ∈ es, e.2.depth ≤ n := by
  induction es with
  | nil => simp [arrDepth]
  | cons e es ih => obtain ⟨k, v⟩ := e; simp [arrDepth, ih, Nat.max_le]

theorem objDepth_le {es : List (Bytes × Php)} {n : Nat} : objDepth es ≤ n ↔ ∀ e ∈ es, e.2.depth ≤ n := by
  induction es with
  | nil => simp [objDepth]
  | cons e es ih => obtain ⟨k, v⟩ := e; simp [objDepth, ih, Nat.max_le]

theorem pkey_eq {k k' : PKey} : k.val.goEq k'.val = decide (k = k') := by
  cases k <;> cases k' <;> simp [PKey.val, Val.goEq] <;> exact Bool.eq_iff_iff.2 (by simp)

theorem anyKey_php {d : Doc} {v : Val} (h : AnyKey d v) : ∃ k : PKey, k.Ok ∧ k.val = v := by
  cases h with
  | int _ h => exact ⟨.int _, h, rfl⟩
  | str _ => exact ⟨.str _, trivial, rfl⟩

mutual
theorem anyVal_php {d : Doc} {v : Val} : AnyVal W d v → ∃ p : Php, p.Ok W ∧ p.val = v ∧ p.depth ≤ d.depth
  | .null => ⟨.null, .null, rfl, Nat.le_refl _⟩
  | .bool => ⟨.bool _, .bool, rfl, Nat.le_refl _⟩
  | .int _ h => ⟨.int _, .int h, rfl, Nat.le_refl _⟩
  | .float h1 h2 h3 => ⟨.float _ _, .float h1 h2 h3, rfl, Nat.le_refl _⟩
  | .str _ => ⟨.str _, .str, rfl, Nat.le_refl _⟩
  | .arr _ h => by
    obtain ⟨es, h1, h2, h3⟩ := anyArr_php h
    have hs := phpInsertAll_spec (es := es) (m := []) (by simp)
    have hi := insert_vals (f := PKey.val) (fun k k' => pkey_eq) (es := es) (m := [])
    refine ⟨.arr (phpInsertAll [] es), .arr hs.1 (fun k v hm => ?_) (fun k v hm => ?_), ?_, ?_⟩
    · exact (h2 (k, v) ((hs.2 _ hm).resolve_left (by simp))).1
    · exact (h2 (k, v) ((hs.2 _ hm).resolve_left (by simp))).2
    · simp only [Php.val]; rw [arrVals_map, ← hi, ← arrVals_map es, h1]; rfl
    · simp only [Php.depth, Doc.depth, Nat.add_le_add_iff_right]
      exact arrDepth_le.2 fun e he => h3 e ((hs.2 e he).resolve_left (by simp))
  | .obj _ _ h => by
    obtain ⟨es, h1, h2, h3⟩ := anyObj_php h
    have hs := phpInsertAll_spec (es := es) (m := []) (by simp)
    have hi := insert_vals (f := Val.str) (fun k k' => by simp [Val.goEq]; exact Bool.eq_iff_iff.2 (by simp)) (es := es) (m := [])
    refine ⟨.obj [] (phpInsertAll [] es), .obj hs.1 (fun k v hm => ?_), ?_, ?_⟩
    · exact h2 (k, v) ((hs.2 _ hm).resolve_left (by simp))
    · simp only [Php.val]; rw [objVals_map, ← hi, ← objVals_map es, h1]; rfl
    · simp only [Php.depth, Doc.depth, Nat.add_le_add_iff_right]
      exact objDepth_le.2 fun e he => h3 e ((hs.2 e he).resolve_left (by simp))
theorem anyArr_php {es : List (Doc × Doc)} {kvs : List (Val × Val)} : AnyArr W es kvs →
    ∃ ps : List (PKey × Php), arrVals ps = kvs ∧ (∀ e ∈ ps, e.1.Ok ∧ e.2.Ok W) ∧ ∀ e ∈ ps, e.2.depth ≤ pairsDepth es
  | .nil => ⟨[], rfl, by simp, by simp⟩
  | .cons hk hv h => by
    obtain ⟨k, h1, h2⟩ := anyKey_php hk
    obtain ⟨p, h3, h4, h5⟩ := anyVal_php hv
    obtain ⟨ps, h6, h7, h8⟩ := anyArr_php h
    refine ⟨(k, p) :: ps, by simp only [arrVals]; rw [h2, h4, h6], ?_, ?_⟩
    · intro e he
      rcases List.mem_cons.1 he with rfl | he
      · exact ⟨h1, h3⟩
      · exact h7 e he
    · intro e he
      rcases List.mem_cons.1 he with rfl | he
      · simp only [pairsDepth]; omega
      · have := h8 e he; simp only [pairsDepth]; omega
theorem anyObj_php {es : List (Doc × Doc)} {kvs : List (Val × Val)} : AnyObj W es kvs →
    ∃ ps : List (Bytes × Php), objVals ps = kvs ∧ (∀ e ∈ ps, e.2.Ok W) ∧ ∀ e ∈ ps, e.2.depth ≤ pairsDepth es
  | .nil => ⟨[], rfl, by simp, by simp⟩
  | .cons hk hv h => by
    obtain ⟨p, h3, h4, h5⟩ := anyVal_php hv
    obtain ⟨ps, h6, h7, h8⟩ := anyObj_php h
    refine ⟨(_, p) :: ps, by simp only [objVals]; rw [h4, h6], ?_, ?_⟩
    · intro e he
      rcases List.mem_cons.1 he with rfl | he
      · exact h3
      · exact h7 e he
    · intro e he
      rcases List.mem_cons.1 he with rfl | he
      · simp only [pairsDepth]; omega
      · have := h8 e he; simp only [pairsDepth]; omega
end

end Verif

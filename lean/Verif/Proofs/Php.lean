import Verif.Spec.Php
import Verif.Proofs.Containers
import Verif.Proofs.Depth
/-
Decoding into an empty interface.
-/
namespace Verif
open Spec

/-- Insert a list of entries. -/
abbrev insertAll (m : List (Val × Val)) (kvs : List (Val × Val)) : List (Val × Val) := kvs.foldl (fun m p => mapInsert p.1 p.2 m) m

theorem anyPlain {W : World} : Plain W .any .any := ⟨rfl, rfl⟩
theorem strPlain {W : World} : Plain W .str .str := ⟨rfl, rfl⟩

theorem decPairs_any {W : World} {n : Nat} {es : List (Doc × Doc)} {m m' : List (Val × Val)} (ih : ∀ k d, (k, d) ∈ es → ∀ rv v, DecDoc W .any n d rv v → AnyVal W d v)
    (h : DecPairs W .anyKey .any n es m m') : ∃ kvs, AnyArr W es kvs ∧ m' = insertAll m kvs := by
  induction es generalizing m with
  | nil => cases h; exact ⟨[], .nil, rfl⟩
  | cons p es ihl =>
    have ihl := fun m => @ihl m fun k d hm => ih k d (List.mem_cons_of_mem _ hm)
    cases h with
    | anyInt h1 h2 h3 h4 =>
      obtain ⟨kvs, a, rfl⟩ := ihl _ h4
      exact ⟨_ :: kvs, .cons (.int h1 h2) (ih _ _ List.mem_cons_self _ _ h3) a, rfl⟩
    | anyStr h1 h3 h4 =>
      obtain ⟨kvs, a, rfl⟩ := ihl _ h4
      exact ⟨_ :: kvs, .cons (.str h1) (ih _ _ List.mem_cons_self _ _ h3) a, rfl⟩

theorem str_key {W : World} {n : Nat} {d : Doc} {v : Val} : DecDoc W .str n d (W.zero .str) v ↔ ∃ s, FieldKey d s ∧ v = .str s := by
  rw [decDoc_str strPlain]
  constructor
  · rintro (⟨rfl, rfl⟩ | ⟨len, s, rfl, h, rfl⟩)
    · exact ⟨[], .null, rfl⟩
    · exact ⟨_, .str h, rfl⟩
  · rintro ⟨s, h, rfl⟩
    cases h with
    | null => exact .inl ⟨rfl, rfl⟩
    | str h => exact .inr ⟨_, _, rfl, h, rfl⟩

theorem decPairs_strAny {W : World} {n : Nat} {es : List (Doc × Doc)} {m m' : List (Val × Val)} (ih : ∀ k d, (k, d) ∈ es → ∀ rv v, DecDoc W .any n d rv v → AnyVal W d v)
    (h : DecPairs W (.ofType .str) .any n es m m') : ∃ kvs, AnyObj W es kvs ∧ m' = insertAll m kvs := by
  induction es generalizing m with
  | nil => cases h; exact ⟨[], .nil, rfl⟩
  | cons p es ihl =>
    have ihl := fun m => @ihl m fun k d hm => ih k d (List.mem_cons_of_mem _ hm)
    cases h with
    | key h1 h2 h3 h4 h5 =>
      obtain ⟨kvs, a, rfl⟩ := ihl _ h5
      obtain ⟨s, hs, rfl⟩ := str_key.1 h2
      exact ⟨_ :: kvs, .cons hs (ih _ _ List.mem_cons_self _ _ h3) a, rfl⟩
    | ptrKey h1 => simp [Plain, World.resolve] at h1

theorem any_sound {W : World} {n : Nat} {d : Doc} {rv v : Val} (h : DecDoc W .any n d rv v) : AnyVal W d v := by
  induction n generalizing d rv v with
  | zero =>
    cases h
    case anyNull => exact .null
    case anyBool => exact .bool
    case anyInt h1 h2 => exact .int ‹_› ‹_›
    case anyFloat => exact .float ‹_› ‹_› ‹_›
    case anyStr => exact .str ‹_›
    all_goals simp_all [Plain, World.resolve, World.unmOf]
  | succ n ih =>
    cases h
    case anyNull => exact .null
    case anyBool => exact .bool
    case anyInt h1 h2 => exact .int ‹_› ‹_›
    case anyFloat => exact .float ‹_› ‹_› ‹_›
    case anyStr => exact .str ‹_›
    case anyArr =>
      obtain ⟨kvs, a, rfl⟩ := decPairs_any (fun _ _ _ _ _ h => ih h) ‹_›
      exact .arr ‹_› a
    case anyObj =>
      obtain ⟨kvs, a, rfl⟩ := decPairs_strAny (fun _ _ _ _ _ h => ih h) ‹_›
      exact .obj ‹_› ‹_› a
    all_goals simp_all [Plain, World.resolve, World.unmOf]

theorem any_pairs {W : World} {n : Nat} {es : List (Doc × Doc)} {kvs m : List (Val × Val)}
    (ih : ∀ k d, (k, d) ∈ es → ∀ rv v, AnyVal W d v → DecDoc W .any n d rv v)
    (h : AnyArr W es kvs) : DecPairs W .anyKey .any n es m (insertAll m kvs) := by
  induction es generalizing m kvs with
  | nil => cases h; exact .nil
  | cons p es ihl =>
    cases h with
    | cons h1 h2 h3 =>
      have ihl := fun m => @ihl _ m (fun k d hm => ih k d (List.mem_cons_of_mem _ hm)) h3
      cases h1 with
      | int a b => exact .anyInt a b (ih _ _ List.mem_cons_self _ _ h2) (ihl _)
      | str a => exact .anyStr a (ih _ _ List.mem_cons_self _ _ h2) (ihl _)

theorem any_pairs_str {W : World} {n : Nat} {es : List (Doc × Doc)} {kvs m : List (Val × Val)}
    (ih : ∀ k d, (k, d) ∈ es → ∀ rv v, AnyVal W d v → DecDoc W .any n d rv v)
    (h : AnyObj W es kvs) : DecPairs W (.ofType .str) .any n es m (insertAll m kvs) := by
  induction es generalizing m kvs with
  | nil => cases h; exact .nil
  | cons p es ihl =>
    cases h with
    | cons h1 h2 h3 =>
      have ihl := fun m => @ihl _ m (fun k d hm => ih k d (List.mem_cons_of_mem _ hm)) h3
      exact .key (.inr (.inl rfl)) (str_key.2 ⟨_, h1, rfl⟩) (ih _ _ List.mem_cons_self _ _ h2) .str (ihl _)

theorem any_complete {W : World} {n : Nat} {d : Doc} {rv v : Val} (h : AnyVal W d v) (hd : d.depth ≤ n) : DecDoc W .any n d rv v := by
  induction n generalizing d rv v with
  | zero =>
    cases h
    case null => exact .anyNull anyPlain
    case bool => exact .anyBool anyPlain
    case int => exact .anyInt anyPlain ‹_› ‹_›
    case float => exact .anyFloat anyPlain ‹_› ‹_› ‹_›
    case str => exact .anyStr anyPlain ‹_›
    all_goals simp [Doc.depth] at hd
  | succ n ih =>
    cases h
    case null => exact .anyNull anyPlain
    case bool => exact .anyBool anyPlain
    case int => exact .anyInt anyPlain ‹_› ‹_›
    case float => exact .anyFloat anyPlain ‹_› ‹_› ‹_›
    case str => exact .anyStr anyPlain ‹_›
    case arr =>
      simp only [Doc.depth, Nat.add_le_add_iff_right] at hd
      exact .anyArr anyPlain ‹_› (any_pairs (fun k d hm _ _ h => ih h (pairsDepth_le.1 hd k d hm).2) ‹_›)
    case obj =>
      simp only [Doc.depth, Nat.add_le_add_iff_right] at hd
      exact .anyObj anyPlain ‹_› ‹_› (any_pairs_str (fun k d hm _ _ h => ih h (pairsDepth_le.1 hd k d hm).2) ‹_›)

/-! ### PHP values -/

/-- No entry of `m` has a key equal to `k`. -/
theorem mapInsert_new {k v : Val} {m : List (Val × Val)} (h : ∀ p ∈ m, p.1.goEq k = false) : mapInsert k v m = m ++ [(k, v)] := by
  induction m with
  | nil => rfl
  | cons p m ih =>
    obtain ⟨k', v'⟩ := p
    simp only [mapInsert, h (k', v') List.mem_cons_self, Bool.false_eq_true, if_false, List.cons_append]
    rw [ih fun p hp => h p (List.mem_cons_of_mem _ hp)]

theorem insertAll_distinct {kvs m : List (Val × Val)} (h : (m ++ kvs).Pairwise (fun p q => p.1.goEq q.1 = false)) : insertAll m kvs = m ++ kvs := by
  induction kvs generalizing m with
  | nil => simp [insertAll]
  | cons p kvs ih =>
    have h1 : mapInsert p.1 p.2 m = m ++ [p] := mapInsert_new fun q hq => by
      rw [List.pairwise_append] at h
      exact h.2.2 q hq p List.mem_cons_self
    show insertAll (mapInsert p.1 p.2 m) kvs = _
    rw [h1, ih (by simpa using h)]
    simp

theorem pkey_goEq {k k' : PKey} (h : k ≠ k') : k.val.goEq k'.val = false := by
  cases k <;> cases k' <;> simp_all [PKey.val, Val.goEq]

theorem mem_arrVals {es : List (PKey × Php)} {p : Val × Val} (h : p ∈ arrVals es) : ∃ k ∈ es.map (·.1), p.1 = k.val := by
  induction es with
  | nil => simp [arrVals] at h
  | cons q es ih =>
    obtain ⟨k, v⟩ := q
    simp only [arrVals, List.mem_cons] at h
    rcases h with rfl | h
    · exact ⟨k, by simp, rfl⟩
    · obtain ⟨k', h1, h2⟩ := ih h
      exact ⟨k', by simp at h1 ⊢; exact .inr h1, h2⟩

theorem arrVals_distinct {es : List (PKey × Php)} (h : (es.map (·.1)).Nodup) : (arrVals es).Pairwise (fun p q => p.1.goEq q.1 = false) := by
  induction es with
  | nil => simp [arrVals]
  | cons q es ih =>
    obtain ⟨k, v⟩ := q
    simp only [List.map_cons, List.nodup_cons] at h
    simp only [arrVals, List.pairwise_cons]
    refine ⟨fun p hp => ?_, ih h.2⟩
    obtain ⟨k', h1, h2⟩ := mem_arrVals hp
    rw [h2]
    exact pkey_goEq fun he => h.1 (he ▸ h1)

theorem mem_objVals {es : List (Bytes × Php)} {p : Val × Val} (h : p ∈ objVals es) : ∃ k ∈ es.map (·.1), p.1 = .str k := by
  induction es with
  | nil => simp [objVals] at h
  | cons q es ih =>
    obtain ⟨k, v⟩ := q
    simp only [objVals, List.mem_cons] at h
    rcases h with rfl | h
    · exact ⟨k, by simp, rfl⟩
    · obtain ⟨k', h1, h2⟩ := ih h
      exact ⟨k', by simp at h1 ⊢; exact .inr h1, h2⟩

theorem objVals_distinct {es : List (Bytes × Php)} (h : (es.map (·.1)).Nodup) : (objVals es).Pairwise (fun p q => p.1.goEq q.1 = false) := by
  induction es with
  | nil => simp [objVals]
  | cons q es ih =>
    obtain ⟨k, v⟩ := q
    simp only [List.map_cons, List.nodup_cons] at h
    simp only [objVals, List.pairwise_cons]
    refine ⟨fun p hp => ?_, ih h.2⟩
    obtain ⟨k', h1, h2⟩ := mem_objVals hp
    rw [h2]
    have : k ≠ k' := fun he => h.1 (he ▸ h1)
    simpa [Val.goEq] using this

theorem pkey_anyKey {k : PKey} (h : k.Ok) (hl : k.doc.text.length < 2 ^ 63) : AnyKey k.doc k.val := by
  cases k with
  | int i => exact .int (intText_spec i) h
  | str s => exact .str (lenText_natText (by simp [PKey.doc, Doc.text] at hl; omega))

theorem arrDocs_length (es : List (PKey × Php)) : (arrDocs es).length = es.length := by
  induction es with
  | nil => rfl
  | cons p es ih => obtain ⟨k, v⟩ := p; simp [arrDocs, ih]

theorem objDocs_length (es : List (Bytes × Php)) : (objDocs es).length = es.length := by
  induction es with
  | nil => rfl
  | cons p es ih => obtain ⟨k, v⟩ := p; simp [objDocs, ih]

theorem text_pos (d : Doc) : 2 ≤ d.text.length := by
  cases d <;> simp [Doc.text]

theorem pairs_count (es : List (Doc × Doc)) : es.length ≤ (pairsText es).length := by
  induction es with
  | nil => simp
  | cons p es ih =>
    obtain ⟨k, v⟩ := p
    have := text_pos k
    simp [pairsText]; omega

mutual
theorem php_anyVal {W : World} : (p : Php) → p.Ok W → p.doc.text.length < 2 ^ 63 → AnyVal W p.doc p.val
  | .null, _, _ => .null
  | .bool _, _, _ => .bool
  | .int i, h, _ => by cases h; exact .int (intText_spec i) ‹_›
  | .float txt x, h, _ => by cases h; exact .float ‹_› ‹_› ‹_›
  | .str s, _, hl => .str (lenText_natText (by simp [Php.doc, Doc.text] at hl; omega))
  | .arr es, h, hl => by
    cases h with
    | arr h1 h2 h3 =>
    simp only [Php.doc, Doc.text, List.length_append, List.length_cons] at hl
    have h4 := arr_any es h2 h3 (by omega)
    have := pairs_count (arrDocs es)
    rw [arrDocs_length] at this
    have h5 := AnyVal.arr (cnt := natText es.length) (lenText_natText (n := es.length) (by omega)) h4
    rw [show List.foldl _ [] _ = insertAll [] (arrVals es) from rfl, insertAll_distinct (by simpa using arrVals_distinct h1)] at h5
    exact h5
  | .obj cls es, h, hl => by
    cases h with
    | obj h1 h3 =>
    simp only [Php.doc, Doc.text, List.length_append, List.length_cons] at hl
    have h4 := obj_any es h3 (by omega)
    have := pairs_count (objDocs es)
    rw [objDocs_length] at this
    have h5 := AnyVal.obj (clen := natText cls.length) (cls := cls) (cnt := natText es.length) (lenText_natText (by omega)) (lenText_natText (n := es.length) (by omega)) h4
    rw [show List.foldl _ [] _ = insertAll [] (objVals es) from rfl, insertAll_distinct (by simpa using objVals_distinct h1)] at h5
    exact h5
theorem arr_any {W : World} : (es : List (PKey × Php)) → (∀ k v, (k, v) ∈ es → k.Ok) → (∀ k v, (k, v) ∈ es → v.Ok W) →
    (pairsText (arrDocs es)).length < 2 ^ 63 → AnyArr W (arrDocs es) (arrVals es)
  | [], _, _, _ => .nil
  | (k, v) :: es, h1, h2, hl => by
    simp only [arrDocs, pairsText, List.length_append] at hl
    exact .cons (pkey_anyKey (h1 k v List.mem_cons_self) (by omega)) (php_anyVal v (h2 k v List.mem_cons_self) (by omega))
      (arr_any es (fun k v hm => h1 k v (List.mem_cons_of_mem _ hm)) (fun k v hm => h2 k v (List.mem_cons_of_mem _ hm)) (by omega))
theorem obj_any {W : World} : (es : List (Bytes × Php)) → (∀ k v, (k, v) ∈ es → v.Ok W) →
    (pairsText (objDocs es)).length < 2 ^ 63 → AnyObj W (objDocs es) (objVals es)
  | [], _, _ => .nil
  | (k, v) :: es, h2, hl => by
    simp only [objDocs, pairsText, Doc.text, List.length_append, List.length_cons] at hl
    exact .cons (.str (lenText_natText (by omega))) (php_anyVal v (h2 k v List.mem_cons_self) (by omega))
      (obj_any es (fun k v hm => h2 k v (List.mem_cons_of_mem _ hm)) (by omega))
end

mutual
theorem php_depth : (p : Php) → p.doc.depth = p.depth
  | .null => rfl
  | .bool _ => rfl
  | .int _ => rfl
  | .float _ _ => rfl
  | .str _ => rfl
  | .arr es => by simp only [Php.doc, Doc.depth, Php.depth, arr_depth es]
  | .obj _ es => by simp only [Php.doc, Doc.depth, Php.depth, obj_depth es]
theorem arr_depth : (es : List (PKey × Php)) → pairsDepth (arrDocs es) = arrDepth es
  | [] => rfl
  | (k, v) :: es => by
    have : k.doc.depth = 0 := by cases k <;> rfl
    simp only [arrDocs, pairsDepth, arrDepth, arr_depth es, php_depth v, this, Nat.zero_max]
theorem obj_depth : (es : List (Bytes × Php)) → pairsDepth (objDocs es) = objDepth es
  | [] => rfl
  | (k, v) :: es => by
    simp only [objDocs, pairsDepth, objDepth, obj_depth es, php_depth v, Doc.depth, Nat.zero_max]
end

theorem anyKey_lax {n : Nat} {d : Doc} {v : Val} (h : AnyKey d v) : Lax n d := by
  cases h with
  | int h => exact .int h
  | str h => exact .str h

theorem anyVal_lax {W : World} {d : Doc} {v : Val} (h : AnyVal W d v) : Lax d.depth d :=
  decDoc_lax (any_complete (rv := .ifaceNil) h (Nat.le_refl _))

end Verif

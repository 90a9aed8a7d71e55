import Verif.Proofs.Marshal
import Verif.Proofs.Php
import Verif.Spec.Float
import Verif.Spec.Values
/-
The texts of values are texts of documents.
-/
namespace Verif
open Spec

/-- Entries `i`, …, `i + n - 1` of a container. -/
def pairDocs (kd D : Nat → Doc) (i n : Nat) : List (Doc × Doc) := (List.range' i n).map fun j => (kd j, D j)

theorem pairDocs_text {kd D : Nat → Doc} {tx : Nat → Bytes} {i n : Nat} (h : ∀ j, i ≤ j → j < i + n → tx j = (D j).text) :
    bodyText kd tx i n = pairsText (pairDocs kd D i n) := by
  induction n generalizing i with
  | zero => rfl
  | succ n ih =>
    have := ih (i := i + 1) fun j h1 h2 => h j (by omega) (by omega)
    simp only [bodyText, pairDocs, List.range'_succ, List.map_cons, pairsText]
    rw [this, h i (Nat.le_refl _) (by omega)]
    rfl

theorem arrText_doc {kd D : Nat → Doc} {tx : Nat → Bytes} {n : Nat} (h : ∀ j, j < n → tx j = (D j).text) :
    arrText n kd tx = (Doc.arr (natText n) (pairDocs kd D 0 n)).text := by
  rw [arrText, Doc.text, pairDocs_text fun j _ hj => h j (by omega)]

theorem pairDocs_length (kd D : Nat → Doc) (i n : Nat) : (pairDocs kd D i n).length = n := by simp [pairDocs]

theorem mem_pairDocs {kd D : Nat → Doc} {i n : Nat} {k v : Doc} : (k, v) ∈ pairDocs kd D i n ↔ ∃ j, i ≤ j ∧ j < i + n ∧ k = kd j ∧ v = D j := by
  simp only [pairDocs, List.mem_map, List.mem_range'_1, Prod.mk.injEq]
  constructor
  · rintro ⟨j, ⟨h1, h2⟩, h3, h4⟩; exact ⟨j, h1, h2, h3.symm, h4.symm⟩
  · rintro ⟨j, h1, h2, h3, h4⟩; exact ⟨j, ⟨h1, h2⟩, h3.symm, h4.symm⟩

/-- Choosing a document for every element. -/
theorem choose_docs {α : Type} {vs : List α} {Q : Nat → α → Doc → Prop} (h : ∀ j v, vs[j]? = some v → ∃ d, Q j v d) :
    ∃ D : Nat → Doc, ∀ j v, vs[j]? = some v → Q j v (D j) := by
  have h' : ∀ j, ∃ d, ∀ v, vs[j]? = some v → Q j v d := fun j => by
    cases hj : vs[j]? with
    | none => exact ⟨.null, fun v hv => by cases hv⟩
    | some w => exact (h j w hj).imp fun d hd v hv => by cases hv; exact hd
  exact ⟨fun j => Classical.choose (h' j), fun j v hv => Classical.choose_spec (h' j) v hv⟩

/-- Well-formed, as long as the text is of a length Go can handle. -/
def Wf (d : Doc) : Prop := d.text.length < 2 ^ 63 → Strict d.depth d

theorem wf_int (i : Int) : Wf (.int (intText i)) := fun _ => .int (intText_spec i)
theorem wf_nat (n : Nat) : Wf (.int (natText n)) := fun _ => .int (.pos (natText_digits n))
theorem wf_str (s : Bytes) : Wf (strDoc s) := fun h => .str (lenText_natText (by simp [strDoc, Doc.text] at h; omega))

theorem wf_arr {kd D : Nat → Doc} {n : Nat} (hk : ∀ j, j < n → Wf (kd j)) (hv : ∀ j, j < n → Wf (D j)) :
    Wf (.arr (natText n) (pairDocs kd D 0 n)) := by
  intro hl
  have h1 : (pairsText (pairDocs kd D 0 n)).length < 2 ^ 63 := by
    have := container_len (d := .arr (natText n) (pairDocs kd D 0 n)) .arr
    omega
  rw [Doc.depth]
  refine .arr ?_ (fun k v hkv => ?_) (fun k v hkv => ?_)
  · rw [pairDocs_length]
    have := pairs_count (pairDocs kd D 0 n)
    rw [pairDocs_length] at this
    exact lenText_natText (by omega)
  · have hm := mem_pairs_len hkv
    have hd := (pairsDepth_le.1 (Nat.le_refl _)) k v hkv
    obtain ⟨j, -, hj, rfl, rfl⟩ := mem_pairDocs.1 hkv
    exact strict_of_depth (hk j (by omega) (by omega)) hd.1
  · have hm := mem_pairs_len hkv
    have hd := (pairsDepth_le.1 (Nat.le_refl _)) k v hkv
    obtain ⟨j, -, hj, rfl, rfl⟩ := mem_pairDocs.1 hkv
    exact strict_of_depth (hv j (by omega) (by omega)) hd.2

/-- Values and keys of a container, all well-formed. -/
theorem wf_container {α : Type} {vs : List α} {kd : Nat → Doc} {tx : Nat → Bytes} (hk : ∀ j v, vs[j]? = some v → Wf (kd j))
    (h : ∀ j v, vs[j]? = some v → ∃ d, tx j = d.text ∧ Wf d) : ∃ d, arrText vs.length kd tx = d.text ∧ Wf d := by
  obtain ⟨D, hD⟩ := choose_docs h
  refine ⟨_, arrText_doc fun j hj => (hD j vs[j] (List.getElem?_eq_getElem hj)).1,
    wf_arr (fun j hj => hk j vs[j] (List.getElem?_eq_getElem hj)) fun j hj => (hD j vs[j] (List.getElem?_eq_getElem hj)).2⟩

theorem wf_scalar {W : World} (hf : FloatTextsOk W) {t : Ty} {v : GV} {d : Doc} (h : ScalarDoc W t v d) : Wf d := by
  cases h with
  | bool => exact fun _ => .bool
  | int => exact wf_int _
  | uint => exact wf_nat _
  | f32 _ ho =>
    refine fun _ => .float ?_ ?_ <;> cases ho with
    | finite _ _ _ h => rw [fmtText32_iff.1 h]; first | exact (hf.f32 _ _).1 | exact (hf.f32 _ _).2
    | _ => decide
  | f64 _ ho =>
    refine fun _ => .float ?_ ?_ <;> cases ho with
    | finite _ _ _ h => rw [fmtText64_iff.1 h]; first | exact (hf.f64 _ _).1 | exact (hf.f64 _ _).2
    | _ => decide
  | str => exact wf_str _

theorem wf_key {W : World} {t : Ty} {v : GV} {d : Doc} (h : KeyDoc W t v d) : Wf d := by
  cases h with
  | int => exact wf_int _
  | uint => exact wf_nat _
  | str => exact wf_str _

theorem wf_strField {W : World} {h : Heap} {t : Ty} {v : GV} {d : Doc} (hd : StrFieldDoc W h t v d) : Wf d := by
  cases hd with
  | str => exact wf_str _
  | basic => exact wf_str _
  | ifaceNil => exact fun _ => .null
  | iface => exact wf_str _

theorem within_trans {W : World} {h : Heap} {t t' t'' : Ty} {v v' v'' : GV} (h1 : Within W h t v t' v') (h2 : Within W h t' v' t'' v'') :
    Within W h t v t'' v'' := by
  induction h1 with
  | refl => exact h2
  | step hp _ ih => exact .step hp (ih h2)

theorem deref_within {W : World} {h : Heap} {t t' : Ty} {v v' : GV} {o : Option (Ty × GV)} (hd : Deref W h t v o) (ho : o = some (t', v')) :
    Within W h t v t' v' := by
  induction hd with
  | ptrNil => cases ho
  | ptr hr _ ih => exact .step (.ptr hr) (ih ho)
  | ifaceNil => cases ho
  | iface hi _ ih => exact .step (.iface hi) (ih ho)
  | done => cases ho; exact .refl

theorem hasKey_unique {W : World} {f : Field} {k k' : Bytes} (h : HasKey W f k) (h' : HasKey W f k') : k = k' := by
  rw [hasKey_iff] at h h'
  rw [← h, ← h']

theorem get_shift {α : Type} {k n : Nat} {x y : α} {xs : List α} (h1 : k + 1 ≤ n) (h2 : xs[n - (k + 1)]? = some y) : (x :: xs)[n - k]? = some y := by
  have : n - k = (n - (k + 1)) + 1 := by omega
  rw [this]
  simpa using h2

/-- The fields that are written are fields of the struct, at their position. -/
theorem written_field {W : World} {i : Nat} {fs : List Field} {vs : List GV} {ws : List WField} (hw : Written W i fs vs ws) {w : WField} (hm : w ∈ ws) :
    ∃ f om, i ≤ w.idx ∧ fs[w.idx - i]? = some f ∧ vs[w.idx - i]? = some w.val ∧ f.exported = true ∧ TagMeaning W f w.key om (w.str = true) ∧
      w.key ≠ [45] ∧ f.ty = w.ty := by
  induction hw with
  | nil => cases hm
  | hidden _ _ ih =>
    obtain ⟨f, om, h1, h2, h3, h4⟩ := ih hm
    exact ⟨f, om, by omega, get_shift h1 h2, get_shift h1 h3, h4⟩
  | omitted _ _ _ ih =>
    obtain ⟨f, om, h1, h2, h3, h4⟩ := ih hm
    exact ⟨f, om, by omega, get_shift h1 h2, get_shift h1 h3, h4⟩
  | keep a b c d _ ih =>
    rcases List.mem_cons.1 hm with rfl | hm
    · exact ⟨_, _, Nat.le_refl _, by simp, by simp, a, b, c, rfl⟩
    · obtain ⟨f, om, h1, h2, h3, h4⟩ := ih hm
      exact ⟨f, om, by omega, get_shift h1 h2, get_shift h1 h3, h4⟩

theorem written_part {W : World} {h : Heap} {t : Ty} {id : Nat} {vs : List GV} {ws : List WField} (hr : W.resolve t = .struct id)
    (hw : Written W 0 (W.fields id) vs ws) {j : Nat} {w : WField} (hm : ws[j]? = some w) : Part W h t (.struct vs) w.ty w.val := by
  obtain ⟨f, om, -, h2, h3, h4, h5, h6, h7⟩ := written_field hw (List.mem_of_getElem? hm)
  rw [← h7]
  exact .field hr h2 h3 h4 fun hk => h6 (hasKey_unique ⟨_, _, h5⟩ hk)

/-- Every text of a value is the text of a well-formed document, if the results of MarshalPHP methods are. -/
theorem encG_wf {W : World} {h : Heap} {ok : Ty → Prop} {G : Stack → Nat → Bool → Prop} (hf : FloatTextsOk W)
    {m : Mode} {st : Stack} {p : Path} {t : Ty} {v : GV} {tx : Bytes} (he : EncG W h ok G m st p t v tx)
    (hm : ∀ t' v' raw, Within W h t v t' v' → W.marOf t' = true → Marshaled W h t' v' raw → ∃ d, raw = d.text ∧ Wf d) : ∃ d, tx = d.text ∧ Wf d := by
  have hnull : ∃ d : Doc, Doc.null.text = d.text ∧ Wf d := ⟨.null, rfl, fun _ => .null⟩
  induction he with
  | marshaler a hr => exact hm _ _ _ .refl a hr
  | bytesNil => exact ⟨_, rfl, wf_str _⟩
  | bytes => exact ⟨_, rfl, wf_str _⟩
  | plain _ _ _ _ ih => exact ih hm
  | ptrNil => exact hnull
  | ptrStruct _ hr _ _ _ ih => exact ih fun t' v' raw hw => hm t' v' raw (.step (.ptr hr) hw)
  | ptrKind _ hr _ _ ih => exact ih fun t' v' raw hw => hm t' v' raw (.step (.ptr hr) hw)
  | ptrTyped _ hr _ _ _ _ _ ih => exact ih fun t' v' raw hw => hm t' v' raw (.step (.ptr hr) hw)
  | ptrIface _ _ _ _ ih => exact ih hm
  | scalar hs => exact ⟨_, rfl, wf_scalar hf hs⟩
  | struct hr hws _ ih => exact wf_container (fun _ _ _ => wf_str _) fun j w hw => ih j w hw fun t' v' raw hw' => hm t' v' raw (.step (written_part hr hws hw) hw')
  | array hr _ _ ih =>
    exact wf_container (fun _ _ _ => wf_nat _) fun j w hw => ih j w hw fun t' v' raw hw' => hm t' v' raw (.step (.array hr (List.mem_of_getElem? hw)) hw')
  | sliceNil => exact hnull
  | slice hr _ hv _ ih =>
    subst hv
    exact wf_container (fun _ _ _ => wf_nat _) fun j w hw => ih j w hw fun t' v' raw hw' => hm t' v' raw (.step (.slice hr (List.mem_of_getElem? hw)) hw')
  | mapNil => exact hnull
  | map hr _ hv hk _ ih =>
    subst hv
    exact wf_container (fun j w hw => wf_key (hk j w.1 w.2 hw)) fun j w hw => ih j w.1 w.2 hw fun t' v' raw hw' =>
      hm t' v' raw (.step (.map hr (List.mem_of_getElem? hw)) hw')
  | iface _ _ ih => exact ih hm
  | heldNil => exact hnull
  | heldScalar _ hs => exact ⟨_, rfl, wf_scalar hf hs⟩
  | heldConcreteSlice hd _ _ _ _ _ ih => exact ih fun t' v' raw hw => hm t' v' raw (within_trans (deref_within hd rfl) hw)
  | heldSliceNil => exact hnull
  | heldSlice hd hr _ _ hv _ ih =>
    subst hv
    exact wf_container (fun _ _ _ => wf_nat _) fun j w hw => ih j w hw fun t' v' raw hw' =>
      hm t' v' raw (within_trans (deref_within hd rfl) (.step (.slice hr (List.mem_of_getElem? hw)) hw'))
  | heldMapNil => exact hnull
  | heldMap hd hr _ _ _ hv hk _ ih =>
    subst hv
    exact wf_container (fun j w hw => wf_key (hk j w.1 w.2 hw)) fun j w hw => ih j w.1 w.2 hw fun t' v' raw hw' =>
      hm t' v' raw (within_trans (deref_within hd rfl) (.step (.map hr (List.mem_of_getElem? hw)) hw'))
  | heldConcreteMap hd hr _ _ _ hv _ hk _ ih =>
    subst hv
    exact wf_container (fun j w hw => wf_key (hk j w.1 w.2 hw)) fun j w hw => ih j w.1 w.2 hw fun t' v' raw hw' =>
      hm t' v' raw (within_trans (deref_within hd rfl) (.step (.map hr (List.mem_of_getElem? hw)) hw'))
  | heldStruct hd _ _ _ ih => exact ih fun t' v' raw hw => hm t' v' raw (within_trans (deref_within hd rfl) hw)
  | fieldPlain _ _ ih => exact ih hm
  | fieldPtrNil => exact hnull
  | fieldPtrStruct hr _ _ _ ih => exact ih fun t' v' raw hw => hm t' v' raw (.step (.ptr hr) hw)
  | fieldPtr hr _ _ ih => exact ih fun t' v' raw hw => hm t' v' raw (.step (.ptr hr) hw)
  | fieldStr _ hd => exact ⟨_, rfl, wf_strField hd⟩
  | fieldStrPtr _ hd => exact ⟨_, rfl, wf_strField hd⟩

end Verif

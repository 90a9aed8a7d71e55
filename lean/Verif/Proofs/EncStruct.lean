import Verif.Proofs.EncDocs
import Verif.Spec.Shown
/-
The fields a struct is written with.
-/
namespace Verif
open Spec

theorem tagMeaning_unique {W : World} {f : Field} {k k' : Bytes} {om om' str str' : Prop} (h : TagMeaning W f k om str) (h' : TagMeaning W f k' om' str') :
    k = k' ∧ (om ↔ om') ∧ (str ↔ str') := by
  obtain ⟨a, b, c⟩ := tagMeaning_iff.1 h
  obtain ⟨a', b', c'⟩ := tagMeaning_iff.1 h'
  exact ⟨by rw [a, a'], b.trans b'.symm, c.trans c'.symm⟩

/-- The positions of the fields written. -/
theorem written_positions {W : World} {i : Nat} {fs : List Field} {vs : List GV} {ws : List WField} (hw : Written W i fs vs ws) :
    (ws.map (·.idx)).Pairwise (· < ·) ∧ (∀ k ∈ ws.map (·.idx), i ≤ k) ∧
    ∀ k, i ≤ k → (k ∈ ws.map (·.idx) ↔ ∃ f v, fs[k - i]? = some f ∧ vs[k - i]? = some v ∧ Shown W f v) := by
  have back : ∀ {k i : Nat} {f : Field} {fs : List Field} {v : GV} {vs : List GV}, i + 1 ≤ k →
      ((∃ f v, fs[k - (i + 1)]? = some f ∧ vs[k - (i + 1)]? = some v ∧ Shown W f v) ↔
        ∃ f' v', (f :: fs)[k - i]? = some f' ∧ (v :: vs)[k - i]? = some v' ∧ Shown W f' v') := by
    intro k i f fs v vs h
    have : k - i = (k - (i + 1)) + 1 := by omega
    rw [this]
    simp
  induction hw with
  | nil => exact ⟨by simp, by simp, by simp⟩
  | @hidden i f fs v vs ws hh _ ih =>
    obtain ⟨h1, h2, h3⟩ := ih
    refine ⟨h1, fun k hk => by have := h2 k hk; omega, fun k hk => ?_⟩
    rcases Nat.lt_or_ge i k with h | h
    · rw [h3 k (by omega)]
      exact back (by omega)
    · obtain rfl : k = i := by omega
      constructor
      · intro hm; have := h2 k hm; omega
      · rintro ⟨f', v', h4, h5, h6, key, om, str, h7, h8, h9⟩
        simp at h4
        subst h4
        rcases hh with hh | hh
        · rw [hh] at h6; cases h6
        · exact absurd (hasKey_unique ⟨_, _, h7⟩ hh) h8
  | @omitted i f fs v vs ws key str ht hz _ ih =>
    obtain ⟨h1, h2, h3⟩ := ih
    refine ⟨h1, fun k hk => by have := h2 k hk; omega, fun k hk => ?_⟩
    rcases Nat.lt_or_ge i k with h | h
    · rw [h3 k (by omega)]
      exact back (by omega)
    · obtain rfl : k = i := by omega
      constructor
      · intro hm; have := h2 k hm; omega
      · rintro ⟨f', v', h4, h5, h6, key', om, str', h7, h8, h9⟩
        simp at h4 h5
        subst h4 h5
        exact absurd ⟨(tagMeaning_unique ht h7).2.1.1 trivial, hz⟩ h9
  | @keep i f fs v vs ws key om str a b c d _ ih =>
    obtain ⟨h1, h2, h3⟩ := ih
    refine ⟨by simpa [List.pairwise_cons] using ⟨fun w hw => by have := h2 w.idx (List.mem_map_of_mem hw); omega, by simpa [List.pairwise_map] using h1⟩, ?_, fun k hk => ?_⟩
    · intro k hk
      simp only [List.map_cons, List.mem_cons] at hk
      rcases hk with rfl | hk
      · exact Nat.le_refl _
      · have := h2 k hk; omega
    · rcases Nat.lt_or_ge i k with h | h
      · rw [List.map_cons, List.mem_cons, ← back (by omega), ← h3 k (by omega)]
        constructor
        · rintro (rfl | h')
          · simp at h
          · exact h'
        · exact .inr
      · obtain rfl : k = i := by omega
        simp only [List.map_cons, List.mem_cons, true_or, Nat.sub_self, List.getElem?_cons_zero, true_iff]
        exact ⟨f, v, rfl, rfl, a, key, om, _, b, c, d⟩

theorem bodyText_append {kd : Nat → Doc} {tx : Nat → Bytes} {α : Type} {xs : List α} {i : Nat} {g : α → Bytes}
    (h : ∀ j x, xs[j]? = some x → (kd (i + j)).text ++ tx (i + j) = g x) : bodyText kd tx i xs.length = xs.flatMap g := by
  induction xs generalizing i with
  | nil => rfl
  | cons x xs ih =>
    simp only [List.length_cons, bodyText, List.flatMap_cons]
    rw [← h 0 x (by simp), ih (i := i + 1) (fun j y hj => by rw [show i + 1 + j = i + (j + 1) by omega]; exact h (j + 1) y (by simpa using hj))]
    simp

theorem encC_struct {W : World} {h : Heap} {ok : Ty → Prop} {G : Stack → Nat → Bool → Prop} {st : Stack} {p : Path} {t : Ty} {id : Nat} {vs : List GV} {tx : Bytes} (hr : W.resolve t = .struct id)
    (he : EncG W h ok G .kind st p t (.struct vs) tx) :
    ∃ ws txs, Written W 0 (W.fields id) vs ws ∧
      (∀ (j : Nat) (w : WField), ws[j]? = some w → EncG W h ok G (.field w.str) st (w.idx :: p) w.ty w.val (txs j)) ∧
      tx = arrText ws.length (fun j => strDoc ((ws[j]?.map (·.key)).getD [])) txs := by
  cases he with
  | struct hr' hw hf => rw [hr] at hr'; cases hr'; exact ⟨_, _, hw, hf, rfl⟩
  | scalar hs => cases hs
  | iface hi _ => simp [World.isIface, hr] at hi

/-- The layout of a struct. -/
theorem struct_layout {W : World} {h : Heap} {ok : Ty → Prop} {G : Stack → Nat → Bool → Prop} {st : Stack} {p : Path} {t : Ty} {id : Nat} {vs : List GV} {tx : Bytes} (hr : W.resolve t = .struct id)
    (he : EncG W h ok G .kind st p t (.struct vs) tx) :
    ∃ (idxs : List Nat) (key txt : Nat → Bytes), idxs.Pairwise (· < ·) ∧
      (∀ i, i ∈ idxs ↔ ∃ f v, (W.fields id)[i]? = some f ∧ vs[i]? = some v ∧ Shown W f v) ∧
      (∀ i ∈ idxs, ∀ f, (W.fields id)[i]? = some f → HasKey W f (key i)) ∧
      (∀ i ∈ idxs, ∀ f v, (W.fields id)[i]? = some f → vs[i]? = some v →
        ∃ str, (str = true ↔ HasString W f) ∧ EncG W h ok G (.field str) st (i :: p) f.ty v (txt i)) ∧
      tx = [97, 58] ++ natText idxs.length ++ [58, 123] ++ (idxs.flatMap fun i => (strDoc (key i)).text ++ txt i) ++ [125] := by
  obtain ⟨ws, txs, hw, hf, rfl⟩ := encC_struct hr he
  obtain ⟨h1, -, h3⟩ := written_positions hw
  -- the written field at a position
  have find : ∀ j w, ws[j]? = some w → ws.findIdx? (fun w' => w'.idx == w.idx) = some j := by
    intro j w hj
    rw [List.findIdx?_eq_some_iff_getElem]
    obtain ⟨hlt, rfl⟩ := List.getElem?_eq_some_iff.1 hj
    refine ⟨hlt, by simp, fun k hk => ?_⟩
    have := List.pairwise_iff_getElem.1 h1 k j (by simp; omega) (by simpa using hlt) hk
    simp only [List.getElem_map] at this
    simp only [beq_iff_eq]
    omega
  let at' : Nat → Nat := fun i => (ws.findIdx? (fun w' => w'.idx == i)).getD 0
  have hat : ∀ j w, ws[j]? = some w → at' w.idx = j := fun j w hj => by
    show (ws.findIdx? (fun w' => w'.idx == w.idx)).getD 0 = j
    rw [find j w hj]; rfl
  refine ⟨ws.map (·.idx), fun i => (ws[at' i]?.map (·.key)).getD [], fun i => txs (at' i), h1, fun i => h3 i (Nat.zero_le _), ?_, ?_, ?_⟩
  · intro i hi f hfi
    obtain ⟨w, hm, rfl⟩ := List.mem_map.1 hi
    obtain ⟨j, hj, hjw⟩ := List.mem_iff_getElem.1 hm
    have hj' : ws[j]? = some w := by rw [List.getElem?_eq_getElem hj, hjw]
    obtain ⟨f', om, -, h4, h5, h6, h7, h8, h9⟩ := written_field hw hm
    simp only [Nat.sub_zero] at h4
    rw [hfi] at h4; cases h4
    show HasKey W f ((ws[at' w.idx]?.map (·.key)).getD [])
    rw [hat j w hj', hj']
    exact ⟨_, _, h7⟩
  · intro i hi f v hfi hvi
    obtain ⟨w, hm, rfl⟩ := List.mem_map.1 hi
    obtain ⟨j, hj, hjw⟩ := List.mem_iff_getElem.1 hm
    have hj' : ws[j]? = some w := by rw [List.getElem?_eq_getElem hj, hjw]
    obtain ⟨f', om, -, h4, h5, h6, h7, h8, h9⟩ := written_field hw hm
    simp only [Nat.sub_zero] at h4 h5
    rw [hfi] at h4; cases h4
    rw [hvi] at h5; cases h5
    refine ⟨w.str, ?_, ?_⟩
    · rw [hasString_iff]
      exact (tagMeaning_iff.1 h7).2.2
    · show EncG W h ok G (.field w.str) st (w.idx :: p) f.ty w.val (txs (at' w.idx))
      rw [hat j w hj', h9]
      exact hf j w hj'
  · rw [arrText, List.length_map, bodyText_append (xs := ws) (i := 0) (g := fun w => (strDoc ((ws[at' w.idx]?.map (·.key)).getD [])).text ++ txs (at' w.idx)), List.flatMap_map]
    intro j w hj
    simp only [Nat.zero_add, hat j w hj]

/-- The fields the encoder of a struct visits. -/
theorem mem_efields {W : World} {fl : EField} {fs : List Field} {i : Nat} (h : fl ∈ efields W i fs) :
    ∃ f, i ≤ fl.idx ∧ fs[fl.idx - i]? = some f ∧ f.exported = true ∧ ¬ HasKey W f [45] := by
  induction fs generalizing i with
  | nil => cases h
  | cons f fs ih =>
    have next : fl ∈ efields W (i + 1) fs → ∃ f', i ≤ fl.idx ∧ (f :: fs)[fl.idx - i]? = some f' ∧ f'.exported = true ∧ ¬ HasKey W f' [45] := fun h => by
      obtain ⟨f', h1, h2, h3⟩ := ih h
      exact ⟨f', by omega, get_shift h1 h2, h3⟩
    simp only [efields] at h
    split at h
    · exact next h
    · rename_i hc
      rcases List.mem_cons.1 h with rfl | h
      · refine ⟨f, Nat.le_refl _, by simp, ?_, ?_⟩
        · cases hx : f.exported <;> simp_all
        · rw [hasKey_iff]; intro hk; simp [hk] at hc
      · exact next h

theorem fieldsLoop_congr {enc : EField → Ctx → Bytes → GV → ER Bytes} {vs vs' : List GV} {fls : List EField}
    (h : ∀ fl ∈ fls, vs[fl.idx]? = vs'[fl.idx]?) {c : Ctx} {sb : Bytes} {n : Nat} : fieldsLoop enc vs fls c sb n = fieldsLoop enc vs' fls c sb n := by
  induction fls generalizing c sb n with
  | nil => rfl
  | cons fl fls ih =>
    have ih' := fun c sb n => ih (fun fl h' => h fl (List.mem_cons_of_mem _ h')) (c := c) (sb := sb) (n := n)
    simp only [fieldsLoop, h fl (List.mem_cons_self ..), ih']

/-- Structs that differ only in fields that take no part in serialization. -/
theorem marshal_struct_congr {W : World} {h : Heap} {t : Ty} {id : Nat} {vs vs' : List GV} (hr : W.resolve t = .struct id) (hm : W.marOf t = false)
    (hl : vs.length = vs'.length) (hv : ∀ (i : Nat) f, (W.fields id)[i]? = some f → f.exported = true → ¬ HasKey W f [45] → vs[i]? = vs'[i]?)
    (cf f : Nat) (c : Ctx) : marshal W h cf f c (some (t, .struct vs)) = marshal W h cf f c (some (t, .struct vs')) := by
  have hne : t ≠ .slice (.uint .u8) := by rintro rfl; simp [World.resolve] at hr
  have key : ∀ f c b, (encF W h cf f).comp [] t c b (.struct vs) = (encF W h cf f).comp [] t c b (.struct vs') := by
    intro f c b
    cases f with
    | zero => rfl
    | succ f =>
      simp only [encF, hm, hne, hr, encodeKind, encodeScalar, encodeStruct, hl, Bool.false_eq_true, if_false]
      rw [fieldsLoop_congr fun fl hfl => ?_]
      obtain ⟨f', h1, h2, h3, h4⟩ := mem_efields hfl
      exact hv fl.idx f' h2 h3 h4
  simp only [marshal, key]

end Verif

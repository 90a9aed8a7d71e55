import Verif.Proofs.TellEnc
import Verif.Proofs.Trip
import Verif.Proofs.Acyclic
import Verif.Proofs.Pointer
import Verif.Spec.Range
/-
Which texts can be written.
-/
namespace Verif
open Spec

variable {W : World} {h : Heap}

/-! ### What is written is writable -/

/-- Writable, as long as the text is of a length Go can handle. -/
def Wr (W : World) (d : Doc) : Prop := d.text.length < 2 ^ 63 → Writable W d

theorem intMax_le (k : IKind) : intMax k ≤ 2 ^ 63 - 1 := by cases k <;> decide
theorem uintMax_le (k : UKind) : uintMax k ≤ 2 ^ 64 - 1 := by cases k <;> decide

theorem wr_scalar {t : Ty} {v : GV} {d : Doc} (hd : ScalarDoc W t v d) (hr : Ranged W t v) : Wr W d := by
  intro _
  cases hd with
  | bool => exact .bool
  | int h1 => have := hr _ h1; have h2 := intMax_le; exact .int (by have := h2 ‹_›; unfold InRange at *; omega) (by have := h2 ‹_›; unfold InRange at *; omega)
  | @uint k n h1 h3 => 
    have := hr _ h1; have h2 := uintMax_le k
    rw [← intText_natCast]
    exact .int (by omega) (by unfold InURange at this; omega)
  | f32 _ ho => exact .f32 ho
  | f64 _ ho => exact .f64 ho
  | str => exact .str

theorem wr_strField {t : Ty} {v : GV} {d : Doc} (hd : StrFieldDoc W h t v d) : Wr W d := by
  intro _
  cases hd with
  | str => exact .str
  | basic => exact .str
  | ifaceNil => exact .null
  | iface => exact .str

theorem pairDocs_get {kd D : Nat → Doc} {n j : Nat} (hj : j < n) : (pairDocs kd D 0 n)[j]? = some (kd j, D j) := by
  simp [pairDocs, hj]

/-- Values and keys of a container. -/
theorem wr_container {α : Type} {vs : List α} {kd : Nat → Doc} {tx : Nat → Bytes}
    (hk : vs.length < 2 ^ 63 → ∀ D, KeysAlike (pairDocs kd D 0 vs.length))
    (hn : ∀ i j x y, vs[i]? = some x → vs[j]? = some y → i < j → kd i ≠ kd j)
    (hv : ∀ j v, vs[j]? = some v → ∃ d, tx j = d.text ∧ Wr W d) : ∃ d, arrText vs.length kd tx = d.text ∧ Wr W d := by
  obtain ⟨D, hD⟩ := choose_docs hv
  refine ⟨_, arrText_doc fun j hj => (hD j vs[j] (List.getElem?_eq_getElem hj)).1, fun hl => ?_⟩
  have h1 := container_len (d := .arr (natText vs.length) (pairDocs kd D 0 vs.length)) .arr
  have h2 := pairs_count (pairDocs kd D 0 vs.length)
  rw [pairDocs_length] at h2
  have h3 : Writable W (.arr (natText (pairDocs kd D 0 vs.length).length) (pairDocs kd D 0 vs.length)) := by
    refine .arr (hk (by omega) D) ?_ ?_
    · rw [List.pairwise_iff_getElem]
      intro i j hi hj hij
      have hi' : i < vs.length := by rw [pairDocs_length] at hi; exact hi
      have hj' : j < vs.length := by rw [pairDocs_length] at hj; exact hj
      have e1 := List.getElem?_eq_getElem hi
      have e2 := List.getElem?_eq_getElem hj
      rw [pairDocs_get hi'] at e1
      rw [pairDocs_get hj'] at e2
      rw [← Option.some.inj e1, ← Option.some.inj e2]
      exact hn i j _ _ (List.getElem?_eq_getElem hi') (List.getElem?_eq_getElem hj') hij
    · rintro ⟨k, v⟩ hkv
      have hm := mem_pairs_len hkv
      obtain ⟨j, -, hj, rfl, rfl⟩ := mem_pairDocs.1 hkv
      exact (hD j _ (List.getElem?_eq_getElem (by omega))).2 (by omega)
  rwa [pairDocs_length] at h3

theorem alike_idx {n : Nat} (hn : n < 2 ^ 63) (D : Nat → Doc) : KeysAlike (pairDocs idxDoc D 0 n) := by
  refine .uint ?_
  rintro ⟨k, v⟩ hkv
  obtain ⟨j, -, hj, rfl, rfl⟩ := mem_pairDocs.1 hkv
  exact ⟨j, rfl, by omega⟩

theorem alike_str {n : Nat} {f : Nat → Bytes} (D : Nat → Doc) : KeysAlike (pairDocs (fun j => strDoc (f j)) D 0 n) := by
  refine .str ?_
  rintro ⟨k, v⟩ hkv
  obtain ⟨j, -, hj, rfl, rfl⟩ := mem_pairDocs.1 hkv
  exact ⟨_, rfl⟩

theorem alike_keys {k : Ty} {es : List (GV × GV)} {kd : Nat → Doc} (hk : ∀ (i : Nat) (x y : GV), es[i]? = some (x, y) → KeyDoc W k x (kd i))
    (hr : ∀ x ∈ es, Ranged W k x.1) (D : Nat → Doc) : KeysAlike (pairDocs kd D 0 es.length) := by
  cases es with
  | nil => exact .str fun e he => by simp [pairDocs] at he
  | cons e0 es =>
    have key : ∀ j, j < (e0 :: es).length → ∃ x, KeyDoc W k x (kd j) ∧ Ranged W k x := fun j hj =>
      ⟨_, hk j _ _ (List.getElem?_eq_getElem hj), hr _ (List.getElem_mem hj)⟩
    obtain ⟨x0, h0, -⟩ := key 0 (by simp)
    generalize kd 0 = d0 at h0
    cases h0 with
    | @int k' _ h1 =>
      refine .int ?_
      rintro ⟨kk, v⟩ hkv
      obtain ⟨j, -, hj, rfl, rfl⟩ := mem_pairDocs.1 hkv
      obtain ⟨x, h2, h3⟩ := key j (by omega)
      show ∃ i, kd j = _ ∧ _
      generalize kd j = d at h2
      cases h2 with
      | int h4 => have := h3 _ h4; rename_i kk2 _; have := intMax_le kk2; unfold InRange at *; exact ⟨_, rfl, by omega, by omega⟩
      | uint h4 => rw [h1] at h4; cases h4
      | str h4 => rw [h1] at h4; cases h4
    | uint h1 _ =>
      refine .uint ?_
      rintro ⟨kk, v⟩ hkv
      obtain ⟨j, -, hj, rfl, rfl⟩ := mem_pairDocs.1 hkv
      obtain ⟨x, h2, h3⟩ := key j (by omega)
      show ∃ i, kd j = _ ∧ _
      generalize kd j = d at h2
      cases h2 with
      | int h4 => rw [h1] at h4; cases h4
      | uint h4 => have := h3 _ h4; rename_i kk2 _ _; have := uintMax_le kk2; unfold InURange at *; exact ⟨_, rfl, by omega⟩
      | str h4 => rw [h1] at h4; cases h4
    | str h1 =>
      refine .str ?_
      rintro ⟨kk, v⟩ hkv
      obtain ⟨j, -, hj, rfl, rfl⟩ := mem_pairDocs.1 hkv
      obtain ⟨x, h2, h3⟩ := key j (by omega)
      show ∃ s, kd j = _
      generalize kd j = d at h2
      cases h2 with
      | int h4 => rw [h1] at h4; cases h4
      | uint h4 => rw [h1] at h4; cases h4
      | str h4 => exact ⟨_, rfl⟩

theorem sound_ne {t : Ty} {id : Nat} {vs : List GV} {ws : List WField} (hr : W.resolve t = .struct id)
    (hw : Written W 0 (W.fields id) vs ws) {i j : Nat} {x y : WField} (hx : ws[i]? = some x) (hy : ws[j]? = some y) (hij : i < j)
    (hk : Sound W h t (.struct vs)) : strDoc ((ws[i]?.map (·.key)).getD []) ≠ strDoc ((ws[j]?.map (·.key)).getD []) :=
  fields_ne (h := h) hr hw hx hy hij fun id' i' j' f g key h1 => hk.fields id' h1 i' j' f g key

/-- Every text of a value is the text of a writable document. -/
theorem encG_writable {ok : Ty → Prop} {G : Stack → Nat → Bool → Prop}
    {m : Mode} {st : Stack} {p : Path} {t : Ty} {v : GV} {tx : Bytes} (he : EncG W h ok G m st p t v tx)
    (hk : ∀ t' v', Within W h t v t' v' → Sound W h t' v') : ∃ d, tx = d.text ∧ Wr W d := by
  have hnull : ∃ d : Doc, Doc.null.text = d.text ∧ Wr W d := ⟨.null, rfl, fun _ => .null⟩
  have hstr : ∀ s, ∃ d : Doc, (strDoc s).text = d.text ∧ Wr W d := fun s => ⟨strDoc s, rfl, fun _ => .str⟩
  induction he with
  | marshaler a hr => rw [(hk _ _ .refl).method] at a; cases a
  | bytesNil => exact hstr _
  | bytes => exact hstr _
  | plain _ _ _ _ ih => exact ih hk
  | ptrNil => exact hnull
  | ptrStruct _ hr _ _ _ ih => exact ih fun t' v' hw => hk t' v' (.step (.ptr hr) hw)
  | ptrKind _ hr _ _ ih => exact ih fun t' v' hw => hk t' v' (.step (.ptr hr) hw)
  | ptrTyped _ hr _ _ _ _ _ ih => exact ih fun t' v' hw => hk t' v' (.step (.ptr hr) hw)
  | ptrIface _ _ _ _ ih => exact ih hk
  | scalar hs => exact ⟨_, rfl, wr_scalar hs (hk _ _ .refl).range⟩
  | struct hr hws _ ih =>
    exact wr_container (fun _ D => alike_str D) (fun i j x y hx hy hij => sound_ne hr hws hx hy hij (hk _ _ .refl)) fun j w hw => ih j w hw fun t' v' hw' =>
      hk t' v' (.step (written_part hr hws hw) hw')
  | array hr _ _ ih =>
    exact wr_container alike_idx idx_ne fun j w hw => ih j w hw fun t' v' hw' => hk t' v' (.step (.array hr (List.mem_of_getElem? hw)) hw')
  | sliceNil => exact hnull
  | slice hr _ hv _ ih =>
    subst hv
    exact wr_container alike_idx idx_ne fun j w hw => ih j w hw fun t' v' hw' => hk t' v' (.step (.slice hr (List.mem_of_getElem? hw)) hw')
  | mapNil => exact hnull
  | map hr _ hv hkd _ ih =>
    subst hv
    have hs := fun p => (hk _ _ .refl).keys _ _ _ p rfl hr
    exact wr_container (fun _ D => alike_keys hkd (hs _).2 D)
      (fun i j x y hx hy hij => keys_ne (hkd i x.1 x.2 hx) (hkd j y.1 y.2 hy) (pairwise_ne (hs _).1 hx hy hij)) fun j w hw => ih j w.1 w.2 hw fun t' v' hw' =>
      hk t' v' (.step (.map hr (List.mem_of_getElem? hw)) hw')
  | iface _ _ ih => exact ih hk
  | heldNil => exact hnull
  | heldScalar hd hs => exact ⟨_, rfl, wr_scalar hs (hk _ _ (deref_within hd rfl)).range⟩
  | heldConcreteSlice hd _ _ _ _ _ ih => exact ih fun t' v' hw => hk t' v' (within_trans (deref_within hd rfl) hw)
  | heldSliceNil => exact hnull
  | heldSlice hd hr _ _ hv _ ih =>
    subst hv
    exact wr_container alike_idx idx_ne fun j w hw => ih j w hw fun t' v' hw' =>
      hk t' v' (within_trans (deref_within hd rfl) (.step (.slice hr (List.mem_of_getElem? hw)) hw'))
  | heldMapNil => exact hnull
  | heldMap hd hr _ _ _ hv hkd _ ih =>
    subst hv
    have hs := fun p => (hk _ _ (deref_within hd rfl)).keys _ _ _ p rfl hr
    exact wr_container (fun _ D => alike_keys hkd (hs _).2 D)
      (fun i j x y hx hy hij => keys_ne (hkd i x.1 x.2 hx) (hkd j y.1 y.2 hy) (pairwise_ne (hs _).1 hx hy hij)) fun j w hw => ih j w.1 w.2 hw fun t' v' hw' =>
      hk t' v' (within_trans (deref_within hd rfl) (.step (.map hr (List.mem_of_getElem? hw)) hw'))
  | heldConcreteMap hd hr _ _ _ hv _ hkd _ ih =>
    subst hv
    have hs := fun p => (hk _ _ (deref_within hd rfl)).keys _ _ _ p rfl hr
    exact wr_container (fun _ D => alike_keys hkd (hs _).2 D)
      (fun i j x y hx hy hij => keys_ne (hkd i x.1 x.2 hx) (hkd j y.1 y.2 hy) (pairwise_ne (hs _).1 hx hy hij)) fun j w hw => ih j w.1 w.2 hw fun t' v' hw' =>
      hk t' v' (within_trans (deref_within hd rfl) (.step (.map hr (List.mem_of_getElem? hw)) hw'))
  | heldStruct hd _ _ _ ih => exact ih fun t' v' hw => hk t' v' (within_trans (deref_within hd rfl) hw)
  | fieldPlain _ _ ih => exact ih hk
  | fieldPtrNil => exact hnull
  | fieldPtrStruct hr _ _ _ ih => exact ih fun t' v' hw => hk t' v' (.step (.ptr hr) hw)
  | fieldPtr hr _ _ ih => exact ih fun t' v' hw => hk t' v' (.step (.ptr hr) hw)
  | fieldStr _ hd => exact ⟨_, rfl, wr_strField hd⟩
  | fieldStrPtr _ hd => exact ⟨_, rfl, wr_strField hd⟩

/-! ### What is writable can be written -/

/-- A number for every sequence of bytes. -/
def codeB : Bytes → Nat
  | [] => 0
  | b :: bs => 257 * codeB bs + b.toNat + 1

theorem codeB_inj {x y : Bytes} (he : codeB x = codeB y) : x = y := by
  induction x generalizing y with
  | nil => cases y with
    | nil => rfl
    | cons => simp [codeB] at he
  | cons b x ih => cases y with
    | nil => simp [codeB] at he
    | cons c y =>
      simp only [codeB] at he
      have hb := b.toNat_lt
      have hc := c.toNat_lt
      have h1 : codeB x = codeB y := by omega
      have h2 : b.toNat = c.toNat := by omega
      rw [ih h1, UInt8.toNat_inj.1 h2]

/-- Writable, and of a length Go can handle. -/
def FineDoc (W : World) (d : Doc) : Prop := Writable W d ∧ d.text.length < 2 ^ 63

theorem wf_writable (hf : FloatTextsOk W) {d : Doc} (hd : Writable W d) : Wf d := by
  induction hd with
  | null => exact fun _ => .null
  | bool => exact fun _ => .bool
  | int => exact wf_int _
  | @f64 x s ho => exact wf_scalar hf (t := .f64) (v := .f64 x) (.f64 rfl ho)
  | @f32 x s ho => exact wf_scalar hf (t := .f32) (v := .f32 x) (.f32 rfl ho)
  | str => exact wf_str _
  | @arr es hk hn _ ih =>
    have : es = pairDocs (fun j => (es[j]?.getD (.null, .null)).1) (fun j => (es[j]?.getD (.null, .null)).2) 0 es.length := by
      apply List.ext_getElem?
      intro j
      by_cases hj : j < es.length
      · rw [pairDocs_get hj, List.getElem?_eq_getElem hj]; rfl
      · rw [List.getElem?_eq_none (by omega), List.getElem?_eq_none (by rw [pairDocs_length]; omega)]
    have hw := wf_arr (kd := fun j => (es[j]?.getD (.null, .null)).1) (D := fun j => (es[j]?.getD (.null, .null)).2) (n := es.length)
      (fun j hj => ?_) (fun j hj => ?_)
    · rwa [← this] at hw
    · rw [List.getElem?_eq_getElem hj]
      have hm := List.getElem_mem hj
      show Wf es[j].1
      cases hk with
      | str h => obtain ⟨s, hs⟩ := h _ hm; rw [hs]; exact wf_str _
      | int h => obtain ⟨s, hs, -⟩ := h _ hm; rw [hs]; exact wf_int _
      | uint h => obtain ⟨s, hs, -⟩ := h _ hm; rw [hs]; exact wf_nat _
    · rw [List.getElem?_eq_getElem hj]
      exact ih _ (List.getElem_mem hj)

open Classical in
/-- The document with a number. -/
noncomputable def docAt (W : World) (a : Nat) : Doc :=
  if h : ∃ d, FineDoc W d ∧ codeB d.text = a then Classical.choose h else .null

theorem docAt_code (hf : FloatTextsOk W) {d : Doc} (hd : FineDoc W d) : docAt W (codeB d.text) = d := by
  have he : ∃ d', FineDoc W d' ∧ codeB d'.text = codeB d.text := ⟨d, hd, rfl⟩
  rw [docAt, dif_pos he]
  have hs := Classical.choose_spec he
  exact wf_unique (wf_writable hf hs.1.1) (wf_writable hf hd.1) (codeB_inj hs.2) hs.1.2

/-- The types of scalars used. -/
def PlainScalar (t : Ty) : Prop := t = .bool ∨ t = .int .i64 ∨ t = .uint .u64 ∨ t = .f32 ∨ t = .f64 ∨ t = .str

/-- The types of keys used. -/
def PlainKey (t : Ty) : Prop := t = .int .i64 ∨ t = .uint .u64 ∨ t = .str

/-- Keys of type `k` for the entries. -/
def KeysOf (W : World) (k : Ty) (es : List (Doc × Doc)) : Prop := PlainKey k ∧ ∀ e ∈ es, ∃ x, KeyDoc W k x e.1 ∧ Ranged W k x

theorem i64_range {i : Int} (h1 : -2 ^ 63 ≤ i) (h2 : i < 2 ^ 63) : InRange .i64 i := by
  have : intMax .i64 = 9223372036854775807 := rfl
  unfold InRange
  omega

theorem u64_range {n : Nat} (h1 : n < 2 ^ 64) : InURange .u64 n := by
  have : uintMax .u64 = 18446744073709551615 := rfl
  unfold InURange
  omega

theorem keyDoc_once {k : Ty} {x : GV} {d d' : Doc} (h1 : KeyDoc W k x d) (h2 : KeyDoc W k x d') : d = d' := by
  cases h1 <;> cases h2 <;> rfl

theorem keysOf_alike {es : List (Doc × Doc)} (hk : KeysAlike es) : ∃ k, KeysOf W k es := by
  cases hk with
  | str h => exact ⟨.str, .inr (.inr rfl), fun e he => by obtain ⟨s, hs⟩ := h e he; rw [hs]; exact ⟨.str s, .str rfl, trivial⟩⟩
  | int h =>
    refine ⟨.int .i64, .inl rfl, fun e he => ?_⟩
    obtain ⟨i, hs, h1, h2⟩ := h e he
    rw [hs]
    exact ⟨.int i, .int rfl, fun k hk => by cases hk; exact i64_range (by omega) (by omega)⟩
  | uint h =>
    refine ⟨.uint .u64, .inr (.inl rfl), fun e he => ?_⟩
    obtain ⟨n, hs, h1⟩ := h e he
    rw [hs]
    exact ⟨.uint n, .uint rfl (by decide), fun k hk => by cases hk; exact u64_range (by omega)⟩

open Classical in
noncomputable def keyTy (W : World) (es : List (Doc × Doc)) : Ty := if h : ∃ k, KeysOf W k es then Classical.choose h else .str

theorem keyTy_spec {es : List (Doc × Doc)} (hk : KeysAlike es) : KeysOf W (keyTy W es) es := by
  have he := keysOf_alike (W := W) hk
  rw [keyTy, dif_pos he]
  exact Classical.choose_spec he

open Classical in
noncomputable def rangeKey (W : World) (k : Ty) (d : Doc) : GV := if h : ∃ x, KeyDoc W k x d ∧ Ranged W k x then Classical.choose h else .str []

theorem rangeKey_spec {k : Ty} {d : Doc} (h : ∃ x, KeyDoc W k x d ∧ Ranged W k x) : KeyDoc W k (rangeKey W k d) d ∧ Ranged W k (rangeKey W k d) := by
  rw [rangeKey, dif_pos h]
  exact Classical.choose_spec h

/-- A scalar for the document. -/
def HasScalar (W : World) (d : Doc) : Prop := ∃ x : Ty × GV, PlainScalar x.1 ∧ ScalarDoc W x.1 x.2 d ∧ Ranged W x.1 x.2

open Classical in
/-- The interface that holds a value for a document. -/
noncomputable def valOf (W : World) (d : Doc) : GV :=
  if h : HasScalar W d then .iface (Classical.choose h).1 (Classical.choose h).2 else
    match d with
    | .arr c es => .iface (.map (keyTy W es) .any) (.map (codeB (Doc.arr c es).text))
    | _ => .ifaceNil

/-- The memory in which the map at an address has the entries of the document with that number. -/
noncomputable def rangeHeap (W : World) (d : Doc) : Heap where
  deref := fun _ _ => valOf W d
  elems := fun _ _ _ => []
  iter := fun k _ _ a => match docAt W a with
    | .arr _ es => es.map fun e => (rangeKey W k e.1, valOf W e.2)
    | _ => []
  marshal := fun _ _ => .ok []

theorem valOf_cases {d : Doc} (hd : Writable W d) : (d = .null ∧ valOf W d = .ifaceNil) ∨
    (∃ t v, PlainScalar t ∧ ScalarDoc W t v d ∧ Ranged W t v ∧ valOf W d = .iface t v) ∨
    ∃ es, d = .arr (natText es.length) es ∧ KeysAlike es ∧ es.Pairwise (fun x y => x.1 ≠ y.1) ∧ (∀ e ∈ es, Writable W e.2) ∧
      valOf W d = .iface (.map (keyTy W es) .any) (.map (codeB d.text)) := by
  have scalar : HasScalar W d → ∃ t v, PlainScalar t ∧ ScalarDoc W t v d ∧ Ranged W t v ∧ valOf W d = .iface t v := fun hh => by
    have hs := Classical.choose_spec hh
    exact ⟨_, _, hs.1, hs.2.1, hs.2.2, by rw [valOf, dif_pos hh]⟩
  cases hd with
  | null =>
    refine .inl ⟨rfl, ?_⟩
    rw [valOf, dif_neg]
    rintro ⟨⟨xt, xv⟩, -, hs, -⟩
    simp only at hs
    generalize hn : Doc.null = n at hs
    cases hs <;> cases hn
  | @bool b => exact .inr (.inl (scalar ⟨(.bool, .bool b), .inl rfl, .bool rfl, trivial⟩))
  | @int i h1 h2 =>
    refine .inr (.inl (scalar ?_))
    by_cases hi : i < 2 ^ 63
    · exact ⟨(.int .i64, .int i), .inr (.inl rfl), .int rfl, fun k hk => by cases hk; exact i64_range (by omega) (by omega)⟩
    · obtain ⟨n, rfl⟩ : ∃ n : Nat, i = n := ⟨i.toNat, by omega⟩
      exact ⟨(.uint .u64, .uint n), .inr (.inr (.inl rfl)), .uint rfl (by decide), fun k hk => by cases hk; exact u64_range (by omega)⟩
  | @f64 x s ho => exact .inr (.inl (scalar ⟨(.f64, .f64 x), .inr (.inr (.inr (.inr (.inl rfl)))), .f64 rfl ho, trivial⟩))
  | @f32 x s ho => exact .inr (.inl (scalar ⟨(.f32, .f32 x), .inr (.inr (.inr (.inl rfl))), .f32 rfl ho, trivial⟩))
  | @str s => exact .inr (.inl (scalar ⟨(.str, .str s), .inr (.inr (.inr (.inr (.inr rfl)))), .str rfl, trivial⟩))
  | @arr es h1 h2 h3 =>
    refine .inr (.inr ⟨es, rfl, h1, h2, h3, ?_⟩)
    rw [valOf, dif_neg]
    rintro ⟨⟨xt, xv⟩, -, hs, -⟩
    simp only at hs
    generalize hn : Doc.arr (natText es.length) es = n at hs
    cases hs <;> cases hn

theorem range_iter (hf : FloatTextsOk W) {d : Doc} {c : Bytes} {es : List (Doc × Doc)} (hd : FineDoc W (.arr c es)) (k e : Ty) (p : Path) :
    (rangeHeap W d).iter k e p (codeB (Doc.arr c es).text) = es.map fun e => (rangeKey W k e.1, valOf W e.2) := by
  show (match docAt W _ with | .arr _ es => es.map _ | _ => []) = _
  rw [docAt_code hf hd]

theorem fine_entry {c : Bytes} {es : List (Doc × Doc)} (hl : (Doc.arr c es).text.length < 2 ^ 63) (hw : ∀ e ∈ es, Writable W e.2) {e : Doc × Doc} (he : e ∈ es) :
    FineDoc W e.2 ∧ e.2.text.length < (Doc.arr c es).text.length := by
  have h1 := container_len (d := .arr c es) .arr
  have h2 := mem_pairs_len (k := e.1) (d := e.2) he
  exact ⟨⟨hw e he, by omega⟩, by omega⟩

theorem plainScalar_shape {t : Ty} (h : PlainScalar t) : W.isPtr t = false ∧ W.isIface t = false ∧ W.marOf t = false := by
  rcases h with rfl | rfl | rfl | rfl | rfl | rfl <;> exact ⟨rfl, rfl, rfl⟩

theorem plainKey_kind {t : Ty} (h : PlainKey t) : KeyKind W t := by
  rcases h with rfl | rfl | rfl
  · exact .int _ rfl
  · exact .uint _ rfl (by decide)
  · exact .str rfl

theorem range_enc (hf : FloatTextsOk W) {top : Doc} {N : Nat} : ∀ {d : Doc}, d.text.length ≤ N → FineDoc W d → ∀ {st : Stack} {p : Path} {t : Ty} {v : GV},
    (∀ o, Deref W (rangeHeap W top) .any (valOf W d) o → Deref W (rangeHeap W top) t v o) →
    (∀ a ∈ st.map (·.1), ∃ tx, a = codeB tx ∧ d.text.length < tx.length) →
    EncC W (rangeHeap W top) .held st p t v d.text := by
  induction N with
  | zero => intro d hN; have := text_pos d; omega
  | succ N ih =>
    intro d hN hd st p t v hv hst
    rcases valOf_cases hd.1 with ⟨rfl, h1⟩ | ⟨t', v', h1, h2, h3, h4⟩ | ⟨es, he, h1, h2, h3, h4⟩
    · exact .heldNil (hv _ (by rw [h1]; exact .ifaceNil rfl))
    · have := plainScalar_shape (W := W) h1
      exact .heldScalar (hv _ (by rw [h4]; exact .iface rfl (.done this.1 this.2.1))) h2
    · have hk := keyTy_spec (W := W) h1
      have hi : (rangeHeap W top).iter (keyTy W es) .any p (codeB d.text) = es.map fun e => (rangeKey W (keyTy W es) e.1, valOf W e.2) := by
        have := range_iter hf (d := top) (c := natText es.length) (es := es) (by rw [← he]; exact hd) (keyTy W es) .any p
        rw [← he] at this
        exact this
      have ht : d.text = arrText (es.map fun e => (rangeKey W (keyTy W es) e.1, valOf W e.2)).length (fun j => (es[j]?.getD (.null, .null)).1)
          (fun j => (es[j]?.getD (.null, .null)).2.text) := by
        rw [arrText_doc (D := fun j => (es[j]?.getD (.null, .null)).2) fun _ _ => rfl, List.length_map]
        conv => lhs; rw [he]
        congr 2
        apply List.ext_getElem?
        intro j
        by_cases hj : j < es.length
        · rw [pairDocs_get hj, List.getElem?_eq_getElem hj]; rfl
        · rw [List.getElem?_eq_none (by omega), List.getElem?_eq_none (by rw [pairDocs_length]; omega)]
      have entry : ∀ (i : Nat) (x y : GV), (es.map fun e => (rangeKey W (keyTy W es) e.1, valOf W e.2))[i]? = some (x, y) →
          ∃ e ∈ es, es[i]? = some e ∧ x = rangeKey W (keyTy W es) e.1 ∧ y = valOf W e.2 := by
        intro i x y hxy
        rw [List.getElem?_map, Option.map_eq_some_iff] at hxy
        obtain ⟨e, h5, h6⟩ := hxy
        cases h6
        exact ⟨e, List.mem_of_getElem? h5, h5, rfl, rfl⟩
      rw [ht]
      refine .heldMap (hv _ (by rw [h4]; exact .iface rfl (.done rfl rfl))) rfl (plainKey_kind hk.1) rfl (.inr fun hs => ?_) hi (fun i x y hxy => ?_) fun i x y hxy => ?_
      · obtain ⟨tx, h5, h6⟩ := hst _ (seenOf_sub hs)
        rw [codeB_inj h5] at h6
        omega
      · obtain ⟨e, h5, h6, rfl, rfl⟩ := entry i x y hxy
        rw [h6]
        exact (rangeKey_spec (hk.2 e h5)).1
      · obtain ⟨e, h5, h6, rfl, rfl⟩ := entry i x y hxy
        rw [h6]
        have hfe := fine_entry (W := W) (c := natText es.length) (by rw [← he]; exact hd.2) h3 h5
        rw [← he] at hfe
        refine ih (by show e.2.text.length ≤ N; omega) hfe.1 (fun o ho => ho) fun a ha => ?_
        simp only [List.map_cons, List.mem_cons] at ha
        rcases ha with rfl | ha
        · exact ⟨d.text, rfl, hfe.2⟩
        · obtain ⟨tx, h7, h8⟩ := hst a ha
          exact ⟨tx, h7, by have := hfe.2; show e.2.text.length < _; omega⟩

theorem range_sound (hf : FloatTextsOk W) {d : Doc} (hd : FineDoc W d) {t' : Ty} {v' : GV} (hw : Within W (rangeHeap W d) (.ptr .any) (.ptr 1) t' v') :
    Sound W (rangeHeap W d) t' v' := by
  let S : Ty → GV → Prop := fun t v => (t = .ptr .any ∧ v = .ptr 1) ∨ (t = .any ∧ ∃ d, FineDoc W d ∧ v = valOf W d) ∨ ∃ d, FineDoc W d ∧ valOf W d = .iface t v
  have part : ∀ t v t' v', S t v → Part W (rangeHeap W d) t v t' v' → S t' v' := by
    rintro t v t' v' (⟨rfl, rfl⟩ | ⟨rfl, d1, h1, rfl⟩ | ⟨d1, h1, h2⟩) hp
    · cases hp with
      | ptr hr => cases hr; exact .inr (.inl ⟨rfl, d, hd, rfl⟩)
    · generalize hv : valOf W d1 = v at hp
      cases hp with
      | iface => exact .inr (.inr ⟨d1, h1, hv⟩)
      | ptr hr => cases hr
      | slice hr => cases hr
      | array hr => cases hr
      | map hr => cases hr
      | field hr => cases hr
    · rcases valOf_cases h1.1 with ⟨rfl, h3⟩ | ⟨t1, v1, h3, h4, h5, h6⟩ | ⟨es, he, h3, h4, h5, h6⟩
      · rw [h3] at h2; cases h2
      · rw [h6] at h2; cases h2
        rcases h3 with rfl | rfl | rfl | rfl | rfl | rfl <;> cases h4 <;> cases hp
      · rw [h6] at h2; cases h2
        cases hp with
        | map hr hm =>
          cases hr
          rw [he] at hm h1
          rw [range_iter hf h1, List.mem_map] at hm
          obtain ⟨e, h7, h8⟩ := hm
          cases h8
          exact .inr (.inl ⟨rfl, e.2, (fine_entry h1.2 h5 h7).1, rfl⟩)
  rcases closed_within part (.inl ⟨rfl, rfl⟩ : S _ _) hw with ⟨rfl, rfl⟩ | ⟨rfl, d1, h1, rfl⟩ | ⟨d1, h1, h2⟩
  · exact ⟨rfl, trivial, (fun a k e p h => by cases h), (fun id h => by cases h)⟩
  · refine ⟨rfl, ?_, (fun a k e p _ h => by cases h), (fun id h => by cases h)⟩
    cases hv : valOf W d1 <;> first | trivial | (intro k hk; cases hk)
  · rcases valOf_cases h1.1 with ⟨rfl, h3⟩ | ⟨t1, v1, h3, h4, h5, h6⟩ | ⟨es, he, h3, h4, h5, h6⟩
    · rw [h3] at h2; cases h2
    · rw [h6] at h2; cases h2
      refine ⟨(plainScalar_shape h3).2.2, h5, fun a k e p _ h => ?_, fun id h => ?_⟩ <;>
        rcases h3 with rfl | rfl | rfl | rfl | rfl | rfl <;> cases h
    · rw [h6] at h2; cases h2
      have hk := keyTy_spec (W := W) h3
      refine ⟨rfl, trivial, fun a k e p ha h => ?_, fun id h => by cases h⟩
      cases h
      cases ha
      rw [he] at h1 ⊢
      rw [range_iter hf h1]
      constructor
      · rw [List.pairwise_map]
        refine h4.imp_of_mem fun {x y} hx hy hne hxy => hne ?_
        have hx' := (rangeKey_spec (hk.2 x hx)).1
        have hy' := (rangeKey_spec (hk.2 y hy)).1
        simp only at hxy
        rw [hxy] at hx'
        exact keyDoc_once hx' hy'
      · intro x hx
        rw [List.mem_map] at hx
        obtain ⟨e, h7, rfl⟩ := hx
        exact (rangeKey_spec (hk.2 e h7)).2

theorem range_supported : Supported W (.ptr .any) := by
  refine (supported_ptr (e := .any) rfl rfl rfl).2 ⟨⟨1, ?_⟩, rfl⟩
  unfold Accepted compileE
  simp [World.marOf, World.resolve]

theorem range_written (hf : FloatTextsOk W) {d : Doc} (hd : FineDoc W d) : MarshalGives W (rangeHeap W d) (some (.ptr .any, .ptr 1)) (.ok d.text) :=
  marshalGives_ok_iff.2 ⟨range_supported, .ptrIface rfl rfl rfl
    (range_enc hf (Nat.le_refl _) hd (fun o ho => .ptr rfl ho) (by simp))⟩

end Verif

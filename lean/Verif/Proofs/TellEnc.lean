import Verif.Proofs.Tell
/-
Values with the same text are the same.
-/
namespace Verif
open Spec

variable {W : World} {h h' : Heap}

theorem seen_mono {t t' : Ty} {v v' : GV} (hs : Seen W h true t v t' v') : Seen W h false t v t' v' := by
  cases hs with
  | refl => exact .refl
  | step _ a b => exact .step (fun hh => by cases hh) a b
  | pointee a b => exact .pointee a b

theorem wf_unique {d d' : Doc} (h1 : Wf d) (h2 : Wf d') (he : d.text = d'.text) (hl : d.text.length < 2 ^ 63) : d = d' :=
  (lax_unique (lax_of_strict (h1 hl)) (lax_of_strict (h2 (he ▸ hl))) (r1 := []) (r2 := []) (by rw [he])).1

/-- Arrays with the same text have the same entries. -/
theorem arr_told {n n' : Nat} {kd kd' : Nat → Doc} {tx tx' : Nat → Bytes} (he : arrText n kd tx = arrText n' kd' tx') (hl : (arrText n kd tx).length < 2 ^ 63)
    (hk : ∀ j, j < n → Wf (kd j)) (hk' : ∀ j, j < n' → Wf (kd' j)) (hd : ∀ j, j < n → ∃ d, tx j = d.text ∧ Wf d)
    (hd' : ∀ j, j < n' → ∃ d, tx' j = d.text ∧ Wf d) : n = n' ∧ ∀ j, j < n → kd j = kd' j ∧ tx j = tx' j ∧ (tx j).length < 2 ^ 63 := by
  have pick : ∀ {n : Nat} {tx : Nat → Bytes}, (∀ j, j < n → ∃ d, tx j = d.text ∧ Wf d) → ∃ D : Nat → Doc, ∀ j, j < n → tx j = (D j).text ∧ Wf (D j) := by
    intro n tx hd
    obtain ⟨D, hD⟩ := choose_docs (vs := List.range n) (Q := fun j _ d => tx j = d.text ∧ Wf d) fun j v hj => hd j (by simpa using (List.getElem?_eq_some_iff.1 hj).1)
    exact ⟨D, fun j hj => hD j j (by simp [hj])⟩
  obtain ⟨D, hD⟩ := pick hd
  obtain ⟨D', hD'⟩ := pick hd'
  have e1 := arrText_doc (kd := kd) fun j hj => (hD j hj).1
  have e2 := arrText_doc (kd := kd') fun j hj => (hD' j hj).1
  have w1 := wf_arr hk fun j hj => (hD j hj).2
  have w2 := wf_arr hk' fun j hj => (hD' j hj).2
  rw [e1, e2] at he
  rw [e1] at hl
  have := wf_unique w1 w2 he hl
  simp only [Doc.arr.injEq] at this
  obtain ⟨h1, h2⟩ := this
  obtain rfl := natText_inj h1
  refine ⟨rfl, fun j hj => ?_⟩
  have h3 := congrArg (fun l => l[j]?) h2
  simp only [pairDocs, List.getElem?_map, List.getElem?_range', hj, Option.map_some] at h3
  simp at h3
  have h4 : (kd j, D j) ∈ pairDocs kd D 0 n := mem_pairDocs.2 ⟨j, Nat.zero_le _, by omega, rfl, rfl⟩
  have h5 := mem_pairs_len h4
  have h6 := container_len (d := .arr (natText n) (pairDocs kd D 0 n)) .arr
  exact ⟨h3.1, by rw [(hD j hj).1, (hD' j hj).1, h3.2], by rw [(hD j hj).1]; omega⟩

/-- The mode in which the method of the type is called. -/
def modeCalls : Mode → Bool
  | .kind => false
  | _ => true

/-- What the text of a value is the text of; and which values are written as null. -/
theorem told_doc (hf : FloatTextsOk W) {ok : Ty → Prop} {G : Stack → Nat → Bool → Prop} {m : Mode} {st : Stack} {p : Path} {t : Ty} {v : GV} {tx : Bytes}
    (he : EncG W h ok G m st p t v tx) (hh : m ≠ .held) (hk : m = .kind → t ≠ .slice (.uint .u8))
    (hq : ∀ t' u, Seen W h (modeCalls m) t v t' u → Clear W h t' u) :
    ∃ d, tx = d.text ∧ Wf d ∧ (d = .null → v = .ptrNil ∨ (v = .sliceNil ∧ t ≠ .slice (.uint .u8)) ∨ v = .mapNil) := by
  have ptr : ∀ {t e a tx}, W.resolve t = .ptr e → Clear W h t (.ptr a) →
      (∃ d : Doc, tx = d.text ∧ Wf d ∧ (d = .null → h.deref e a = .ptrNil ∨ (h.deref e a = .sliceNil ∧ e ≠ .slice (.uint .u8)) ∨ h.deref e a = .mapNil)) →
      ∃ d : Doc, tx = d.text ∧ Wf d ∧ (d = .null → GV.ptr a = .ptrNil ∨ (GV.ptr a = .sliceNil ∧ t ≠ .slice (.uint .u8)) ∨ GV.ptr a = .mapNil) := by
    rintro t e a tx hr hc ⟨d, h1, h2, h3⟩
    obtain ⟨c1, c2, c3⟩ := hc.ptr e a hr rfl
    refine ⟨d, h1, h2, fun hd => ?_⟩
    rcases h3 hd with h | ⟨h, hn⟩ | h
    · exact absurd h c3
    · exact absurd (c1 h) hn
    · exact absurd h c2
  have base : ∀ {v : GV} {t : Ty} {d : Doc}, Wf d → d ≠ .null → ∃ d' : Doc, d.text = d'.text ∧ Wf d' ∧ (d' = .null → v = .ptrNil ∨ (v = .sliceNil ∧ t ≠ .slice (.uint .u8)) ∨ v = .mapNil) :=
    fun h1 h2 => ⟨_, rfl, h1, fun h => absurd h h2⟩
  have cont : ∀ {v : GV} {t : Ty} {α : Type} {vs : List α} {kd : Nat → Doc} {tx : Nat → Bytes}, (∀ j v, vs[j]? = some v → Wf (kd j)) →
      (∀ j v, vs[j]? = some v → ∃ d, tx j = d.text ∧ Wf d) →
      ∃ d : Doc, arrText vs.length kd tx = d.text ∧ Wf d ∧ (d = .null → v = .ptrNil ∨ (v = .sliceNil ∧ t ≠ .slice (.uint .u8)) ∨ v = .mapNil) := by
    intro v t α vs kd tx h1 h2
    obtain ⟨D, hD⟩ := choose_docs h2
    exact ⟨_, arrText_doc fun j hj => (hD j vs[j] (List.getElem?_eq_getElem hj)).1,
      wf_arr (fun j hj => h1 j vs[j] (List.getElem?_eq_getElem hj)) fun j hj => (hD j vs[j] (List.getElem?_eq_getElem hj)).2, fun h => by cases h⟩
  have fs : ∀ {t v d}, StrFieldDoc W h t v d → W.isIface t = false → d ≠ .null := fun h1 h2 => by
    cases h1 with
    | ifaceNil b => rw [h2] at b; cases b
    | _ => simp [strDoc]
  induction he with
  | marshaler a b =>
    obtain ⟨d, n, h1, h2, h3⟩ := (hq _ _ .refl).method a _ b
    exact ⟨d, h2, fun _ => strict_of_depth h1 (Nat.le_refl _), fun h => absurd h h3⟩
  | bytesNil => exact base (wf_str _) (by simp [strDoc])
  | bytes => exact base (wf_str _) (by simp [strDoc])
  | plain a b c _ ih => exact ih (by simp) (fun _ => b) fun t' u hs => hq t' u (by
      cases hs with
      | refl => exact .refl
      | step _ x y => exact .step (fun _ => a) x y
      | pointee x y => exact .pointee x y)
  | ptrNil => exact ⟨_, rfl, fun _ => .null, fun _ => .inl rfl⟩
  | ptrStruct a b c _ _ ih =>
    exact ptr b (hq _ _ .refl) (ih (by simp) (fun _ => by rintro rfl; simp [World.isStruct, World.resolve] at c) fun t' u hs => hq t' u (.pointee b hs))
  | ptrKind a b c _ ih =>
    exact ptr b (hq _ _ .refl) (ih (by simp) (fun _ => by rintro rfl; simp [directKind, World.resolve] at c) fun t' u hs => hq t' u (.pointee b hs))
  | ptrTyped a b c d e f _ ih => exact ptr b (hq _ _ .refl) (ih (by simp) (by simp) fun t' u hs => hq t' u (.pointee b (seen_mono hs)))
  | ptrIface a b c => rw [(hq _ _ .refl).toIface _ b] at c; cases c
  | scalar a => exact base (wf_scalar hf a) (by cases a <;> simp [strDoc])
  | struct a b _ ih =>
    refine cont (fun _ _ _ => wf_str _) fun j w hw => ?_
    obtain ⟨d, h1, h2, -⟩ := ih j w hw (by simp) (by simp) fun t' u hs => hq t' u (.step (fun hh => by cases hh) (written_part a b hw) hs)
    exact ⟨d, h1, h2⟩
  | array a b _ ih =>
    refine cont (fun _ _ _ => wf_nat _) fun j w hw => ?_
    obtain ⟨d, h1, h2, -⟩ := ih j w hw (by simp) (by simp) fun t' u hs => hq t' u (.step (fun hh => by cases hh) (.array a (List.mem_of_getElem? hw)) hs)
    exact ⟨d, h1, h2⟩
  | sliceNil a => exact ⟨_, rfl, fun _ => .null, fun _ => .inr (.inl ⟨rfl, hk rfl⟩)⟩
  | slice a _ b _ ih =>
    subst b
    refine cont (fun _ _ _ => wf_nat _) fun j w hw => ?_
    obtain ⟨d, h1, h2, -⟩ := ih j w hw (by simp) (by simp) fun t' u hs => hq t' u (.step (fun hh => by cases hh) (.slice a (List.mem_of_getElem? hw)) hs)
    exact ⟨d, h1, h2⟩
  | mapNil a => exact ⟨_, rfl, fun _ => .null, fun _ => .inr (.inr rfl)⟩
  | map a _ b c _ ih =>
    subst b
    refine cont (fun j w hw => wf_key (c j w.1 w.2 hw)) fun j w hw => ?_
    obtain ⟨d, h1, h2, -⟩ := ih j w.1 w.2 hw (by simp) (by simp) fun t' u hs => hq t' u (.step (fun hh => by cases hh) (.map a (List.mem_of_getElem? hw)) hs)
    exact ⟨d, h1, h2⟩
  | iface a => rw [(hq _ _ .refl).iface] at a; cases a
  | fieldPlain a _ ih => exact ih (by simp) (by simp) hq
  | fieldPtrNil => exact ⟨_, rfl, fun _ => .null, fun _ => .inl rfl⟩
  | fieldPtrStruct a b _ _ ih => exact ptr a (hq _ _ .refl) (ih (by simp) (by simp) fun t' u hs => hq t' u (.pointee a (seen_mono hs)))
  | fieldPtr a b _ ih => exact ptr a (hq _ _ .refl) (ih (by simp) (by simp) fun t' u hs => hq t' u (.pointee a (seen_mono hs)))
  | fieldStr a b => exact base (wf_strField b) (fs b (hq _ _ .refl).iface)
  | fieldStrPtr a b => exact base (wf_strField b) (fs b (hq _ _ (.pointee a .refl)).iface)
  | _ => exact absurd rfl hh

theorem seen_called {t t' : Ty} {v u : GV} (a : W.marOf t = false) (hs : Seen W h false t v t' u) : Seen W h true t v t' u := by
  cases hs with
  | refl => exact .refl
  | step _ x y => exact .step (fun _ => a) x y
  | pointee x y => exact .pointee x y

/-- What is written as null. -/
theorem null_told (hf : FloatTextsOk W) {ok : Ty → Prop} {G : Stack → Nat → Bool → Prop} {m : Mode} {st : Stack} {p : Path} {t : Ty} {v : GV} {tx : Bytes}
    (he : EncG W h ok G m st p t v tx) (hx : tx = Doc.null.text) (hh : m ≠ .held) (hk : m = .kind → t ≠ .slice (.uint .u8))
    (hq : ∀ t' u, Seen W h (modeCalls m) t v t' u → Clear W h t' u) : v = .ptrNil ∨ (v = .sliceNil ∧ t ≠ .slice (.uint .u8)) ∨ v = .mapNil := by
  obtain ⟨d, h1, h2, h3⟩ := told_doc hf he hh hk hq
  refine h3 (wf_unique (fun _ => .null) h2 (by rw [← h1, hx]) (by decide)).symm

/-- Structs with the same keys have the same fields written. -/
theorem shown_told {fs : List Field} {vs vs' : List GV} {ws ws' : List WField} (h1 : Written W 0 fs vs ws) (h2 : Written W 0 fs vs' ws')
    (hl : ws.length = ws'.length) (hk : ∀ (j : Nat) (w w' : WField), ws[j]? = some w → ws'[j]? = some w' → w.key = w'.key)
    (hd : ∀ (i j : Nat) (f g : Field) (k : Bytes), fs[i]? = some f → fs[j]? = some g → f.exported = true → g.exported = true → HasKey W f k → HasKey W g k →
      k ≠ [45] → i = j)
    {i : Nat} {f : Field} {x y : GV} (hf : fs[i]? = some f) (hx : vs[i]? = some x) (hy : vs'[i]? = some y) (hs : Shown W f x) : Shown W f y := by
  have h3 := ((written_positions h1).2.2 i (Nat.zero_le _)).2 ⟨f, x, hf, hx, hs⟩
  obtain ⟨w, hw, rfl⟩ := List.mem_map.1 h3
  obtain ⟨j, hj⟩ := List.getElem?_of_mem hw
  obtain ⟨w', hj'⟩ := get_of_lt (l := ws') (i := j) (by have := (List.getElem?_eq_some_iff.1 hj).1; omega)
  obtain ⟨f1, om1, -, a2, -, a4, a5, a6, -⟩ := written_field h1 hw
  obtain ⟨f2, om2, -, b2, -, b4, b5, b6, -⟩ := written_field h2 (List.mem_of_getElem? hj')
  have e := hd _ _ f1 f2 w.key (by simpa using a2) (by simpa using b2) a4 b4 ⟨_, _, a5⟩ (by rw [hk j w w' hj hj']; exact ⟨_, _, b5⟩) a6
  obtain ⟨f3, y3, c1, c2, c3⟩ := ((written_positions h2).2.2 w.idx (Nat.zero_le _)).1 (by rw [e]; exact List.mem_map_of_mem (List.mem_of_getElem? hj'))
  simp only [Nat.sub_zero] at c1 c2
  cases hf.symm.trans c1
  cases hy.symm.trans c2
  exact c3

/-- The entries of two maps that are the same when they are listed in one way. -/
theorem map_told {t k e : Ty} {a a' : Nat} {p p' : Path} (hr : W.resolve t = .map k e) (ho : ∀ k e p q a, (h.iter k e p a).Perm (h.iter k e q a))
    (ho' : ∀ k e p q a, (h'.iter k e p a).Perm (h'.iter k e q a)) (hl : (h.iter k e p a).length = (h'.iter k e p' a').length)
    (hs : ∀ (i : Nat) (x y : GV × GV), (h.iter k e p a)[i]? = some x → (h'.iter k e p' a')[i]? = some y → x.1 = y.1 ∧ SameIn W h h' e x.2 y.2) :
    SameIn W h h' t (.map a) (.map a') := by
  have ex : ∀ q', ∃ E, (h.iter k e p a).Perm E ∧ E.length = (h'.iter k e q' a').length ∧
      ∀ (i : Nat) (y x : GV × GV), (h'.iter k e q' a')[i]? = some y → E[i]? = some x → x.1 = y.1 ∧ SameIn W h h' e x.2 y.2 := fun q' =>
    perm_related (R := fun y x => x.1 = y.1 ∧ SameIn W h h' e x.2 y.2) (ho' k e p' q' a') hl fun i y x hy hx => hs i x y hx hy
  refine .map (k := k) (e := e) (fun _ q' => Classical.choose (ex q')) hr (fun q q' => (ho k e q p a).trans (Classical.choose_spec (ex q')).1)
    (fun q q' => (Classical.choose_spec (ex q')).2.1) (fun q q' i x y hx hy _ => ((Classical.choose_spec (ex q')).2.2 i y x hy hx).1)
    fun q q' i x y hx hy => ((Classical.choose_spec (ex q')).2.2 i y x hy hx).2

set_option hygiene false in
local macro "kill" : tactic => `(tactic| (exfalso; clear hM hq hq' ho ho' hs hi hf hl hk hh scal strs; (try clear ih); first
  | (simp_all [not_struct_of_direct, not_iface_of_direct, not_iface_of_struct]; done)
  | (simp_all [World.isPtr, World.isIface, World.isStruct, directKind, World.marOf, World.resolve]; done)))

set_option maxHeartbeats 1600000 in
/-- Values with the same text are the same. -/
theorem encG_tells (hs : Strconv W) (hi : SpecialTexts W) (ho : ∀ k e p q a, (h.iter k e p a).Perm (h.iter k e q a))
    (ho' : ∀ k e p q a, (h'.iter k e p a).Perm (h'.iter k e q a)) {P P' : Ty → GV → Prop}
    (hM : ∀ t w w' raw, P t w → P' t w' → W.marOf t = true → Marshaled W h t w raw → Marshaled W h' t w' raw → SameIn W h h' t w w')
    {ok ok' : Ty → Prop} {G G' : Stack → Nat → Bool → Prop} {m : Mode} {st st' : Stack} {p p' : Path} {t : Ty} {v v' : GV} {tx tx' : Bytes}
    (he : EncG W h ok G m st p t v tx) (he' : EncG W h' ok' G' m st' p' t v' tx') (hx : tx = tx') (hl : tx.length < 2 ^ 63)
    (hh : m ≠ .held) (hk : m = .kind → t ≠ .slice (.uint .u8))
    (hq : ∀ t' u, Seen W h (modeCalls m) t v t' u → Clear W h t' u ∧ P t' u) (hq' : ∀ t' u, Seen W h' (modeCalls m) t v' t' u → Clear W h' t' u ∧ P' t' u) :
    SameIn W h h' t v v' := by
  have hf := special_floats hs hi
  have scal : ∀ {t v v' d d'}, ScalarDoc W t v d → ScalarDoc W t v' d' → d.text = d'.text → d.text.length < 2 ^ 63 → SameIn W h h' t v v' :=
    fun a b c l => scalar_tells hs hi a b (wf_unique (wf_scalar hf a) (wf_scalar hf b) c l)
  have strs : ∀ {t v v' d d'}, W.isIface t = false → StrFieldDoc W h t v d → StrFieldDoc W h' t v' d' → d.text = d'.text → d.text.length < 2 ^ 63 → SameIn W h h' t v v' :=
    fun f a b c l => strField_tells hs hi f a b (wf_unique (wf_strField a) (wf_strField b) c l)
  induction he generalizing st' p' v' tx' with
  | marshaler a b =>
    cases he' with
    | marshaler _ c => exact hM _ _ _ _ (hq _ _ .refl).2 (hq' _ _ .refl).2 a b (hx ▸ c)
    | bytesNil => simp [World.marOf] at a
    | bytes => simp [World.marOf] at a
    | _ => kill
  | bytesNil =>
    generalize ht : Ty.slice (.uint .u8) = t at he'
    cases he' with
    | marshaler a => subst ht; simp [World.marOf] at a
    | bytesNil => exact .sliceNil
    | bytes b =>
      cases strDoc_told (wf_unique (wf_str _) (wf_str _) hx hl)
      exact .bytesNil (List.eq_nil_of_length_eq_zero (bytes_tells (W := W) (h := h) (h' := h') (xs := []) rfl b).1.symm)
    | plain _ a => exact absurd ht.symm a
    | ptrNil _ b => subst ht; simp [World.resolve] at b
    | ptrStruct _ b => subst ht; simp [World.resolve] at b
    | ptrKind _ b => subst ht; simp [World.resolve] at b
    | ptrTyped _ b => subst ht; simp [World.resolve] at b
    | ptrIface _ b => subst ht; simp [World.resolve] at b
  | bytes a =>
    generalize ht : Ty.slice (.uint .u8) = t at he'
    cases he' with
    | marshaler a => subst ht; simp [World.marOf] at a
    | bytesNil =>
      cases strDoc_told (wf_unique (wf_str _) (wf_str _) hx hl)
      exact .bytesEmpty (List.eq_nil_of_length_eq_zero (bytes_tells (W := W) (h := h) (h' := h') (ys := []) a rfl).1)
    | bytes b =>
      cases strDoc_told (wf_unique (wf_str _) (wf_str _) hx hl)
      obtain ⟨c1, c2⟩ := bytes_tells a b
      exact .slice rfl c1 c2
    | plain _ a => exact absurd ht.symm a
    | ptrNil _ b => subst ht; simp [World.resolve] at b
    | ptrStruct _ b => subst ht; simp [World.resolve] at b
    | ptrKind _ b => subst ht; simp [World.resolve] at b
    | ptrTyped _ b => subst ht; simp [World.resolve] at b
    | ptrIface _ b => subst ht; simp [World.resolve] at b
  | plain a b c _ ih =>
    cases he' with
    | plain _ _ _ x => exact ih x hx hl (by simp) (fun _ => b) (fun t' u s => hq t' u (seen_called a s)) fun t' u s => hq' t' u (seen_called a s)
    | bytesNil => exact absurd rfl b
    | bytes => exact absurd rfl b
    | _ => kill
  | ptrNil a b c d =>
    have n' := null_told hf he' hx.symm hh hk fun t' u s => (hq' t' u s).1
    cases he' with
    | ptrNil => exact .ptrNil
    | ptrStruct => simp at n'
    | ptrKind => simp at n'
    | ptrTyped => simp at n'
    | bytesNil => simp [World.resolve] at b
    | bytes => simp [World.resolve] at b
    | _ => kill
  | ptrStruct a b c g x ih =>
    cases he' with
    | ptrNil => have n := null_told hf (.ptrStruct a b c g x) hx hh hk fun t' u s => (hq t' u s).1; simp at n
    | ptrStruct _ b' _ _ x' =>
      cases b.symm.trans b'
      exact .ptr b (ih x' hx hl (by simp) (fun _ => by rintro rfl; simp [World.isStruct, World.resolve] at c) (fun t' u s => hq t' u (.pointee b s))
        fun t' u s => hq' t' u (.pointee b s))
    | _ => kill
  | ptrKind a b c x ih =>
    cases he' with
    | ptrNil => have n := null_told hf (.ptrKind a b c x) hx hh hk fun t' u s => (hq t' u s).1; simp at n
    | ptrKind _ b' _ x' =>
      cases b.symm.trans b'
      exact .ptr b (ih x' hx hl (by simp) (fun _ => by rintro rfl; simp [directKind, World.resolve] at c) (fun t' u s => hq t' u (.pointee b s))
        fun t' u s => hq' t' u (.pointee b s))
    | _ => kill
  | ptrTyped a b c d e f x ih =>
    cases he' with
    | ptrNil => have n := null_told hf (.ptrTyped a b c d e f x) hx hh hk fun t' u s => (hq t' u s).1; simp at n
    | ptrTyped _ b' _ _ _ _ x' =>
      cases b.symm.trans b'
      exact .ptr b (ih x' hx hl (by simp) (by simp) (fun t' u s => hq t' u (.pointee b (seen_mono s))) fun t' u s => hq' t' u (.pointee b (seen_mono s)))
    | _ => kill
  | ptrIface a b c => rw [(hq _ _ .refl).1.toIface _ b] at c; cases c
  | scalar a =>
    cases he' with
    | scalar b => exact scal a b hx hl
    | iface c => rw [(hq _ _ .refl).1.iface] at c; cases c
    | _ => cases a <;> kill
  | struct a b x ih =>
    cases he' with
    | struct a' b' x' =>
      cases a.symm.trans a'
      obtain ⟨l1, l2⟩ := arr_told hx hl (fun _ _ => wf_str _) (fun _ _ => wf_str _)
        (fun j hj => by
          obtain ⟨w, hw⟩ := get_of_lt hj
          obtain ⟨d, d1, d2, -⟩ := told_doc hf (x j w hw) (by simp) (by simp) fun t' u s => (hq t' u (.step (fun hh => by cases hh) (written_part a b hw) s)).1
          exact ⟨d, d1, d2⟩)
        (fun j hj => by
          obtain ⟨w, hw⟩ := get_of_lt hj
          obtain ⟨d, d1, d2, -⟩ := told_doc hf (x' j w hw) (by simp) (by simp) fun t' u s => (hq' t' u (.step (fun hh => by cases hh) (written_part a b' hw) s)).1
          exact ⟨d, d1, d2⟩)
      have keys : ∀ (j : Nat) (w w' : WField), _ := fun j w w' (hw : _[j]? = some w) (hw' : _[j]? = some w') => (by
        have := strDoc_told (l2 j (List.getElem?_eq_some_iff.1 hw).1).1
        rw [hw, hw'] at this
        exact this : w.key = w'.key)
      have shown := fun i f u y hf hu hy => (show Shown W f u ↔ Shown W f y from
        ⟨shown_told b b' l1 keys ((hq _ _ .refl).1.keys _ a) (i := i) hf hu hy,
          shown_told b' b l1.symm (fun j w w' hw hw' => (keys j w' w hw' hw).symm) ((hq _ _ .refl).1.keys _ a) (i := i) hf hy hu⟩)
      refine .struct a ((written_length b).trans (written_length b').symm) shown fun i f u y hfi hu hy hsh => ?_
      obtain ⟨w, hw, rfl⟩ := List.mem_map.1 (((written_positions b).2.2 i (Nat.zero_le _)).2 ⟨f, u, hfi, hu, hsh⟩)
      obtain ⟨j, hj⟩ := List.getElem?_of_mem hw
      obtain ⟨w', hj'⟩ := get_of_lt (l1 ▸ (List.getElem?_eq_some_iff.1 hj).1)
      obtain ⟨e1, -, e3, e4, -⟩ := (written_same b b' shown).2 j w w' hj hj'
      obtain ⟨f1, -, -, a2, a3, -, -, -, a7⟩ := written_field b hw
      obtain ⟨f2, -, -, b2, b3, -, -, -, b7⟩ := written_field b' (List.mem_of_getElem? hj')
      simp only [Nat.sub_zero] at a2 a3 b2 b3
      rw [← e1] at b2 b3
      cases hfi.symm.trans a2
      cases hu.symm.trans a3
      cases hy.symm.trans b3
      rw [a7]
      have l3 := l2 j (List.getElem?_eq_some_iff.1 hj).1
      have x'' := x' j w' hj'
      rw [← e3, ← e4] at x''
      refine ih j w hj x'' l3.2.1 l3.2.2 (by simp) (by simp) (fun t' u s => hq t' u (.step (fun hh => by cases hh) (written_part a b hj) s))
        fun t' u s => hq' t' u (.step (fun hh => by cases hh) (written_part a b' hj') (e4 ▸ s))
    | scalar c => cases c <;> kill
    | iface c => rw [(hq _ _ .refl).1.iface] at c; cases c
    | _ => kill
  | array a b x ih =>
    cases he' with
    | array a' b' x' =>
      cases a.symm.trans a'
      obtain ⟨l1, l2⟩ := arr_told hx hl (fun _ _ => wf_nat _) (fun _ _ => wf_nat _)
        (fun j hj => by
          obtain ⟨w, hw⟩ := get_of_lt hj
          obtain ⟨d, d1, d2, -⟩ := told_doc hf (x j w hw) (by simp) (by simp) fun t' u s => (hq t' u (.step (fun hh => by cases hh) (.array a (List.mem_of_getElem? hw)) s)).1
          exact ⟨d, d1, d2⟩)
        (fun j hj => by
          obtain ⟨w, hw⟩ := get_of_lt hj
          obtain ⟨d, d1, d2, -⟩ := told_doc hf (x' j w hw) (by simp) (by simp) fun t' u s => (hq' t' u (.step (fun hh => by cases hh) (.array a (List.mem_of_getElem? hw)) s)).1
          exact ⟨d, d1, d2⟩)
      refine .arr a l1 fun i u y hu hy => ?_
      have l3 := l2 i (List.getElem?_eq_some_iff.1 hu).1
      exact ih i u hu (x' i y hy) l3.2.1 l3.2.2 (by simp) (by simp) (fun t' z s => hq t' z (.step (fun hh => by cases hh) (.array a (List.mem_of_getElem? hu)) s))
        fun t' z s => hq' t' z (.step (fun hh => by cases hh) (.array a (List.mem_of_getElem? hy)) s)
    | scalar c => cases c <;> kill
    | iface c => rw [(hq _ _ .refl).1.iface] at c; cases c
    | _ => kill
  | sliceNil a =>
    have n' := null_told hf he' hx.symm hh hk fun t' u s => (hq' t' u s).1
    cases he' with
    | sliceNil => exact .sliceNil
    | slice => simp at n'
    | scalar c => cases c <;> kill
    | iface c => rw [(hq _ _ .refl).1.iface] at c; cases c
    | _ => kill
  | slice a g b x ih =>
    cases he' with
    | sliceNil => have n := null_told hf (.slice a g b x) hx hh hk fun t' u s => (hq t' u s).1; simp at n
    | slice a' g' b' x' =>
      subst b b'
      cases a.symm.trans a'
      obtain ⟨l1, l2⟩ := arr_told hx hl (fun _ _ => wf_nat _) (fun _ _ => wf_nat _)
        (fun j hj => by
          obtain ⟨w, hw⟩ := get_of_lt hj
          obtain ⟨d, d1, d2, -⟩ := told_doc hf (x j w hw) (by simp) (by simp) fun t' u s => (hq t' u (.step (fun hh => by cases hh) (.slice a (List.mem_of_getElem? hw)) s)).1
          exact ⟨d, d1, d2⟩)
        (fun j hj => by
          obtain ⟨w, hw⟩ := get_of_lt hj
          obtain ⟨d, d1, d2, -⟩ := told_doc hf (x' j w hw) (by simp) (by simp) fun t' u s => (hq' t' u (.step (fun hh => by cases hh) (.slice a (List.mem_of_getElem? hw)) s)).1
          exact ⟨d, d1, d2⟩)
      refine .slice a l1 fun i u y hu hy => ?_
      have l3 := l2 i (List.getElem?_eq_some_iff.1 hu).1
      exact ih i u hu (x' i y hy) l3.2.1 l3.2.2 (by simp) (by simp) (fun t' z s => hq t' z (.step (fun hh => by cases hh) (.slice a (List.mem_of_getElem? hu)) s))
        fun t' z s => hq' t' z (.step (fun hh => by cases hh) (.slice a (List.mem_of_getElem? hy)) s)
    | scalar c => cases c <;> kill
    | iface c => rw [(hq _ _ .refl).1.iface] at c; cases c
    | _ => kill
  | mapNil a =>
    have n' := null_told hf he' hx.symm hh hk fun t' u s => (hq' t' u s).1
    cases he' with
    | mapNil => exact .mapNil
    | map => simp at n'
    | scalar c => cases c <;> kill
    | iface c => rw [(hq _ _ .refl).1.iface] at c; cases c
    | _ => kill
  | map a g b c x ih =>
    cases he' with
    | mapNil => have n := null_told hf (.map a g b c x) hx hh hk fun t' u s => (hq t' u s).1; simp at n
    | map a' g' b' c' x' =>
      subst b b'
      cases a.symm.trans a'
      obtain ⟨l1, l2⟩ := arr_told hx hl (fun j hj => (get_of_lt hj).elim fun w hw => wf_key (c j w.1 w.2 hw))
        (fun j hj => (get_of_lt hj).elim fun w hw => wf_key (c' j w.1 w.2 hw))
        (fun j hj => by
          obtain ⟨w, hw⟩ := get_of_lt hj
          obtain ⟨d, d1, d2, -⟩ := told_doc hf (x j w.1 w.2 hw) (by simp) (by simp) fun t' u s => (hq t' u (.step (fun hh => by cases hh) (.map a (List.mem_of_getElem? hw)) s)).1
          exact ⟨d, d1, d2⟩)
        (fun j hj => by
          obtain ⟨w, hw⟩ := get_of_lt hj
          obtain ⟨d, d1, d2, -⟩ := told_doc hf (x' j w.1 w.2 hw) (by simp) (by simp) fun t' u s => (hq' t' u (.step (fun hh => by cases hh) (.map a (List.mem_of_getElem? hw)) s)).1
          exact ⟨d, d1, d2⟩)
      refine map_told a ho ho' l1 fun i u y hu hy => ?_
      have l3 := l2 i (List.getElem?_eq_some_iff.1 hu).1
      refine ⟨key_tells (c i u.1 u.2 hu) (c' i y.1 y.2 hy) l3.1, ?_⟩
      exact ih i u.1 u.2 hu (x' i y.1 y.2 hy) l3.2.1 l3.2.2 (by simp) (by simp) (fun t' z s => hq t' z (.step (fun hh => by cases hh) (.map a (List.mem_of_getElem? hu)) s))
        fun t' z s => hq' t' z (.step (fun hh => by cases hh) (.map a (List.mem_of_getElem? hy)) s)
    | scalar c => cases c <;> kill
    | iface c => rw [(hq _ _ .refl).1.iface] at c; cases c
    | _ => kill
  | iface a => rw [(hq _ _ .refl).1.iface] at a; cases a
  | fieldPlain a _ ih =>
    cases he' with
    | fieldPlain _ x => exact ih x hx hl (by simp) (by simp) hq hq'
    | _ => kill
  | fieldPtrNil a =>
    have n' := null_told hf he' hx.symm hh hk fun t' u s => (hq' t' u s).1
    cases he' with
    | fieldPtrNil => exact .ptrNil
    | fieldPlain b => kill
    | fieldStr b => kill
    | _ => simp at n'
  | fieldPtrStruct a b g x ih =>
    cases he' with
    | fieldPtrNil => have n := null_told hf (.fieldPtrStruct a b g x) hx hh hk fun t' u s => (hq t' u s).1; simp at n
    | fieldPtrStruct a' _ _ x' =>
      cases a.symm.trans a'
      exact .ptr a (ih x' hx hl (by simp) (by simp) (fun t' u s => hq t' u (.pointee a (seen_mono s))) fun t' u s => hq' t' u (.pointee a (seen_mono s)))
    | _ => kill
  | fieldPtr a b x ih =>
    cases he' with
    | fieldPtrNil => have n := null_told hf (.fieldPtr a b x) hx hh hk fun t' u s => (hq t' u s).1; simp at n
    | fieldPtr a' _ x' =>
      cases a.symm.trans a'
      exact .ptr a (ih x' hx hl (by simp) (by simp) (fun t' u s => hq t' u (.pointee a (seen_mono s))) fun t' u s => hq' t' u (.pointee a (seen_mono s)))
    | _ => kill
  | fieldStr a b =>
    cases he' with
    | fieldStr _ b' => exact strs (hq _ _ .refl).1.iface b b' hx hl
    | _ => kill
  | fieldStrPtr a b =>
    cases he' with
    | fieldPtrNil => have n := null_told (ok := ok) (G := G) (st := []) (p := []) hf (.fieldStrPtr a b) hx hh hk fun t' u s => (hq t' u s).1; simp at n
    | fieldStr c => kill
    | fieldStrPtr a' b' =>
      cases a.symm.trans a'
      exact .ptr a (strs (hq _ _ (.pointee a .refl)).1.iface b b' hx hl)
  | _ => exact absurd rfl hh

theorem seen_within {m : Bool} {t t' : Ty} {v v' : GV} (hs : Seen W h m t v t' v') : Within W h t v t' v' := by
  induction hs with
  | refl => exact .refl
  | step _ hp _ ih => exact .step hp ih
  | pointee hr _ ih => exact .step (.ptr hr) ih

end Verif

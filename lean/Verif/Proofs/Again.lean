import Verif.Spec.Again
import Verif.Proofs.Acyclic
import Verif.Proofs.EncDet
import Verif.Proofs.RoundTree
import Verif.Proofs.Order
/-
Values that `Unmarshal` has put into an empty interface, given to `Marshal`.
-/
namespace Verif
open Spec

/-- The contents of an `any` after `Unmarshal`, with at most `n` maps nested. -/
inductive Shape : Nat → Val → Prop
  | nil {n} : Shape n .ifaceNil
  | bool {n b} : Shape n (.iface .bool (.bool b))
  | int {n i} : InRange .i64 i → Shape n (.iface (.int .i64) (.int i))
  | float {n x} : Shape n (.iface .f64 (.f64 x))
  | str {n s} : Shape n (.iface .str (.str s))
  | obj {n es} : (∀ x ∈ es, ∃ s, x.1 = .str s) → es.Pairwise (fun x y => x.1 ≠ y.1) → (∀ x ∈ es, Shape n x.2) →
      Shape (n + 1) (.iface (.map .str .any) (.map es))
  | arr {n es} : Shape (n + 1) (.iface (.map .any .any) (.map es))

theorem insertAll_mem {kvs : List (Val × Val)} {P Q : Val → Prop} (hk : ∀ x ∈ kvs, P x.1 ∧ Q x.2) {m : List (Val × Val)} (hm : ∀ x ∈ m, P x.1 ∧ Q x.2) :
    ∀ x ∈ kvs.foldl (fun m p => mapInsert p.1 p.2 m) m, P x.1 ∧ Q x.2 := by
  induction kvs generalizing m with
  | nil => exact hm
  | cons kv kvs ih =>
    refine ih (fun x hx => hk x (List.mem_cons_of_mem _ hx)) fun x hx => ?_
    obtain ⟨a, b⟩ := x
    obtain ⟨h1, h2⟩ := mapInsert_mem hx
    have h0 := hk kv List.mem_cons_self
    refine ⟨?_, ?_⟩
    · rcases h1 with rfl | ⟨b', h1⟩
      · exact h0.1
      · exact (hm _ h1).1
    · rcases h2 with rfl | ⟨a', h2⟩
      · exact h0.2
      · exact (hm _ h2).2

theorem shape_of {W : World} {n : Nat} {d : Doc} {v : Val} (h : AnyVal W d v) (hd : d.depth ≤ n) : Shape n v := by
  induction n generalizing d v with
  | zero =>
    cases h with
    | null => exact .nil
    | bool => exact .bool
    | int _ hr => exact .int hr
    | float => exact .float
    | str => exact .str
    | arr => simp [Doc.depth] at hd
    | obj => simp [Doc.depth] at hd
  | succ n ih =>
    cases h with
    | null => exact .nil
    | bool => exact .bool
    | int _ hr => exact .int hr
    | float => exact .float
    | str => exact .str
    | arr => exact .arr
    | obj _ _ ho =>
      rename_i es kvs _ _
      have hd' : pairsDepth es ≤ n := by simpa [Doc.depth] using hd
      have hall : ∀ x ∈ kvs, (∃ s, x.1 = Val.str s) ∧ Shape n x.2 := by
        clear hd
        revert hd'
        have : ∀ {es kvs}, AnyObj W es kvs → pairsDepth es ≤ n → ∀ x ∈ kvs, (∃ s, x.1 = Val.str s) ∧ Shape n x.2 := by
          intro es
          induction es with
          | nil => intro kvs ho _ x hx; cases ho; simp at hx
          | cons e es ihe =>
            intro kvs ho hd x hx
            cases ho with
            | cons hk hv ho =>
              have hd2 := pairsDepth_le.1 hd
              rcases List.mem_cons.1 hx with rfl | hx
              · exact ⟨⟨_, rfl⟩, ih hv (hd2 _ _ List.mem_cons_self).2⟩
              · exact ihe ho (pairsDepth_le.2 fun k v hm => hd2 k v (List.mem_cons_of_mem _ hm)) x hx
        exact this ho
      have hmem := insertAll_mem (P := fun k => ∃ s, k = Val.str s) (Q := Shape n) hall (m := []) (by simp)
      refine .obj (fun x hx => (hmem x hx).1) ?_ (fun x hx => (hmem x hx).2)
      have hnd : NoDup (kvs.foldl (fun m p => mapInsert p.1 p.2 m) []) := noDup_foldl (by simp [NoDup])
      refine List.Pairwise.imp_of_mem (fun {x y} hx hy hxy he => hxy ?_) hnd
      obtain ⟨s, hs⟩ := (hmem x hx).1
      rw [← he, hs]
      simp [Val.goEq]

instance : Inhabited Doc := ⟨.null⟩
instance : Inhabited Val := ⟨.ifaceNil⟩

theorem choose_at {α β : Type} [Inhabited β] {xs : List α} {P : Nat → α → β → Prop} (h : ∀ (j : Nat) (x : α), xs[j]? = some x → ∃ y, P j x y) :
    ∃ f : Nat → β, ∀ (j : Nat) (x : α), xs[j]? = some x → P j x (f j) := by
  have h' : ∀ j : Nat, ∃ y : β, ∀ x, xs[j]? = some x → P j x y := by
    intro j
    cases hx : xs[j]? with
    | none => exact ⟨default, fun x hh => by simp at hh⟩
    | some x =>
      obtain ⟨y, hy⟩ := h j x hx
      exact ⟨y, fun x' hh => by cases hh; exact hy⟩
  exact ⟨fun j => Classical.choose (h' j), fun j => Classical.choose_spec (h' j)⟩

theorem anyArr_build {W : World} {kd D : Nat → Doc} {K V : Nat → Val} {i n : Nat}
    (h : ∀ j, i ≤ j → j < i + n → AnyKey (kd j) (K j) ∧ AnyVal W (D j) (V j)) :
    AnyArr W (pairDocs kd D i n) ((List.range' i n).map fun j => (K j, V j)) := by
  induction n generalizing i with
  | zero => exact .nil
  | succ n ih =>
    simp only [pairDocs, List.range'_succ, List.map_cons]
    exact .cons (h i (Nat.le_refl _) (by omega)).1 (h i (Nat.le_refl _) (by omega)).2 (ih fun j h1 h2 => h j (by omega) (by omega))

/-- What becomes of a value: its text, and the value read from that. -/
def Comes (W : World) (n : Nat) (v : Val) (tx : Bytes) : Prop :=
  ∃ d w, tx = d.text ∧ d.depth ≤ n ∧ (d.text.length < 2 ^ 63 → AnyVal W d w) ∧ Again v w

theorem comes_obj {W : World} {n : Nat} {es : List (Val × Val)} {xs : List (GV × GV)} {fs : List (Val × Val)} {kd : Nat → Doc} {tx : Nat → Bytes}
    (hd : es.Pairwise fun x y => x.1 ≠ y.1) (hp : es.Perm fs) (hl : fs.length = xs.length)
    (hk : ∀ (i : Nat) (x : GV × GV) (y : Val × Val), xs[i]? = some x → fs[i]? = some y → ∃ s, y.1 = .str s ∧ kd i = strDoc s)
    (hv : ∀ (i : Nat) (x : GV × GV) (y : Val × Val), xs[i]? = some x → fs[i]? = some y → Comes W n y.2 (tx i)) :
    Comes W (n + 1) (.iface (.map .str .any) (.map es)) (arrText xs.length kd tx) := by
  have hx : ∀ (j : Nat) (y : Val × Val), fs[j]? = some y → ∃ x, xs[j]? = some x := fun j y hy => by
    have := (List.getElem?_eq_some_iff.1 hy).1
    exact ⟨_, List.getElem?_eq_getElem (by omega)⟩
  obtain ⟨S, hS⟩ := choose_at (β := Bytes) (xs := fs) (P := fun j y s => y.1 = .str s ∧ kd j = strDoc s) fun j y hy =>
    let ⟨x, h1⟩ := hx j y hy; hk j x y h1 hy
  obtain ⟨DV, hDV⟩ := choose_at (β := Doc × Val) (xs := fs)
    (P := fun j y q => tx j = q.1.text ∧ q.1.depth ≤ n ∧ (q.1.text.length < 2 ^ 63 → AnyVal W q.1 q.2) ∧ Again y.2 q.2) fun j y hy => by
      obtain ⟨x, h1⟩ := hx j y hy
      obtain ⟨d, w, h2⟩ := hv j x y h1 hy
      exact ⟨(d, w), h2⟩
  let ws : List (Val × Val) := (List.range' 0 xs.length).map fun j => (.iface .str (.str (S j)), (DV j).2)
  have hws : ∀ (i : Nat) (y : Val × Val), ws[i]? = some y → i < xs.length ∧ y = (.iface .str (.str (S i)), (DV i).2) := by
    intro i y hy
    simp only [ws, List.getElem?_map, Option.map_eq_some_iff] at hy
    obtain ⟨j, h1, h2⟩ := hy
    obtain ⟨h3, h4⟩ := List.getElem?_eq_some_iff.1 h1
    simp only [List.getElem_range'] at h4
    simp only [List.length_range'] at h3
    have : i = j := by omega
    subst this
    exact ⟨h3, h2.symm⟩
  have hfs : ∀ i, i < xs.length → ∃ y, fs[i]? = some y := fun i hi => ⟨_, List.getElem?_eq_getElem (by omega)⟩
  refine ⟨.arr (natText xs.length) (pairDocs kd (fun j => (DV j).1) 0 xs.length), .iface (.map .any .any) (.map ws),
    arrText_doc fun j hj => ?_, ?_, fun hlen => ?_, .obj hp (by simp [ws, hl]) (fun i x y h1 h2 => ?_) fun i x y h1 h2 => ?_⟩
  · obtain ⟨y, hy⟩ := hfs j hj; exact (hDV j y hy).1
  · simp only [Doc.depth, Nat.add_le_add_iff_right]
    refine pairsDepth_le.2 fun k v hm => ?_
    obtain ⟨j, -, hj, rfl, rfl⟩ := mem_pairDocs.1 hm
    obtain ⟨y, hy⟩ := hfs j (by omega)
    exact ⟨by rw [(hS j y hy).2]; simp [strDoc, Doc.depth], (hDV j y hy).2.1⟩
  · obtain ⟨hl1, hl2⟩ := arr_len hlen
    have harr : AnyArr W (pairDocs kd (fun j => (DV j).1) 0 xs.length) ws := anyArr_build fun j _ hj => by
      obtain ⟨y, hy⟩ := hfs j (by omega)
      obtain ⟨h3, h4⟩ := hl2 j (by omega)
      refine ⟨?_, (hDV j y hy).2.2.1 h4⟩
      rw [(hS j y hy).2] at h3 ⊢
      exact .str (strDoc_len h3)
    have hins : ws.foldl (fun m p => mapInsert p.1 p.2 m) [] = ws := by
      have : ([] ++ ws).Pairwise (fun (p q : Val × Val) => p.1.goEq q.1 = false) := by
        rw [List.nil_append, List.pairwise_iff_getElem]
        intro i j hi hj hij
        have hfd : fs.Pairwise fun x y => x.1 ≠ y.1 := (hp.pairwise_iff fun {a b} hne => Ne.symm hne).1 hd
        rw [List.pairwise_iff_getElem] at hfd
        obtain ⟨hi2, hi3⟩ := hws i _ (List.getElem?_eq_getElem hi)
        obtain ⟨hj2, hj3⟩ := hws j _ (List.getElem?_eq_getElem hj)
        have := hfd i j (by omega) (by omega) hij
        rw [(hS i _ (List.getElem?_eq_getElem (by omega))).1, (hS j _ (List.getElem?_eq_getElem (by omega))).1] at this
        rw [hi3, hj3]
        simpa [Val.goEq] using fun he => this (by rw [he])
      simpa [insertAll] using insertAll_distinct this
    have := AnyVal.arr (W := W) (lenText_natText hl1) harr
    rwa [hins] at this
  · obtain ⟨h3, rfl⟩ := hws i y h2
    exact ⟨S i, (hS i x h1).1, rfl⟩
  · obtain ⟨h3, rfl⟩ := hws i y h2
    exact (hDV i x h1).2.2.2

theorem entries_enc {W : World} {E : Nat → GV → Bytes → Prop} {n : Nat} {es : List (Val × Val)} {gs xs : List (GV × GV)}
    (hd : es.Pairwise fun x y => x.1 ≠ y.1) (hlen : gs.length = es.length) (hperm : xs.Perm gs)
    (hr : ∀ (i : Nat) (x : Val × Val) (y : GV × GV), es[i]? = some x → gs[i]? = some y →
      (∃ s, x.1 = .str s ∧ y.1 = .str s) ∧ ∀ j, ∃ tx, E j y.2 tx ∧ Comes W n x.2 tx) :
    ∃ (KS : Nat → Bytes) (TX : Nat → Bytes), (∀ (i : Nat) (x y : GV), xs[i]? = some (x, y) → x = .str (KS i)) ∧
      (∀ (i : Nat) (x y : GV), xs[i]? = some (x, y) → E i y (TX i)) ∧
      Comes W (n + 1) (.iface (.map .str .any) (.map es)) (arrText xs.length (fun j => strDoc (KS j)) TX) := by
  obtain ⟨fs, f1, f2, f3⟩ := perm_related (R := fun (y : GV × GV) (x : Val × Val) => (∃ s, x.1 = .str s ∧ y.1 = .str s) ∧
      ∀ j, ∃ tx, E j y.2 tx ∧ Comes W n x.2 tx) hperm.symm hlen.symm fun i y x hy hx => hr i x y hx hy
  have hfs : ∀ (i : Nat) (y : GV × GV), xs[i]? = some y → ∃ x, fs[i]? = some x := fun i y hy => by
    have := (List.getElem?_eq_some_iff.1 hy).1
    exact ⟨_, List.getElem?_eq_getElem (by omega)⟩
  obtain ⟨KS, hKS⟩ := choose_at (β := Bytes) (xs := xs) (P := fun j y s => y.1 = .str s ∧ ∀ x, fs[j]? = some x → x.1 = .str s) fun j y hy => by
    obtain ⟨x, hx⟩ := hfs j y hy
    obtain ⟨⟨s, k1, k2⟩, -⟩ := f3 j y x hy hx
    exact ⟨s, k2, fun x' hx' => by rw [hx] at hx'; cases hx'; exact k1⟩
  obtain ⟨TX, hTX⟩ := choose_at (β := Bytes) (xs := xs)
    (P := fun j y tx => E j y.2 tx ∧ ∀ x, fs[j]? = some x → Comes W n x.2 tx) fun j y hy => by
    obtain ⟨x, hx⟩ := hfs j y hy
    obtain ⟨tx, t1, t2⟩ := (f3 j y x hy hx).2 j
    exact ⟨tx, t1, fun x' hx' => by rw [hx] at hx'; cases hx'; exact t2⟩
  exact ⟨KS, TX, fun i x y hxy => (hKS i (x, y) hxy).1, fun i x y hxy => (hTX i (x, y) hxy).1,
    comes_obj hd f1 f2 (fun i y x hy hx => ⟨KS i, (hKS i y hy).2 x hx, rfl⟩) (fun i y x hy hx => (hTX i y hy).2 x hx)⟩

theorem stored_enc {W : World} {h : Heap} {n : Nat} {v : Val} {g : GV} {as : List Nat}
    (hst : Stored h as v g) (hflt : ∀ x, HasFloat x v → Finite64 x → Faithful64 W x) (hv : Shape n v) (hna : ¬ HasArray v) {st : Stack} (hsub : ∀ a ∈ st.map (·.1), a ∈ as) (p : Path) :
    ∃ tx, EncC W h .held st p .any g tx ∧ Comes W n v tx := by
  have hi : W.isIface .any = true := rfl
  induction hst generalizing n st p with
  | nil => exact ⟨_, .heldNil (.ifaceNil hi), .null, _, rfl, by simp [Doc.depth], fun _ => .null, .nil⟩
  | @bool _ b => exact ⟨_, .heldScalar (.iface hi (.done rfl rfl)) (.bool rfl), .bool b, _, rfl, by simp [Doc.depth], fun _ => .bool, .bool⟩
  | @int _ i =>
    cases hv with
    | int hr => exact ⟨_, .heldScalar (.iface hi (.done rfl rfl)) (.int rfl), _, _, rfl, by simp [Doc.depth], fun _ => .int (intText_spec i) hr, .int⟩
  | @float _ x =>
    obtain ⟨txt, ho⟩ := floatOut64_total (W := W) x
    obtain ⟨h1, h2, y, h3, h4⟩ := float64_back ho (hflt x .here)
    exact ⟨_, .heldScalar (.iface hi (.done rfl rfl)) (.f64 rfl ho), _, _, rfl, by simp [Doc.depth], fun _ => .float h1 h2 h3, .float h4⟩
  | @str _ s =>
    exact ⟨_, .heldScalar (.iface hi (.done rfl rfl)) (.str rfl), strDoc s, _, rfl, by simp [Doc.depth, strDoc], fun hl => .str (strDoc_len hl), .str⟩
  | @obj as a es gs ha hlen hperm hkeys hvals ih =>
    cases hv with
    | @obj n _ h1 h2 h3 =>
    obtain ⟨KS, TX, e1, e2, e3⟩ := entries_enc (W := W) (n := n) (E := fun j g tx => EncC W h .held ((a, false) :: st) (j :: p) .any g tx)
      h2 hlen (hperm p) fun i x y hx hy => ⟨hkeys i x y hx hy, fun j => by
        have hxm := List.mem_of_getElem? hx
        refine ih i x y hx hy (fun z hz => hflt z (.inside (k := x.1) hxm hz)) (h3 x hxm) (fun hh => hna (.inside (k := x.1) hxm hh)) (fun b hb => ?_) (j :: p)
        simp only [List.map_cons, List.mem_cons] at hb
        rcases hb with rfl | hb
        · exact List.mem_cons_self
        · exact List.mem_cons_of_mem _ (hsub b hb)⟩
    refine ⟨_, .heldMap (kd := fun j => strDoc (KS j)) (tx := TX) (.iface hi (.done rfl rfl)) rfl (.str rfl) rfl
      (.inr fun hs => ha (hsub a (seenOf_sub hs))) rfl (fun i x y hxy => ?_) e2, e3⟩
    rw [e1 i x y hxy]
    exact .str rfl
  | arr => exact absurd .here hna

theorem supported_object {W : World} : Supported W (.map .str .any) :=
  ⟨2, by unfold Accepted; unfold compileE; simp [compileEMap, World.marOf, World.resolve, World.mapKeyOk]; unfold compileE; simp [compileEMap, World.marOf, World.resolve, World.mapKeyOk]⟩

/-- The same for the argument of `Marshal`. -/
theorem stored_marshal {W : World} {h : Heap} {n : Nat} {v : Val} {g : GV}
    (hst : Stored h [] v g) (hflt : ∀ x, HasFloat x v → Finite64 x → Faithful64 W x) (hv : Shape n v) (hna : ¬ HasArray v) : ∃ tx, MarshalGives W h (argument g) (.ok tx) ∧ Comes W n v tx := by
  have hsub : ∀ a ∈ ([] : Stack).map (·.1), a ∈ ([] : List Nat) := fun a ha => by simp at ha
  cases hst with
  | nil =>
    exact ⟨Doc.null.text, ⟨by simp, 0, fun cf f _ _ => rfl⟩, .null, _, rfl, by simp [Doc.depth], fun _ => .null, .nil⟩
  | @bool _ b => exact ⟨_, marshal_scalar rfl (.bool rfl), .bool b, _, rfl, by simp [Doc.depth], fun _ => .bool, .bool⟩
  | @int _ i =>
    cases hv with
    | int hr => exact ⟨_, marshal_scalar rfl (.int rfl), _, _, rfl, by simp [Doc.depth], fun _ => .int (intText_spec i) hr, .int⟩
  | @float _ x =>
    obtain ⟨txt, ho⟩ := floatOut64_total (W := W) x
    obtain ⟨h1, h2, y, h3, h4⟩ := float64_back ho (hflt x .here)
    exact ⟨_, marshal_scalar rfl (.f64 rfl ho), _, _, rfl, by simp [Doc.depth], fun _ => .float h1 h2 h3, .float h4⟩
  | @str _ s =>
    exact ⟨_, marshal_scalar rfl (.str rfl), strDoc s, _, rfl, by simp [Doc.depth, strDoc], fun hl => .str (strDoc_len hl), .str⟩
  | @obj _ a es gs ha hlen hperm hkeys hvals =>
    cases hv with
    | @obj n _ h1 h2 h3 =>
    obtain ⟨KS, TX, e1, e2, e3⟩ := entries_enc (W := W) (n := n) (E := fun j g tx => EncC W h .typed [(a, true)] [j] .any g tx)
      h2 hlen (hperm []) fun i x y hx hy => ⟨hkeys i x y hx hy, fun j => by
        have hxm := List.mem_of_getElem? hx
        obtain ⟨tx, t1, t2⟩ := stored_enc (st := [(a, true)]) (hvals i x y hx hy) (fun z hz => hflt z (.inside (k := x.1) hxm hz)) (h3 x hxm) (fun hh => hna (.inside (k := x.1) hxm hh))
          (fun b hb => by simpa using hb) [j]
        exact ⟨tx, .plain rfl (by simp) rfl (.iface rfl t1), t2⟩⟩
    refine ⟨_, marshalGives_ok_iff.2 ⟨supported_object, .plain rfl (by simp) rfl (.map (kd := fun j => strDoc (KS j)) (tx := TX) rfl
      (.inl ⟨rfl, by simp [depthOf]⟩) rfl (fun i x y hxy => ?_) e2)⟩, e3⟩
    rw [e1 i x y hxy]
    exact .str rfl
  | arr => exact absurd .here hna

theorem docScalar_kind {W : World} {t : Ty} {v : GV} {d : Doc} (hd : ScalarDoc W t v d) : ScalarKind (W.resolve t) := by
  cases hd <;> simp_all [ScalarKind]

theorem any_noKey {W : World} : ¬ KeyKind W .any := by
  rintro (⟨k, hk⟩ | ⟨k, hk, -⟩ | hk) <;> simp [World.resolve] at hk

theorem held_map {W : World} {h : Heap} {ok : Ty → Prop} {G : Stack → Nat → Bool → Prop} {k : Ty} {a : Nat} {st : Stack} {p : Path} {tx : Bytes}
    (he : EncG W h ok G .held st p .any (.iface (.map k .any) (.map a)) tx) :
    KeyKind W k ∧ ∀ (i : Nat) (x y : GV), (h.iter k .any p a)[i]? = some (x, y) → ∃ st' p' tx', EncG W h ok G .held st' p' .any y tx' := by
  have hd : Deref W h .any (.iface (.map k .any) (.map a)) (some (.map k .any, .map a)) := .iface rfl (.done rfl rfl)
  cases he with
  | heldNil b => cases deref_det hd b
  | heldScalar b hs => cases deref_det hd b; exact (docScalar_kind hs).elim
  | heldConcreteSlice b hr => cases deref_det hd b; simp [World.resolve] at hr
  | heldSliceNil b hr => cases deref_det hd b
  | heldSlice b hr => cases deref_det hd b
  | heldMapNil b hr => cases deref_det hd b
  | heldMap b hr hk hi hG hiter hkd htx =>
    cases deref_det hd b
    cases hr
    subst hiter
    exact ⟨hk, fun i x y hxy => ⟨_, _, _, htx i x y hxy⟩⟩
  | heldConcreteMap b hr hk hi =>
    cases deref_det hd b
    cases hr
    cases hi
  | heldStruct b hr => cases deref_det hd b; cases hr

theorem array_held {W : World} {h : Heap} {ok : Ty → Prop} {G : Stack → Nat → Bool → Prop} {v : Val} (ha : HasArray v) :
    ∀ {as g st p tx}, Stored h as v g → ¬ EncG W h ok G .held st p .any g tx := by
  induction ha with
  | here =>
    intro as g st p tx hs he
    cases hs with
    | arr => exact any_noKey (held_map he).1
  | inside hm _ ih =>
    intro as g st p tx hs he
    cases hs with
    | @obj _ _ _ gs ha hlen hperm hkeys hvals =>
    obtain ⟨i, hi⟩ := List.mem_iff_getElem?.1 hm
    have hi' := (List.getElem?_eq_some_iff.1 hi).1
    obtain ⟨y, hy⟩ : ∃ y, gs[i]? = some y := ⟨_, List.getElem?_eq_getElem (by omega)⟩
    have hym := (hperm p).mem_iff.2 (List.mem_of_getElem? hy)
    obtain ⟨j, hj⟩ := List.mem_iff_getElem?.1 hym
    obtain ⟨st', p', tx', h1⟩ := (held_map he).2 j y.1 y.2 hj
    exact ih (hvals i _ y hi hy) h1

theorem any_held {W : World} {h : Heap} {ok : Ty → Prop} {G : Stack → Nat → Bool → Prop} {st : Stack} {p : Path} {v : GV} {tx : Bytes}
    (he : EncG W h ok G .typed st p .any v tx) : EncG W h ok G .held st p .any v tx := by
  cases he with
  | marshaler hh => cases hh
  | plain _ _ _ h2 =>
    cases h2 with
    | iface _ h2 => exact h2
    | scalar hs => exact (docScalar_kind hs).elim
    | struct hr => cases hr
    | array hr => cases hr
    | sliceNil hr => cases hr
    | slice hr => cases hr
    | mapNil hr => cases hr
    | map hr => cases hr
  | ptrNil _ hr => cases hr
  | ptrStruct _ hr => cases hr
  | ptrKind _ hr => cases hr
  | ptrTyped _ hr => cases hr
  | ptrIface _ hr => cases hr

theorem array_marshal {W : World} {h : Heap} {v : Val} {g : GV} {tx : Bytes} (ha : HasArray v) (hst : Stored h [] v g) :
    ¬ MarshalGives W h (argument g) (.ok tx) := by
  intro hm
  cases ha with
  | here =>
    cases hst with
    | arr =>
    obtain ⟨⟨cf, seen, h1⟩, -⟩ := marshalGives_ok_iff.1 hm
    cases cf with
    | zero => cases h1
    | succ cf =>
      unfold compileE at h1
      simp [compileEMap, World.marOf, World.resolve, World.mapKeyOk] at h1
  | inside hmem hv =>
    cases hst with
    | @obj _ _ _ gs ha hlen hperm hkeys hvals =>
    obtain ⟨-, h1⟩ := marshalGives_ok_iff.1 hm
    obtain ⟨i, hi⟩ := List.mem_iff_getElem?.1 hmem
    have hi' := (List.getElem?_eq_some_iff.1 hi).1
    obtain ⟨y, hy⟩ : ∃ y, gs[i]? = some y := ⟨_, List.getElem?_eq_getElem (by omega)⟩
    have hym := (hperm []).mem_iff.2 (List.mem_of_getElem? hy)
    obtain ⟨j, hj⟩ := List.mem_iff_getElem?.1 hym
    cases h1 with
    | marshaler hh => cases hh
    | plain _ _ _ h1 =>
      cases h1 with
      | map hr _ hit _ htx =>
        cases hr
        subst hit
        exact array_held hv (hvals i _ y hi hy) (any_held (htx j y.1 y.2 hj))
      | scalar hs => exact (docScalar_kind hs).elim
      | iface hr => cases hr
    | ptrIface _ hr => cases hr

end Verif

import Verif.Proofs.CompileFacts
import Verif.Proofs.RoundScalar
import Verif.Proofs.Pointer
import Verif.Proofs.EncStruct
/-
Composite values written by `Marshal` and read by `Unmarshal`.
-/
namespace Verif
open Spec

/-! ### Lists -/

/-- Index lookups in appended lists. -/
theorem get_append_cons {α : Type} {acc xs : List α} {x : α} : (acc ++ x :: xs)[acc.length]? = some x := by simp

theorem decElems_build {W : World} {α : Type} {R : α → Val → Prop} {e : Ty} {n : Nat} {D : Nat → Doc} {xs : List α} {acc : List Val}
    (hx : ∀ (j : Nat) (x : α), xs[j]? = some x → ∃ y, R x y ∧ DecDoc W e n (D (acc.length + j)) (W.zero e) y)
    (h1 : acc.length + xs.length < 2 ^ 63) (h2 : esize W e * (acc.length + xs.length) ≤ 2 ^ 48) :
    ∃ zs, zs.length = xs.length ∧ (∀ (j : Nat) (x : α) (y : Val), xs[j]? = some x → zs[j]? = some y → R x y) ∧
      DecElems W e n (pairDocs idxDoc D acc.length xs.length) acc (acc ++ zs) := by
  induction xs generalizing acc with
  | nil => exact ⟨[], rfl, by simp, by simpa [pairDocs] using .nil⟩
  | cons x xs ih =>
    obtain ⟨y, hR, hd⟩ := hx 0 x (by simp)
    simp only [List.length_cons] at h1 h2
    obtain ⟨zs, z1, z2, z3⟩ := ih (acc := acc ++ [y])
      (fun j x' hj => by
        rw [List.length_append, List.length_singleton, Nat.add_assoc, Nat.add_comm 1 j]
        exact hx (j + 1) x' (by simpa using hj))
      (by simp only [List.length_append, List.length_singleton]; omega)
      (by
        rw [List.length_append, List.length_singleton, Nat.add_assoc, Nat.add_comm 1]
        exact h2)
    refine ⟨y :: zs, by simp [z1], ?_, ?_⟩
    · intro j x' y' h3 h4
      cases j with
      | zero => simp at h3 h4; subst h3 h4; exact hR
      | succ j => exact z2 j x' y' (by simpa using h3) (by simpa using h4)
    · have hpad : padTo (W.zero e) acc.length acc = acc ++ [W.zero e] := by simp [padTo]
      have hset : (padTo (W.zero e) acc.length acc).set acc.length y = acc ++ [y] := by rw [hpad]; simp
      rw [List.length_cons, pairDocs, List.range'_succ, List.map_cons]
      refine .cons (v0 := W.zero e) (v := y) (i := acc.length) ?_ (by omega) (fun _ => ⟨by omega, ?_⟩) (by rw [hpad]; simp) hd ?_
      · have h := IntText.pos (natText_digits acc.length)
        rw [natText_val] at h
        exact h
      · exact Nat.le_trans (Nat.mul_le_mul_left _ (by omega)) h2
      · rw [hset]
        have : acc ++ y :: zs = acc ++ [y] ++ zs := by simp
        rw [this]
        simpa [pairDocs] using z3

theorem decArr_build {W : World} {α : Type} {R : α → Val → Prop} {e : Ty} {n : Nat} {D : Nat → Doc} {xs : List α} {acc : List Val}
    (hx : ∀ (j : Nat) (x : α), xs[j]? = some x → ∃ y, R x y ∧ DecDoc W e n (D (acc.length + j)) (W.zero e) y)
    (h1 : acc.length + xs.length < 2 ^ 63) :
    ∃ zs, zs.length = xs.length ∧ (∀ (j : Nat) (x : α) (y : Val), xs[j]? = some x → zs[j]? = some y → R x y) ∧
      DecArr W e n (pairDocs idxDoc D acc.length xs.length) (acc ++ List.replicate xs.length (W.zero e)) (acc ++ zs) := by
  induction xs generalizing acc with
  | nil => exact ⟨[], rfl, by simp, by simpa [pairDocs] using .nil⟩
  | cons x xs ih =>
    obtain ⟨y, hR, hd⟩ := hx 0 x (by simp)
    simp only [List.length_cons] at h1
    obtain ⟨zs, z1, z2, z3⟩ := ih (acc := acc ++ [y])
      (fun j x' hj => by
        rw [List.length_append, List.length_singleton, Nat.add_assoc, Nat.add_comm 1 j]
        exact hx (j + 1) x' (by simpa using hj))
      (by simp only [List.length_append, List.length_singleton]; omega)
    refine ⟨y :: zs, by simp [z1], ?_, ?_⟩
    · intro j x' y' h3 h4
      cases j with
      | zero => simp at h3 h4; subst h3 h4; exact hR
      | succ j => exact z2 j x' y' (by simpa using h3) (by simpa using h4)
    · rw [List.length_cons, pairDocs, List.range'_succ, List.map_cons, List.replicate_succ]
      refine .store (v0 := W.zero e) (v := y) (i := acc.length) ?_ (by omega) (by simp) hd ?_
      · have h := IntText.pos (natText_digits acc.length)
        rw [natText_val] at h
        exact h
      · have h3 : (acc ++ W.zero e :: List.replicate xs.length (W.zero e)).set acc.length y = acc ++ [y] ++ List.replicate xs.length (W.zero e) := by simp
        have h4 : acc ++ y :: zs = acc ++ [y] ++ zs := by simp
        rw [h3, h4]
        simpa [pairDocs] using z3

/-- The value of a key. -/
def keyVal : GV → Val
  | .int i => .int i
  | .uint n => .uint n
  | .str s => .str s
  | _ => .other

theorem keyVal_ne {W : World} {k : Ty} {x y : GV} {d d' : Doc} (hx : KeyDoc W k x d) (hy : KeyDoc W k y d') (hn : x ≠ y) :
    (keyVal x).goEq (keyVal y) = false := by
  cases hx <;> cases hy <;> simp_all [keyVal, Val.goEq]

theorem decPairs_build {W : World} {R : GV → Val → Prop} {k e : Ty} {n : Nat} {kd D : Nat → Doc} {xs : List (GV × GV)} {o : Nat} {acc : List (Val × Val)}
    (hk : ∀ (j : Nat) (x : GV × GV), xs[j]? = some x → KeyType W k ∧ DecDoc W k n (kd (o + j)) (W.zero k) (keyVal x.1) ∧ Hashable (keyVal x.1))
    (hx : ∀ (j : Nat) (x : GV × GV), xs[j]? = some x → ∃ y, R x.2 y ∧ DecDoc W e n (D (o + j)) (W.zero e) y)
    (hd : xs.Pairwise fun x y => (keyVal x.1).goEq (keyVal y.1) = false)
    (ha : ∀ p ∈ acc, ∀ x ∈ xs, p.1.goEq (keyVal x.1) = false) :
    ∃ zs : List (Val × Val), zs.length = xs.length ∧
      (∀ (j : Nat) (x : GV × GV) (y : Val × Val), xs[j]? = some x → zs[j]? = some y → y.1 = keyVal x.1 ∧ R x.2 y.2) ∧
      DecPairs W (.ofType k) e n (pairDocs kd D o xs.length) acc (acc ++ zs) := by
  induction xs generalizing acc o with
  | nil => exact ⟨[], rfl, by simp, by simpa [pairDocs] using .nil⟩
  | cons x xs ih =>
    obtain ⟨k1, k2, k3⟩ := hk 0 x (by simp)
    obtain ⟨y, hR, hdy⟩ := hx 0 x (by simp)
    rw [List.pairwise_cons] at hd
    obtain ⟨zs, z1, z2, z3⟩ := ih (acc := acc ++ [(keyVal x.1, y)]) (o := o + 1)
      (fun j x' hj => by rw [Nat.add_assoc, Nat.add_comm 1 j]; exact hk (j + 1) x' (by simpa using hj))
      (fun j x' hj => by rw [Nat.add_assoc, Nat.add_comm 1 j]; exact hx (j + 1) x' (by simpa using hj)) hd.2
      (fun p hp q hq => by
        rcases List.mem_append.1 hp with hp | hp
        · exact ha p hp q (List.mem_cons_of_mem _ hq)
        · simp only [List.mem_singleton] at hp; subst hp; exact hd.1 q hq)
    refine ⟨(keyVal x.1, y) :: zs, by simp [z1], ?_, ?_⟩
    · intro j x' y' h3 h4
      cases j with
      | zero => simp at h3 h4; subst h3 h4; exact ⟨rfl, hR⟩
      | succ j => exact z2 j x' y' (by simpa using h3) (by simpa using h4)
    · rw [List.length_cons, pairDocs, List.range'_succ, List.map_cons]
      refine .key k1 k2 hdy k3 ?_
      rw [mapInsert_new fun p hp => ha p hp x List.mem_cons_self]
      have h4 : acc ++ (keyVal x.1, y) :: zs = acc ++ [(keyVal x.1, y)] ++ zs := by simp
      rw [h4]
      simpa [pairDocs] using z3

/-! ### Struct fields -/

/-- How a field is read. -/
def FieldRead (W : World) (str : Bool) (t : Ty) (n : Nat) (d : Doc) (y : Val) : Prop :=
  (str = false ∧ DecDoc W t n d (W.zero t) y) ∨ (str = true ∧ IsScalar W t ∧ Wrapped W t d (W.zero t) y) ∨
  (str = true ∧ ∃ e, Plain W t (.ptr e) ∧ IsScalar W e ∧
    ((d = .null ∧ y = .ptrNil) ∨ (W.zero t = .ptrNil ∧ d ≠ .null ∧ ∃ z, y = .ptr z ∧ Wrapped W e d (W.zero e) z)))

theorem decFields_build {W : World} {R : Ty → GV → Val → Prop} {id n : Nat} {D kd : Nat → Doc}
    (huniq : ∀ (i j : Nat) (f g : Field) (k : Bytes), (W.fields id)[i]? = some f → (W.fields id)[j]? = some g →
      Visible f → Visible g → HasKey W f k → HasKey W g k → i = j)
    {i : Nat} {fs : List Field} {vs : List GV} {ws : List WField} (hw : Written W i fs vs ws) {o : Nat} {cur : List Val}
    (hfs : ∀ j, (W.fields id)[i + j]? = fs[j]?) (hlen : cur.length = (W.fields id).length)
    (hcur : ∀ (k : Nat) (f : Field), i ≤ k → (W.fields id)[k]? = some f → cur[k]? = some (W.zero f.ty))
    (hk : ∀ (j : Nat) (w : WField), ws[j]? = some w → kd (o + j) = strDoc w.key ∧ w.key.length < 2 ^ 63)
    (hd : ∀ (j : Nat) (w : WField), ws[j]? = some w → ∃ y, R w.ty w.val y ∧ FieldRead W w.str w.ty n (D (o + j)) y) :
    ∃ cur' : List Val, cur'.length = cur.length ∧ (∀ k, k < i → cur'[k]? = cur[k]?) ∧
      (∀ (j : Nat) (f : Field) (v : GV) (y : Val), fs[j]? = some f → vs[j]? = some v → cur'[i + j]? = some y →
        (Shown W f v → R f.ty v y) ∧ (¬ Shown W f v → y = W.zero f.ty)) ∧
      DecFields W id n (pairDocs kd D o ws.length) cur cur' := by
  induction hw generalizing o cur with
  | nil => exact ⟨cur, rfl, fun _ _ => rfl, by simp, by simpa [pairDocs] using .nil⟩
  | @hidden i f fs v vs ws hh hw ih =>
    obtain ⟨cur', c1, c2, c3, c4⟩ := ih (fun j => by rw [Nat.add_assoc, Nat.add_comm 1 j]; simpa using hfs (j + 1)) hlen
      (fun k g hk => hcur k g (by omega)) hk hd
    refine ⟨cur', c1, fun k hk => c2 k (by omega), ?_, c4⟩
    intro j g x y h1 h2 h3
    cases j with
    | zero =>
      simp at h1 h2 h3
      subst h1 h2
      have hns : ¬ Shown W f v := by
        rintro ⟨h6, key, om, str, h7, h8, h9⟩
        rcases hh with hh | hh
        · rw [hh] at h6; cases h6
        · exact absurd (hasKey_unique ⟨_, _, h7⟩ hh) h8
      refine ⟨fun h => absurd h hns, fun _ => ?_⟩
      have := hcur i f (Nat.le_refl _) (by simpa using hfs 0)
      rw [c2 i (by omega), this] at h3
      exact (Option.some.inj h3).symm
    | succ j => exact c3 j g x y (by simpa using h1) (by simpa using h2) (by rw [Nat.add_assoc, Nat.add_comm 1 j]; exact h3)
  | @omitted i f fs v vs ws key str ht hz hw ih =>
    obtain ⟨cur', c1, c2, c3, c4⟩ := ih (fun j => by rw [Nat.add_assoc, Nat.add_comm 1 j]; simpa using hfs (j + 1)) hlen
      (fun k g hk => hcur k g (by omega)) hk hd
    refine ⟨cur', c1, fun k hk => c2 k (by omega), ?_, c4⟩
    intro j g x y h1 h2 h3
    cases j with
    | zero =>
      simp at h1 h2 h3
      subst h1 h2
      have hns : ¬ Shown W f v := by
        rintro ⟨h6, key, om, str, h7, h8, h9⟩
        exact absurd ⟨(tagMeaning_unique ht h7).2.1.1 trivial, hz⟩ h9
      refine ⟨fun h => absurd h hns, fun _ => ?_⟩
      have := hcur i f (Nat.le_refl _) (by simpa using hfs 0)
      rw [c2 i (by omega), this] at h3
      exact (Option.some.inj h3).symm
    | succ j => exact c3 j g x y (by simpa using h1) (by simpa using h2) (by rw [Nat.add_assoc, Nat.add_comm 1 j]; exact h3)
  | @keep i f fs v vs ws key om str a b c dz hw ih =>
    have hfi : (W.fields id)[i]? = some f := by simpa using hfs 0
    obtain ⟨y, hR, hF⟩ := hd 0 _ (by simp; rfl)
    obtain ⟨hkd, hkl⟩ := hk 0 _ (by simp; rfl)
    simp only [Nat.add_zero] at hF hkd
    have hci := hcur i f (Nat.le_refl _) hfi
    have hil : i < cur.length := (List.getElem?_eq_some_iff.1 hci).1
    obtain ⟨cur', c1, c2, c3, c4⟩ := ih (o := o + 1) (cur := cur.set i y)
      (fun j => by rw [Nat.add_assoc, Nat.add_comm 1 j]; simpa using hfs (j + 1)) (by simpa using hlen)
      (fun k g hk hg => by rw [List.getElem?_set_ne (by omega)]; exact hcur k g (by omega) hg)
      (fun j w hj => by rw [Nat.add_assoc, Nat.add_comm 1 j]; exact hk (j + 1) w (by simpa using hj))
      (fun j w hj => by rw [Nat.add_assoc, Nat.add_comm 1 j]; exact hd (j + 1) w (by simpa using hj))
    refine ⟨cur', by simpa using c1, fun k hk => by rw [c2 k (by omega), List.getElem?_set_ne (by omega)], ?_, ?_⟩
    · intro j g x y' h1 h2 h3
      cases j with
      | zero =>
        simp at h1 h2 h3
        subst h1 h2
        have hs : Shown W f v := ⟨a, key, om, _, b, c, dz⟩
        refine ⟨fun _ => ?_, fun h => absurd hs h⟩
        rw [c2 i (by omega), List.getElem?_set_self hil] at h3
        cases h3
        exact hR
      | succ j => exact c3 j g x y' (by simpa using h1) (by simpa using h2) (by rw [Nat.add_assoc, Nat.add_comm 1 j]; exact h3)
    · have hvis : Visible f := ⟨a, fun ht => c (by
        have := (tagMeaning_iff.1 b).1
        rw [this]
        exact hasKey_iff.1 ((hasKey_iff).2 (by simp [structTag, ht]; rfl)))⟩
      have hkey : HasKey W f key := ⟨_, _, b⟩
      have hff : FieldFor W id key i f := ⟨hfi, hvis, hkey, fun j g hj hg hv hk => by
        have := huniq i j f g key hfi hg hvis hv hkey hk; omega⟩
      have hfk : FieldKey (kd o) key := by rw [hkd]; exact .str (lenText_natText hkl)
      have hstr : HasString W f ↔ str = true := by
        rw [hasString_iff]
        have := (tagMeaning_iff.1 b).2.2
        exact this.symm
      rw [List.length_cons, pairDocs, List.range'_succ, List.map_cons]
      have c4' : DecFields W id n ((List.range' (o + 1) ws.length).map fun j => (kd j, D j)) (cur.set i y) cur' := c4
      rcases hF with ⟨h1, h2⟩ | ⟨h1, h2, h3⟩ | ⟨h1, e, h2, h3, ⟨h4, h5⟩ | ⟨h4, h5, z, h6, h7⟩⟩
      · exact .plain hfk hff (.inl fun h => absurd ((hstr.1 h).symm.trans h1) (by simp)) hci h2 c4'
      · exact .wrapped hfk hff (hstr.2 h1) h2 hci h3 c4'
      · rw [h4]
        subst h5
        exact .wrappedPtrNull hfk hff (hstr.2 h1) h2 h3 hci c4'
      · subst h6
        exact .wrappedPtr hfk hff (hstr.2 h1) h2 h3 hci (.inl ⟨h4, rfl⟩) h5 h7 c4'

/-! ### The whole value -/

/-- Values that are written as null. -/
def NilLike (W : World) (t : Ty) (v : GV) : Prop := (v = .sliceNil ∧ t ≠ .slice (.uint .u8)) ∨ v = .mapNil ∨ W.isPtr t = true

/-- The text can be read back. -/
def Back (W : World) (h : Heap) (M : Ty → GV → Val → Prop) (t : Ty) (v : GV) (tx : Bytes) : Prop :=
  ∃ d, tx = d.text ∧ (d = .null → W.unmOf t = none ∧ NilLike W t v) ∧
    (d.text.length < 2 ^ 63 → ∀ n, Levels n d → ∃ v', SameBy W h M t v v' ∧ DecDoc W t n d (W.zero t) v')

/-- The text of a struct field can be read back. -/
def FieldBack (W : World) (h : Heap) (M : Ty → GV → Val → Prop) (str : Bool) (t : Ty) (v : GV) (tx : Bytes) : Prop :=
  ∃ d, tx = d.text ∧ (d.text.length < 2 ^ 63 → ∀ n, Levels n d → ∃ v', SameBy W h M t v v' ∧ FieldRead W str t n d v')

theorem zero_resolve {W : World} (hz : ZeroOk W) (t : Ty) : W.zero t = W.zero (W.resolve t) := by
  cases t <;> first | rfl | exact hz.named _

theorem reads64_back {W : World} {x : UInt64} {txt : Bytes} (ho : FloatOut64 W x txt) (hf : Reads64 W x) :
    txt ≠ [] ∧ 59 ∉ txt ∧ ∃ y, FloatText W txt y ∧ SameF64 x y := by
  cases ho with
  | nan hn => exact ⟨by simp, by decide, _, .nan, .inr ⟨hn, by unfold NaN64; decide⟩⟩
  | inf => exact ⟨by simp, by decide, _, .inf, .inl rfl⟩
  | negInf => exact ⟨by simp, by decide, _, .negInf, .inl rfl⟩
  | finite h1 h2 h3 h4 =>
    obtain ⟨⟨a, b, c⟩, y, d, e⟩ := hf _ h4
    exact ⟨a, b, y, .parsed (fun h => c (.inl h)) (fun h => c (.inr (.inl h))) (fun h => c (.inr (.inr h))) d, e⟩

theorem reads32_back {W : World} {x : UInt32} {txt : Bytes} (ho : FloatOut32 W x txt) (hf : Reads32 W x) (hc : Convert32 W) :
    txt ≠ [] ∧ 59 ∉ txt ∧ ∃ y, FloatText W txt y ∧ Fits32 y ∧ SameF32 x (W.toF32 y) := by
  cases ho with
  | nan hn => exact ⟨by simp, by decide, _, .nan, .inr (by decide), .inr ⟨hn, hc.nan⟩⟩
  | inf => exact ⟨by simp, by decide, _, .inf, .inr (by decide), .inl hc.inf.symm⟩
  | negInf => exact ⟨by simp, by decide, _, .negInf, .inr (by decide), .inl hc.negInf.symm⟩
  | finite h1 h2 h3 h4 =>
    obtain ⟨⟨a, b, c⟩, y, d, e, f⟩ := hf _ h4
    exact ⟨a, b, y, .parsed (fun h => c (.inl h)) (fun h => c (.inr (.inl h))) (fun h => c (.inr (.inr h))) d, e, f⟩

theorem strDoc_len {s : Bytes} (h : (strDoc s).text.length < 2 ^ 63) : LenText (natText s.length) s.length :=
  lenText_natText (by simp [strDoc, Doc.text] at h; omega)

theorem scalar_back {W : World} {h : Heap} {M : Ty → GV → Val → Prop} {t : Ty} {v : GV} {d : Doc} (hu : W.unmOf t = none) (hc : Convert32 W) (hf : Fit W h t v) (hs : ScalarDoc W t v d) :
    Back W h M t v d.text := by
  refine ⟨d, rfl, by cases hs <;> simp [strDoc], fun hl n _ => ?_⟩
  cases hs with
  | bool hr => exact ⟨_, .bool hr, .bool ⟨hu, hr⟩⟩
  | int hr => exact ⟨_, .int hr, .int ⟨hu, hr⟩ (intText_spec _) (hf _ hr)⟩
  | @uint k m hr _ =>
    refine ⟨_, .uint hr, ?_⟩
    have := DecDoc.uint (n := n) (rv := W.zero t) ⟨hu, hr⟩ (natText_digits m) (by rw [natText_val]; exact hf _ hr)
    rwa [natText_val] at this
  | f32 hr ho =>
    obtain ⟨a, b, y, c, d, e⟩ := reads32_back ho hf hc
    exact ⟨_, .f32 hr e, .f32 ⟨hu, hr⟩ a b c d⟩
  | f64 hr ho =>
    obtain ⟨a, b, y, c, d⟩ := reads64_back ho hf
    exact ⟨_, .f64 hr d, .f64 ⟨hu, hr⟩ a b c⟩
  | str hr => exact ⟨_, .str hr, .str ⟨hu, hr⟩ (strDoc_len hl)⟩

theorem key_back {W : World} {h : Heap} {M : Ty → GV → Val → Prop} {k : Ty} {x : GV} {d : Doc} (hu : W.unmOf k = none) (hr : Ranged W k x) (hk : KeyDoc W k x d)
    (hl : d.text.length < 2 ^ 63) (n : Nat) :
    KeyType W k ∧ DecDoc W k n d (W.zero k) (keyVal x) ∧ Hashable (keyVal x) ∧ SameBy W h M k x (keyVal x) := by
  cases hk with
  | int h1 => exact ⟨.inr (.inr (.inr (.inl ⟨_, h1⟩))), .int ⟨hu, h1⟩ (intText_spec _) (hr _ h1), .int, .int h1⟩
  | @uint kk m h1 _ =>
    refine ⟨.inr (.inr (.inr (.inr (.inl ⟨_, h1⟩)))), ?_, .uint, .uint h1⟩
    have := DecDoc.uint (n := n) (rv := W.zero k) ⟨hu, h1⟩ (natText_digits m) (by rw [natText_val]; exact hr _ h1)
    rwa [natText_val] at this
  | str h1 => exact ⟨.inr (.inl h1), .str ⟨hu, h1⟩ (strDoc_len hl), .str, .str h1⟩

theorem bool_texts : BoolText [116, 114, 117, 101] true ∧ BoolText [102, 97, 108, 115, 101] false := by
  unfold BoolText; decide

theorem basic_back {W : World} {h : Heap} {M : Ty → GV → Val → Prop} {t : Ty} {v : GV} {txt : Bytes} (hu : W.unmOf t = none) (hf : Fit W h t v) (hb : BasicText W (W.resolve t) v txt) :
    IsScalar W t ∧ ∃ v', SameBy W h M t v v' ∧ ScalarText W t txt v' := by
  generalize hr : W.resolve t = r at hb
  cases hb with
  | true => exact ⟨.inl ⟨hu, hr⟩, _, .bool hr, .bool ⟨hu, hr⟩ bool_texts.1⟩
  | false => exact ⟨.inl ⟨hu, hr⟩, _, .bool hr, .bool ⟨hu, hr⟩ bool_texts.2⟩
  | int => exact ⟨.inr (.inl ⟨_, hu, hr⟩), _, .int hr, .int ⟨hu, hr⟩ (intText_spec _) (hf _ hr)⟩
  | @uint k m _ =>
    refine ⟨.inr (.inr (.inl ⟨_, hu, hr⟩)), _, .uint hr, ?_⟩
    have := ScalarText.uint ⟨hu, hr⟩ (natText_digits m) (by rw [natText_val]; exact hf _ hr)
    rwa [natText_val] at this
  | f32 hx =>
    obtain ⟨⟨a, b, c⟩, y, d, e, f⟩ := hf _ hx
    exact ⟨.inr (.inr (.inr (.inl ⟨hu, hr⟩))), _, .f32 hr f,
      .f32 ⟨hu, hr⟩ (.parsed (fun h => c (.inl h)) (fun h => c (.inr (.inl h))) (fun h => c (.inr (.inr h))) d) e⟩
  | f64 hx =>
    obtain ⟨⟨a, b, c⟩, y, d, e⟩ := hf _ hx
    exact ⟨.inr (.inr (.inr (.inr ⟨hu, hr⟩))), _, .f64 hr e,
      .f64 ⟨hu, hr⟩ (.parsed (fun h => c (.inl h)) (fun h => c (.inr (.inl h))) (fun h => c (.inr (.inr h))) d)⟩

theorem bytes_same {W : World} {h : Heap} {M : Ty → GV → Val → Prop} {xs : List GV} {s : Bytes} (hb : bytesOf xs = some s) :
    s.length = xs.length ∧ ∀ (i : Nat) (x : GV) (y : Val), xs[i]? = some x → (s.map fun c => Val.uint c.toNat)[i]? = some y → SameBy W h M (.uint .u8) x y := by
  induction xs generalizing s with
  | nil => simp [bytesOf] at hb; subst hb; simp
  | cons v xs ih =>
    cases v <;> simp only [bytesOf, reduceCtorEq] at hb
    rename_i x
    split at hb
    · rename_i hx
      rw [Option.map_eq_some_iff] at hb
      obtain ⟨s', h1, rfl⟩ := hb
      obtain ⟨h2, h3⟩ := ih h1
      refine ⟨by simp [h2], fun i a b ha hb => ?_⟩
      cases i with
      | zero =>
        simp at ha hb
        subst ha hb
        have : (UInt8.ofNat x).toNat = x := by rw [UInt8.toNat_ofNat']; omega
        rw [Nat.mod_eq_of_lt hx]
        exact .uint rfl
      | succ i => exact h3 i a b (by simpa using ha) (by simpa using hb)
    · cases hb

/-- Types that take part, all prepared. -/
structure GoodTypes (W : World) (T : Ty → Prop) : Prop where
  kind : ∀ t, T t → WithMethods W t
  prepared : ∀ t, T t → Prepared W t
  needs : ∀ t t', T t → Needs W t t' → T t'

theorem wm_simple {W : World} {t : Ty} (h : WithMethods W t) (hm : W.marOf t = false) : Simple W t := by
  cases h with
  | simple h => exact h
  | own h => simp [World.marOf, h.mar] at hm
  | ptr h => simp [World.marOf, h.mar] at hm

theorem wm_plain {W : World} {t : Ty} (h : WithMethods W t) (hu : W.unmOf t = none) (hp : W.isPtr t = false) : Simple W t := by
  cases h with
  | simple h => exact h
  | own h => simp [World.unmOf, h.unm] at hu
  | ptr h => simp [World.isPtr, World.resolve] at hp

theorem wm_ptr {W : World} {t e : Ty} (h : WithMethods W t) (hr : W.resolve t = .ptr e) : W.unmOf t = none := by
  cases h with
  | simple h => exact h.unm
  | own h => have := h.ptr; simp [World.isPtr, hr] at this
  | ptr h => rfl

theorem wm_ptr_simple {W : World} {t e : Ty} (h : WithMethods W t) (hr : W.resolve t = .ptr e) (hu : W.unmOf e = none) : Simple W t := by
  cases h with
  | simple h => exact h
  | own h => have := h.ptr; simp [World.isPtr, hr] at this
  | ptr h => cases hr; simp [World.unmOf, h.unm] at hu

theorem levels_depth {n : Nat} {d : Doc} (h : Levels n d) : d.depth ≤ n := by
  induction h with
  | null => simp [Doc.depth]
  | bool => simp [Doc.depth]
  | int => simp [Doc.depth]
  | float => simp [Doc.depth]
  | str => simp [Doc.depth]
  | arr _ _ h1 h2 => rw [Doc.depth]; exact Nat.succ_le_succ (pairsDepth_le.2 fun k v hm => ⟨h1 k v hm, h2 k v hm⟩)
  | obj _ _ h1 h2 => rw [Doc.depth]; exact Nat.succ_le_succ (pairsDepth_le.2 fun k v hm => ⟨h1 k v hm, h2 k v hm⟩)

/-- A value with methods of its own is read back. -/
theorem own_back {W : World} {h : Heap} {M : Ty → GV → Val → Prop} {id : Nat} {v : GV} {raw : Bytes} (hb : Both W id) (hm : MethodsOk W h M (.named id) v)
    (hr : Marshaled W h (.named id) v raw) : Back W h M (.named id) v raw := by
  have hu : W.unmOf (.named id) = some id := by simp [World.unmOf, hb.unm]
  obtain ⟨d, x, rfl, h1, h2, h3, h4⟩ := hm.own id v raw .refl hb hr
  exact ⟨d, rfl, fun h => absurd h h1, fun _ n hn => ⟨x, .own (by rw [hu]; simp) h4, .unm hu h1 (strict_of_depth h2 (levels_depth hn)) h3⟩⟩

theorem methods_part {W : World} {h : Heap} {M : Ty → GV → Val → Prop} {t t' : Ty} {v v' : GV} (hm : MethodsOk W h M t v) (hu : W.unmOf t = none) (hp : Part W h t v t' v') :
    MethodsOk W h M t' v' := ⟨fun id v' raw ho => hm.own id v' raw (.step hu hp ho), fun id v' raw ho => hm.ptr id v' raw (.step hu hp ho)⟩

theorem levels_of_depth {n : Nat} {d : Doc} (h : d.depth < n) : Levels n d := by
  induction n generalizing d with
  | zero => omega
  | succ n ih =>
    have pairs : ∀ {es : List (Doc × Doc)}, pairsDepth es < n → ∀ k v, (k, v) ∈ es → Levels n k ∧ Levels n v := fun he k v hkv => by
      have := (pairsDepth_le.1 (Nat.le_refl _)) k v hkv
      exact ⟨ih (by omega), ih (by omega)⟩
    cases d with
    | null => exact .null
    | bool => exact .bool
    | int => exact .int
    | float => exact .float
    | str => exact .str
    | arr cnt es =>
      rw [Doc.depth] at h
      exact .arr (fun k v hkv => (pairs (by omega) k v hkv).1) fun k v hkv => (pairs (by omega) k v hkv).2
    | obj clen cls cnt es =>
      rw [Doc.depth] at h
      exact .obj (fun k v hkv => (pairs (by omega) k v hkv).1) fun k v hkv => (pairs (by omega) k v hkv).2

theorem levels_pair {n : Nat} {kd D : Nat → Doc} {m : Nat} {cnt : Bytes} {j : Nat} (h : Levels n (.arr cnt (pairDocs kd D 0 m))) (hj : j < m) :
    ∃ k, n = k + 1 ∧ Levels k (kd j) ∧ Levels k (D j) := by
  cases h with
  | arr h1 h2 =>
    have hm : (kd j, D j) ∈ pairDocs kd D 0 m := mem_pairDocs.2 ⟨j, Nat.zero_le _, by omega, rfl, rfl⟩
    exact ⟨_, rfl, h1 _ _ hm, h2 _ _ hm⟩

theorem arr_len {kd D : Nat → Doc} {m : Nat} {cnt : Bytes} (hl : (Doc.arr cnt (pairDocs kd D 0 m)).text.length < 2 ^ 63) :
    m < 2 ^ 63 ∧ ∀ j, j < m → (kd j).text.length < 2 ^ 63 ∧ (D j).text.length < 2 ^ 63 := by
  have h1 := container_len (d := .arr cnt (pairDocs kd D 0 m)) .arr
  have h2 := pairs_count (pairDocs kd D 0 m)
  rw [pairDocs_length] at h2
  refine ⟨by omega, fun j hj => ?_⟩
  have := mem_pairs_len (mem_pairDocs (kd := kd) (D := D) (i := 0) (n := m).2 ⟨j, Nat.zero_le _, by omega, rfl, rfl⟩)
  omega

theorem levels_arr {n : Nat} {cnt : Bytes} {es : List (Doc × Doc)} (h : Levels n (.arr cnt es)) : ∃ k, n = k + 1 := by
  cases h; exact ⟨_, rfl⟩

theorem ptr_back {W : World} {h : Heap} {M : Ty → GV → Val → Prop} {t e : Ty} {a : Nat} {tx : Bytes} (hz : ZeroOk W) (hu : W.unmOf t = none) (hr : W.resolve t = .ptr e)
    (hp : W.isPtr e = false) (hf : W.unmOf e = none → Fit W h t (.ptr a)) (hb : Back W h M e (h.deref e a) tx) : Back W h M t (.ptr a) tx := by
  obtain ⟨d, rfl, h1, h2⟩ := hb
  have hnn : d ≠ .null := fun hd => by
    obtain ⟨hue, h1⟩ := h1 hd
    obtain ⟨f1, f2⟩ := hf hue e hr
    rcases h1 with ⟨h3, h4⟩ | h3 | h3
    · exact h4 (f1 h3)
    · exact f2 h3
    · rw [hp] at h3; cases h3
  refine ⟨d, rfl, fun hd => absurd hd hnn, fun hl n hn => ?_⟩
  obtain ⟨v', h3, h4⟩ := h2 hl n hn
  refine ⟨_, .ptr hr h3, ?_⟩
  rw [zero_resolve hz t, hr]
  exact .ptrNew ⟨hu, hr⟩ hp hnn h4

theorem Back.field {W : World} {h : Heap} {M : Ty → GV → Val → Prop} {t : Ty} {v : GV} {tx : Bytes} (hb : Back W h M t v tx) : FieldBack W h M false t v tx := by
  obtain ⟨d, h1, -, h2⟩ := hb
  exact ⟨d, h1, fun hl n hn => (h2 hl n hn).imp fun v' hv => ⟨hv.1, .inl ⟨rfl, hv.2⟩⟩⟩

/-- The option `string` is used in a way the decoder accepts. -/
def StrOk (W : World) (str : Bool) (t : Ty) : Prop :=
  str = true → StringIgnored W t ∨ IsScalar W t ∨ ∃ e, Plain W t (.ptr e) ∧ IsScalar W e

theorem encG_back {W : World} {h : Heap} {M : Ty → GV → Val → Prop} {ok : Ty → Prop} {G : Stack → Nat → Bool → Prop} {T : Ty → Prop} (hz : ZeroOk W) (hc : Convert32 W)
    (hT : GoodTypes W T) {m : Mode} {st : Stack} {p : Path} {t : Ty} {v : GV} {tx : Bytes} (he : EncG W h ok G m st p t v tx) (ht : T t)
    (hm : MethodsOk W h M t v) (hf : ∀ t' v', Outside W h t v t' v' → Simple W t' → Fit W h t' v') :
    match m with
    | .typed => Back W h M t v tx
    | .kind => Simple W t → t ≠ .slice (.uint .u8) → Back W h M t v tx
    | .held => True
    | .field str => StrOk W str t → (str = true → W.unmOf t = none) → FieldBack W h M str t v tx := by
  induction he with
  | marshaler a hr =>
    cases hT.kind _ ht with
    | simple hs => rw [hs.mar] at a; cases a
    | own hb => exact own_back hb hm hr
    | @ptr id hb =>
      obtain ⟨b, rfl, hr'⟩ := hm.ptr _ _ _ .refl hb hr
      exact ptr_back hz rfl rfl hb.ptr (fun hu => by simp [World.unmOf, hb.unm] at hu) (own_back hb (methods_part hm rfl (.ptr rfl)) hr')
  | bytesNil => exact ⟨_, rfl, by simp [strDoc], fun hl n _ => ⟨_, .bytesNil, .bytes ⟨rfl, rfl⟩ rfl (strDoc_len hl)⟩⟩
  | bytes hb =>
    obtain ⟨h1, h2⟩ := bytes_same (W := W) (h := h) (M := M) hb
    exact ⟨_, rfl, by simp [strDoc], fun hl n _ => ⟨_, .slice rfl (fun _ => rfl) (by simpa using h1) h2, .bytes ⟨rfl, rfl⟩ rfl (strDoc_len hl)⟩⟩
  | plain hmar hne _ _ ih => exact ih ht hm hf (wm_simple (hT.kind _ ht) hmar) hne
  | @ptrNil _ _ t e _ hr hp _ =>
    have hu := wm_ptr (hT.kind _ ht) hr
    exact ⟨.null, rfl, fun _ => ⟨hu, .inr (.inr (by simp [World.isPtr, hr]))⟩, fun _ n _ => ⟨_, .ptrNil hr, .ptrNull ⟨hu, hr⟩ hp⟩⟩
  | @ptrStruct _ _ t e a tx hmar hr hs _ _ ih =>
    have hsim := wm_simple (hT.kind _ ht) hmar
    have hu := hsim.unm
    have hpe := (hT.prepared _ ht).ptr e ⟨hu, hr⟩
    have hte := hT.needs _ _ ht (.ptr ⟨hu, hr⟩)
    exact ptr_back hz hu hr hpe (fun _ => hf _ _ .refl hsim)
      (ih hte (methods_part hm hu (.ptr hr)) (fun t' v' hw => hf t' v' (.step hu (.ptr hr) hw)) (wm_plain (hT.kind _ hte) (hsim.ptr e hr) hpe) (by rintro rfl; simp [World.isStruct, World.resolve] at hs))
  | @ptrKind _ _ t e a tx hmar hr hs _ ih =>
    have hsim := wm_simple (hT.kind _ ht) hmar
    have hu := hsim.unm
    have hpe := (hT.prepared _ ht).ptr e ⟨hu, hr⟩
    have hte := hT.needs _ _ ht (.ptr ⟨hu, hr⟩)
    exact ptr_back hz hu hr hpe (fun _ => hf _ _ .refl hsim)
      (ih hte (methods_part hm hu (.ptr hr)) (fun t' v' hw => hf t' v' (.step hu (.ptr hr) hw)) (wm_plain (hT.kind _ hte) (hsim.ptr e hr) hpe) (by rintro rfl; simp [directKind, World.resolve] at hs))
  | @ptrTyped _ _ t e a tx _ hr hs _ _ _ _ ih =>
    have hu := wm_ptr (hT.kind _ ht) hr
    exact ptr_back hz hu hr ((hT.prepared _ ht).ptr e ⟨hu, hr⟩) (fun hue => hf _ _ .refl (wm_ptr_simple (hT.kind _ ht) hr hue))
      (ih (hT.needs _ _ ht (.ptr ⟨hu, hr⟩)) (methods_part hm hu (.ptr hr)) fun t' v' hw => hf t' v' (.step hu (.ptr hr) hw))
  | @ptrIface _ _ t e _ _ hmar hr hi =>
    have hsim := wm_simple (hT.kind _ ht) hmar
    have hpl : Plain W t (.ptr e) := ⟨hsim.unm, hr⟩
    have hk := (wm_plain (hT.kind _ (hT.needs _ _ ht (.ptr hpl))) (hsim.ptr e hr) ((hT.prepared _ ht).ptr e hpl)).kind
    rcases isIface_cases hi with hr | ⟨i, hr⟩ <;> rw [hr] at hk <;> exact hk.elim
  | scalar hs =>
    intro hsim _
    exact scalar_back hsim.unm hc (hf _ _ .refl hsim) hs
  | @struct st p t id vs ws tx hr hw _ ih =>
    intro hsim _
    have hu := hsim.unm
    have hpl : Plain W t (.struct id) := ⟨hu, hr⟩
    have hprep := hT.prepared _ ht
    -- every written field can be read back
    have each : ∀ (j : Nat) (w : WField), ws[j]? = some w → FieldBack W h M w.str w.ty w.val (tx j) := by
      intro j w hj
      obtain ⟨f, om, -, h2, h3, h4, h5, h6, h7⟩ := written_field hw (List.mem_of_getElem? hj)
      have hfm : f ∈ W.fields id := List.mem_of_getElem? h2
      have hvis : Visible f := ⟨h4, fun htag => h6 (by
        rw [(tagMeaning_iff.1 h5).1]
        exact hasKey_iff.1 ((hasKey_iff).2 (by simp [structTag, htag]; rfl)))⟩
      refine ih j w hj ?_ (methods_part hm hu (written_part hr hw hj)) (fun t' v' hw' => hf t' v' (.step hu (written_part hr hw hj) hw')) ?_ ?_
      · rw [← h7]; exact hT.needs _ _ ht (.field hpl hfm hvis)
      · intro hstr
        rw [← h7]
        exact hprep.str id hpl f hfm hvis (hasString_iff.2 ((tagMeaning_iff.1 h5).2.2.1 hstr))
      · intro hstr
        rw [← h7]
        exact hsim.str id hr f hfm hvis (hasString_iff.2 ((tagMeaning_iff.1 h5).2.2.1 hstr))
    obtain ⟨D, hD⟩ := choose_docs each
    refine ⟨.arr (natText ws.length) (pairDocs (fun j => strDoc ((ws[j]?.map (·.key)).getD [])) D 0 ws.length),
      arrText_doc fun j hj => (hD j _ (List.getElem?_eq_getElem hj)).1, by simp, fun hl n hn => ?_⟩
    obtain ⟨hl1, hl2⟩ := arr_len hl
    obtain ⟨n, rfl⟩ := levels_arr hn
    have hzs : W.zero t = .struct ((W.fields id).map fun f => W.zero f.ty) := by rw [zero_resolve hz t, hr]; exact hz.struct id
    obtain ⟨cur', c1, -, c3, c4⟩ := decFields_build (R := SameBy W h M) (n := n) (D := D) (kd := fun j => strDoc ((ws[j]?.map (·.key)).getD [])) (hprep.keys id hpl) hw (o := 0)
      (cur := (W.fields id).map fun f => W.zero f.ty) (by simp) (by simp)
      (fun k f _ hk => by simp [hk])
      (fun j w hj => by
        have hjl := (List.getElem?_eq_some_iff.1 hj).1
        refine ⟨by simp [hj], ?_⟩
        have := (hl2 j hjl).1
        simp only [hj, Option.map_some, Option.getD_some, strDoc, Doc.text, List.length_append] at this
        omega)
      (fun j w hj => by
        have hjl := (List.getElem?_eq_some_iff.1 hj).1
        obtain ⟨k, hk, -, hlv⟩ := levels_pair hn hjl
        obtain rfl : n = k := by omega
        rw [Nat.zero_add]
        exact (hD j w hj).2 (hl2 j hjl).2 n hlv)
    refine ⟨.struct cur', .struct hr (written_length hw) (by simpa using c1) (fun i f x y h1 h2 h3 hs => (c3 i f x y h1 h2 (by simpa using h3)).1 hs)
      (fun i f x y h1 h2 h3 hs => (c3 i f x y h1 h2 (by simpa using h3)).2 hs), ?_⟩
    rw [hzs]
    cases ws with
    | nil =>
      have : cur' = (W.fields id).map fun f => W.zero f.ty := by
        have := decFields_nil.1 (by simpa [pairDocs] using c4 : DecFields W id n [] _ cur')
        exact this
      rw [this]
      exact .structEmpty hpl (by simpa [pairDocs] using Container.arr) (natText_digits _)
    | cons w ws => exact .struct hpl .arr (natText_digits _) (by simp [pairDocs]) c4
  | @array st p t l e vs tx hr hlen _ ih =>
    intro hsim _
    have hu := hsim.unm
    have hpl : Plain W t (.array l e) := ⟨hu, hr⟩
    have hte := hT.needs _ _ ht (.array hpl)
    obtain ⟨D, hD⟩ := choose_docs fun j w hw => ih j w hw hte (methods_part hm hu (.array hr (List.mem_of_getElem? hw))) fun t' v' hw' => hf t' v' (.step hu (.array hr (List.mem_of_getElem? hw)) hw')
    refine ⟨.arr (natText vs.length) (pairDocs idxDoc D 0 vs.length),
      arrText_doc fun j hj => (hD j _ (List.getElem?_eq_getElem hj)).1, by simp, fun hl n hn => ?_⟩
    obtain ⟨hl1, hl2⟩ := arr_len hl
    obtain ⟨n, rfl⟩ := levels_arr hn
    obtain ⟨zs, z1, z2, z3⟩ := decArr_build (R := SameBy W h M e) (n := n) (D := D) (xs := vs) (acc := [])
      (fun j w hj => by
        have hjl := (List.getElem?_eq_some_iff.1 hj).1
        obtain ⟨k, hk, -, hlv⟩ := levels_pair hn hjl
        obtain rfl : n = k := by omega
        rw [List.length_nil, Nat.zero_add]
        exact (hD j w hj).2.2 (hl2 j hjl).2 n hlv) (by simpa using hl1)
    refine ⟨.arr zs, .arr hr z1 z2, ?_⟩
    simp only [List.nil_append, List.length_nil] at z3
    cases hvs : vs with
    | nil =>
      subst hvs
      simp at z1 hlen
      subst z1 hlen
      simpa [pairDocs, natText_zero] using DecDoc.arrayEmpty (n := n) (rv := W.zero t) hpl
    | cons w ws =>
      rw [← hvs]
      rw [hlen] at z3 hl1 ⊢
      have hne : l ≠ 0 := by rw [← hlen, hvs]; simp
      exact .array hpl (lenText_natText hl1) (natText_head hne) (by rw [← List.length_pos_iff, pairDocs_length]; omega) z3
  | @sliceNil st p t e hr =>
    intro hsim hb8
    have hu := hsim.unm
    refine ⟨.null, rfl, fun _ => ⟨hu, .inl ⟨rfl, hb8⟩⟩, fun _ n hn => ?_⟩
    cases hn
    refine ⟨_, .sliceNil hr hb8, ?_⟩
    cases hb : W.isByte e with
    | false => exact .sliceNull ⟨hu, hr⟩ hb
    | true =>
      have : W.zero t = .sliceNil := by rw [zero_resolve hz t, hr]; rfl
      rw [this]
      exact .bytesNull ⟨hu, hr⟩ hb
  | @slice st p t e a m vs tx hr _ hv _ ih =>
    intro hsim hb8
    have hu := hsim.unm
    have hpl : Plain W t (.slice e) := ⟨hu, hr⟩
    have hte := hT.needs _ _ ht (.slice hpl)
    subst hv
    obtain ⟨D, hD⟩ := choose_docs fun j w hw => ih j w hw hte (methods_part hm hu (.slice hr (List.mem_of_getElem? hw))) fun t' v' hw' => hf t' v' (.step hu (.slice hr (List.mem_of_getElem? hw)) hw')
    refine ⟨.arr (natText (h.elems e a m).length) (pairDocs idxDoc D 0 (h.elems e a m).length),
      arrText_doc fun j hj => (hD j _ (List.getElem?_eq_getElem hj)).1, by simp, fun hl n hn => ?_⟩
    obtain ⟨hl1, hl2⟩ := arr_len hl
    obtain ⟨n, rfl⟩ := levels_arr hn
    have hfit : esize W e * (h.elems e a m).length ≤ 2 ^ 48 := hf _ _ .refl hsim e hr
    obtain ⟨zs, z1, z2, z3⟩ := decElems_build (R := SameBy W h M e) (n := n) (D := D) (xs := h.elems e a m) (acc := [])
      (fun j w hj => by
        have hjl := (List.getElem?_eq_some_iff.1 hj).1
        obtain ⟨k, hk, -, hlv⟩ := levels_pair hn hjl
        obtain rfl : n = k := by omega
        rw [List.length_nil, Nat.zero_add]
        exact (hD j w hj).2.2 (hl2 j hjl).2 n hlv) (by simpa using hl1) (by simpa using hfit)
    simp only [List.nil_append, List.length_nil] at z3
    cases hvs : h.elems e a m with
    | nil => exact ⟨.sliceNil, .sliceEmpty hr hb8 hvs, by simpa [pairDocs, natText_zero] using DecDoc.sliceEmpty (n := n) (rv := W.zero t) hpl⟩
    | cons w ws =>
      rw [← hvs]
      have hne : (h.elems e a m).length ≠ 0 := by rw [hvs]; simp
      refine ⟨.slice zs, .slice hr (fun hzs => ?_) z1 z2, .slice hpl (lenText_natText hl1) (natText_head hne) hfit
        (by rw [← List.length_pos_iff, pairDocs_length]; omega) z3⟩
      rw [hzs] at z1
      exact absurd z1.symm hne
  | @mapNil st p t k e hr =>
    intro hsim _
    have hu := hsim.unm
    refine ⟨.null, rfl, fun _ => ⟨hu, .inr (.inl rfl)⟩, fun _ n hn => ?_⟩
    cases hn
    exact ⟨_, .mapNil hr, .mapNull ⟨hu, hr⟩⟩
  | @map st p t k e a es kd tx hr _ hv hk _ ih =>
    intro hsim _
    have hu := hsim.unm
    have hpl : Plain W t (.map k e) := ⟨hu, hr⟩
    have hte := hT.needs _ _ ht (.mapVal hpl)
    have huk := hsim.key k e hr
    subst hv
    obtain ⟨D, hD⟩ := choose_docs (vs := h.iter k e p a) fun j w hw => ih j w.1 w.2 hw hte (methods_part hm hu (.map hr (List.mem_of_getElem? hw))) fun t' v' hw' => hf t' v' (.step hu (.map hr (List.mem_of_getElem? hw)) hw')
    refine ⟨.arr (natText (h.iter k e p a).length) (pairDocs kd D 0 (h.iter k e p a).length),
      arrText_doc fun j hj => (hD j _ (List.getElem?_eq_getElem hj)).1, by simp, fun hl n hn => ?_⟩
    obtain ⟨hl1, hl2⟩ := arr_len hl
    obtain ⟨n, rfl⟩ := levels_arr hn
    obtain ⟨f1, f2⟩ : (h.iter k e p a).Pairwise (fun x y => x.1 ≠ y.1) ∧ ∀ x ∈ h.iter k e p a, Ranged W k x.1 := hf _ _ .refl hsim k e p hr
    have hkb : ∀ (j : Nat) (x : GV × GV), (h.iter k e p a)[j]? = some x →
        KeyType W k ∧ DecDoc W k n (kd j) (W.zero k) (keyVal x.1) ∧ Hashable (keyVal x.1) ∧ SameBy W h M k x.1 (keyVal x.1) := fun j x hj =>
      key_back huk (f2 x (List.mem_of_getElem? hj)) (hk j x.1 x.2 hj) (hl2 j (List.getElem?_eq_some_iff.1 hj).1).1 n
    obtain ⟨zs, z1, z2, z3⟩ := decPairs_build (W := W) (k := k) (R := SameBy W h M e) (e := e) (n := n) (D := D) (kd := kd) (xs := h.iter k e p a) (acc := []) (o := 0)
      (fun j x hj => by rw [Nat.zero_add]; exact ⟨(hkb j x hj).1, (hkb j x hj).2.1, (hkb j x hj).2.2.1⟩)
      (fun j w hj => by
        have hjl := (List.getElem?_eq_some_iff.1 hj).1
        obtain ⟨k, hk, -, hlv⟩ := levels_pair hn hjl
        obtain rfl : n = k := by omega
        rw [Nat.zero_add]
        exact (hD j w hj).2.2 (hl2 j hjl).2 n hlv)
      (by
        refine List.Pairwise.imp_of_mem (fun {x y} hx hy hxy => ?_) f1
        obtain ⟨i, hi⟩ := List.getElem?_of_mem hx
        obtain ⟨j, hj⟩ := List.getElem?_of_mem hy
        exact keyVal_ne (hk i x.1 x.2 hi) (hk j y.1 y.2 hj) hxy)
      (by simp)
    rw [List.nil_append] at z3
    have hzt : W.zero t = .mapNil := by rw [zero_resolve hz t, hr]; rfl
    refine ⟨.map zs, .map hr z1 (fun i x y h1 h2 => ?_) (fun i x y h1 h2 => (z2 i x y h1 h2).2), ?_⟩
    · rw [(z2 i x y h1 h2).1]; exact (hkb i x h1).2.2.2
    · rw [hzt]; exact .map hpl .arr (lenText_natText hl1) .nil z3
  | iface hi =>
    intro hsim _
    have hk := hsim.kind
    rcases isIface_cases hi with hr | ⟨i, hr⟩ <;> rw [hr] at hk <;> exact hk.elim
  | heldNil => trivial
  | heldScalar => trivial
  | heldConcreteSlice => trivial
  | heldSliceNil => trivial
  | heldSlice => trivial
  | heldMapNil => trivial
  | heldMap => trivial
  | heldConcreteMap => trivial
  | heldStruct => trivial
  | fieldPlain _ _ ih => exact fun _ _ => (ih ht hm hf).field
  | @fieldPtrNil st p t e str hr =>
    intro hstr _
    have hu := wm_ptr (hT.kind _ ht) hr
    have hpl : Plain W t (.ptr e) := ⟨hu, hr⟩
    refine ⟨.null, rfl, fun _ n _ => ⟨_, .ptrNil hr, ?_⟩⟩
    cases str with
    | false => exact .inl ⟨rfl, .ptrNull hpl ((hT.prepared _ ht).ptr e hpl)⟩
    | true =>
      rcases hstr rfl with hs | hs | ⟨e', h1, h2⟩
      · exact absurd hs (ptr_not_ignored hpl)
      · unfold IsScalar Plain at hs; simp [hr] at hs
      · have := h1.2.symm.trans hr
        cases this
        exact .inr (.inr ⟨rfl, e, hpl, h2, .inl ⟨rfl, rfl⟩⟩)
  | @fieldPtrStruct st p t e a tx hr _ _ _ ih =>
    intro _ _
    have hu := wm_ptr (hT.kind _ ht) hr
    exact (ptr_back hz hu hr ((hT.prepared _ ht).ptr e ⟨hu, hr⟩) (fun hue => hf _ _ .refl (wm_ptr_simple (hT.kind _ ht) hr hue))
      (ih (hT.needs _ _ ht (.ptr ⟨hu, hr⟩)) (methods_part hm hu (.ptr hr)) fun t' v' hw => hf t' v' (.step hu (.ptr hr) hw))).field
  | @fieldPtr st p t e a tx hr _ _ ih =>
    intro _ _
    have hu := wm_ptr (hT.kind _ ht) hr
    exact (ptr_back hz hu hr ((hT.prepared _ ht).ptr e ⟨hu, hr⟩) (fun hue => hf _ _ .refl (wm_ptr_simple (hT.kind _ ht) hr hue))
      (ih (hT.needs _ _ ht (.ptr ⟨hu, hr⟩)) (methods_part hm hu (.ptr hr)) fun t' v' hw => hf t' v' (.step hu (.ptr hr) hw))).field
  | @fieldStr st p t v d hp hs =>
    intro hstr hu
    have hu := hu rfl
    have hsim := wm_plain (hT.kind _ ht) hu hp
    have hkind := hsim.kind
    cases hs with
    | str hr =>
      rcases hstr rfl with hs | hs | ⟨e', h1, h2⟩
      · unfold StringIgnored at hs; simp [hr, hu] at hs
      · unfold IsScalar Plain at hs; simp [hr] at hs
      · have := h1.2.symm.trans hr; cases this
    | basic hb =>
      obtain ⟨h1, v', h2, h3⟩ := basic_back (h := h) (M := M) hu (hf _ _ .refl hsim) hb
      exact ⟨_, rfl, fun hl n _ => ⟨v', h2, .inr (.inl ⟨rfl, h1, .str (strDoc_len hl) h3⟩)⟩⟩
    | ifaceNil hi => rcases isIface_cases hi with hr | ⟨i, hr⟩ <;> rw [hr] at hkind <;> exact hkind.elim
    | iface hi => rcases isIface_cases hi with hr | ⟨i, hr⟩ <;> rw [hr] at hkind <;> exact hkind.elim
  | @fieldStrPtr st p t e a d hr hs =>
    intro hstr _
    have hu := wm_ptr (hT.kind _ ht) hr
    have hpl : Plain W t (.ptr e) := ⟨hu, hr⟩
    have hte := hT.needs _ _ ht (.ptr hpl)
    have hse : IsScalar W e := by
      rcases hstr rfl with hs | hs | ⟨e', h1, h2⟩
      · exact absurd hs (ptr_not_ignored hpl)
      · unfold IsScalar Plain at hs; simp [hr] at hs
      · have := h1.2.symm.trans hr
        cases this
        exact h2
    have hue : W.unmOf e = none := by rcases hse with h | ⟨_, h⟩ | ⟨_, h⟩ | h | h <;> exact h.1
    have hsim := wm_plain (hT.kind _ hte) hue ((hT.prepared _ ht).ptr e hpl)
    have hkind := hsim.kind
    have hfit := hf _ _ (.step hu (.ptr hr) .refl) hsim
    generalize hv : h.deref e a = v at hs hfit
    cases hs with
    | str hr' => unfold IsScalar Plain at hse; simp [hr'] at hse
    | basic hb =>
      obtain ⟨h1, v', h2, h3⟩ := basic_back (h := h) (M := M) hue hfit hb
      refine ⟨_, rfl, fun hl n _ => ⟨.ptr v', .ptr hr (hv ▸ h2), .inr (.inr ⟨rfl, e, hpl, hse, .inr ⟨?_, by simp [strDoc], v', rfl, .str (strDoc_len hl) h3⟩⟩)⟩⟩
      rw [zero_resolve hz t, hr]; rfl
    | ifaceNil hi => rcases isIface_cases hi with hr | ⟨i, hr⟩ <;> rw [hr] at hkind <;> exact hkind.elim
    | iface hi => rcases isIface_cases hi with hr | ⟨i, hr⟩ <;> rw [hr] at hkind <;> exact hkind.elim

theorem trip {W : World} {h : Heap} {M : Ty → GV → Val → Prop} (hz : ZeroOk W) (hc : Convert32 W) {t : Ty} {v : GV}
    (hty : ∀ t', Uses W t t' → WithMethods W t') (hme : MethodsOk W h M t v) (hfit : ∀ t' v', Outside W h t v t' v' → Simple W t' → Fit W h t' v')
    {tx : Bytes} (hm : MarshalGives W h (some (t, v)) (.ok tx)) (hl : tx.length < 2 ^ 63)
    (hd : ∃ d m, tx = d.text ∧ Lax m d ∧ Levels 10000 d) {fuel : Nat} (hcomp : compileD W fuel [] t = .ok ()) :
    ∃ v', SameBy W h M t v v' ∧ unmarshal W fuel tx (.ptr t (W.zero t)) = (some v', .ok ()) := by
  obtain ⟨-, he⟩ := marshalGives_ok_iff.1 hm
  obtain ⟨d', m, htx, hlax, hlev⟩ := hd
  obtain ⟨d, h1, -, h2⟩ : Back W h M t v tx := encG_back (T := Uses W t) hz hc
    ⟨hty, fun t' hu => compileD_uses hcomp hu, fun _ _ h1 h2 => .step h1 h2⟩ he .refl hme hfit
  rw [h1] at hl htx
  obtain ⟨_, -, h3⟩ := h2 hl _ (levels_of_depth (Nat.lt_succ_self _))
  have hdd := (lax_unique (decDoc_lax h3) hlax (r1 := []) (r2 := []) (by rw [htx])).1
  obtain ⟨v', h4, h5⟩ := h2 hl 10000 (by rw [hdd]; exact hlev)
  exact ⟨v', h4, by rw [h1]; exact unmarshal_doc hl hcomp h5⟩

theorem simple_of_ordinary {W : World} {t t' : Ty} (hty : ∀ t', Uses W t t' → Ordinary W t') (hu : Uses W t t') : Simple W t' :=
  have h := hty t' hu
  { toOrdinary := h
    ptr := fun _ hr => (hty _ (.step hu (.ptr ⟨h.unm, hr⟩))).unm
    key := fun _ _ hr => (hty _ (.step hu (.mapKey ⟨h.unm, hr⟩))).unm
    str := fun _ hr _ hf hv _ => (hty _ (.step hu (.field ⟨h.unm, hr⟩ hf hv))).unm }

theorem within_of_outside {W : World} {h : Heap} {t t' : Ty} {v v' : GV} (ho : Outside W h t v t' v') : Within W h t v t' v' := by
  induction ho with
  | refl => exact .refl
  | step _ hp _ ih => exact .step hp ih

/-! ### The types of the parts of a value -/

theorem part_needs {W : World} {h : Heap} {t t' : Ty} {v v' : GV} (ho : Ordinary W t) (hp : Part W h t v t' v') : Needs W t t' := by
  cases hp with
  | ptr hr => exact .ptr ⟨ho.unm, hr⟩
  | slice hr _ => exact .slice ⟨ho.unm, hr⟩
  | array hr _ => exact .array ⟨ho.unm, hr⟩
  | map hr _ => exact .mapVal ⟨ho.unm, hr⟩
  | field hr h1 _ h2 h3 =>
    exact .field ⟨ho.unm, hr⟩ (List.mem_of_getElem? h1) ⟨h2, fun ht => h3 (hasKey_iff.2 (by simp [structTag, ht]; rfl))⟩
  | iface hi =>
    have := ho.kind
    unfold World.isIface at hi
    cases hk : W.resolve t <;> simp_all [OrdinaryKind]

theorem within_uses {W : World} {h : Heap} {t0 t t' : Ty} {v v' : GV} (ho : ∀ t', Uses W t0 t' → Ordinary W t') (hw : Within W h t v t' v') :
    Uses W t0 t → Uses W t0 t' := by
  induction hw with
  | refl => exact id
  | step hp _ ih => exact fun hu => ih (.step hu (part_needs (ho _ hu) hp))

theorem methodsOk_of_ordinary {W : World} {h : Heap} {M : Ty → GV → Val → Prop} {t : Ty} {v : GV} (hty : ∀ t', Uses W t t' → Ordinary W t') : MethodsOk W h M t v := by
  have no : ∀ id, Uses W t (.named id) → ¬ Both W id := fun id hu hb => by
    have := (hty _ hu).unm
    simp [World.unmOf, hb.unm] at this
  refine ⟨fun id v' raw ho hb _ => absurd hb (no id (within_uses hty (within_of_outside ho) .refl)), fun id v' raw ho hb _ => absurd hb ?_⟩
  have hu := within_uses hty (within_of_outside ho) .refl
  exact no id (.step hu (.ptr ⟨rfl, rfl⟩))

end Verif

import Verif.Proofs.TellEnc
import Verif.Props.Rewrite
import Verif.Props.DemoFloat
/-
The text of a value tells what the value is (C84).
-/
namespace Verif
open Spec

namespace Demo

instance (x : UInt64) : Decidable (Finite64 x) := inferInstanceAs (Decidable (_ < _))
instance (x : UInt64) : Decidable (NaN64 x) := inferInstanceAs (Decidable (_ < _))
instance (x : UInt32) : Decidable (Finite32 x) := inferInstanceAs (Decidable (_ < _))
instance (x : UInt32) : Decidable (NaN32 x) := inferInstanceAs (Decidable (_ < _))

/-- The environment `WX`, where infinities and NaNs are written as strconv does, with a struct type 42 that has two fields with the key `k`. -/
noncomputable def WT : World := { WX with
  fields := fun
    | 42 => [⟨b! "A", b! "k,omitempty", true, false, .int .int⟩, ⟨b! "B", b! "k,omitempty", true, false, .int .int⟩]
    | i => fields i
  fmtF64 := fun e x => if Finite64 x then WX.fmtF64 e x else if NaN64 x then b! "NaN" else if x = 0x7FF0000000000000 then b! "+Inf" else b! "-Inf"
  fmtF32 := fun e x => if Finite32 x then WX.fmtF32 e x else if NaN32 x then b! "NaN" else if x = 0x7F800000 then b! "+Inf" else b! "-Inf" }

theorem wt_mar (t : Ty) : WT.marOf t = false := noMarshaler t

theorem wt_strconv : Strconv WT where
  parse := strconv.parse
  range := strconv.range
  fmt64 := fun {x} hx e => by
    show ∃ m e', decimalOf (if Finite64 x then _ else _) = _ ∧ _
    rw [if_pos hx]; exact strconv.fmt64 hx e
  fmt32 := fun {x} hx e => by
    show ∃ m e', decimalOf (if Finite32 x then _ else _) = _ ∧ _
    rw [if_pos hx]; exact strconv.fmt32 hx e
  short64 := fun e x => by
    show (if Finite64 x then _ else _ : Bytes).length < _
    split
    · exact strconv.short64 e x
    · split
      · decide
      · split <;> decide
  short32 := fun e x => by
    show (if Finite32 x then _ else _ : Bytes).length < _
    split
    · exact strconv.short32 e x
    · split
      · decide
      · split <;> decide
  toF32 := strconv.toF32
  special := ⟨strconv.special.1, strconv.special.2, strconv.special.3⟩

theorem wt_special : SpecialTexts WT where
  inf64 := fun _ => rfl
  negInf64 := fun _ => rfl
  nan64 := fun e x hx => by
    show (if Finite64 _ then _ else _) = _
    rw [if_neg (fun hf => by simp only [Finite64, NaN64, UInt64.lt_iff_toNat_lt] at hf hx; omega), if_pos hx]
  inf32 := fun _ => rfl
  negInf32 := fun _ => rfl
  nan32 := fun e x hx => by
    show (if Finite32 _ then _ else _) = _
    rw [if_neg (fun hf => by simp only [Finite32, NaN32, UInt32.lt_iff_toNat_lt] at hf hx; omega), if_pos hx]

/-- A slice with a map at 60, a list of two nodes from 70, a nil `[]int` at 80. -/
def heapT : Heap := { heap with
  deref := fun
    | .struct 1, 70 => .struct [.ptr 71, .int 1]
    | .struct 1, 71 => .struct [.ptrNil, .int 2]
    | .slice (.int .int), 80 => .sliceNil
    | _, _ => .int 0
  elems := fun
    | .map .str (.int .int), 60, 1 => [.map 5000]
    | _, _, _ => [] }

/-- Another memory with a slice with a map. -/
def heapT' : Heap := { heapR with
  elems := fun
    | .map .str (.int .int), 61, 1 => [.map 9]
    | _, _, _ => [] }

theorem heapT_reordered : Reordered heapT heapT := ⟨rfl, rfl, heap_reordered.iter⟩
theorem heapT'_reordered : Reordered heapT' heapT' := ⟨rfl, rfl, fun k e p p' a => by
  show List.Perm (match k, e, p, a with | .str, .int .int, _, 9 => _ | _, _, _, _ => _) (match k, e, p', a with | .str, .int .int, _, 9 => _ | _, _, _, _ => _)
  split <;> exact .refl _⟩

/-- No pointer, no interface, no struct, no method. -/
theorem clear_simple {h : Heap} {t : Ty} {v : GV} (h1 : WT.isIface t = false) (h2 : ∀ e, WT.resolve t ≠ .ptr e) (h3 : ∀ id, WT.resolve t ≠ .struct id) :
    Clear WT h t v :=
  ⟨h1, fun e he => absurd he (h2 e), fun e a he => absurd he (h2 e), fun id he => absurd he (h3 id), fun hm => by rw [wt_mar] at hm; cases hm⟩

theorem wt_tell {h h' : Heap} {t : Ty} {v v' : GV} : MethodsTell WT h h' t v v' := fun t' _ _ _ _ _ hm => by rw [wt_mar] at hm; cases hm

/-- The types of the parts of a value. -/
theorem part_type {h : Heap} {t t' : Ty} {v v' : GV} (hp : Part WT h t v t' v') :
    WT.resolve t = .ptr t' ∨ WT.resolve t = .slice t' ∨ (∃ n, WT.resolve t = .array n t') ∨ (∃ k, WT.resolve t = .map k t') ∨
      (∃ id, WT.resolve t = .struct id ∧ ∃ f ∈ WT.fields id, f.ty = t') ∨ WT.isIface t = true := by
  cases hp with
  | ptr hr => exact .inl hr
  | slice hr => exact .inr (.inl hr)
  | array hr => exact .inr (.inr (.inl ⟨_, hr⟩))
  | map hr => exact .inr (.inr (.inr (.inl ⟨_, hr⟩)))
  | field hr hf => exact .inr (.inr (.inr (.inr (.inl ⟨_, hr, _, List.mem_of_getElem? hf, rfl⟩))))
  | iface hr => exact .inr (.inr (.inr (.inr (.inr hr))))

theorem clear_maps {h : Heap} {v : GV} : ∀ t' v', Seen WT h true (.slice (.map .str (.int .int))) v t' v' → Clear WT h t' v' := by
  let S : Ty → GV → Prop := fun t _ => t = .slice (.map .str (.int .int)) ∨ t = .map .str (.int .int) ∨ t = .int .int
  have part : ∀ t v t' v', S t v → Part WT h t v t' v' → S t' v' := by
    rintro t v t' v' (rfl | rfl | rfl) hp <;> have := part_type hp <;> simp [World.resolve, World.isIface] at this
    · exact .inr (.inl this.symm)
    · exact .inr (.inr this.symm)
  intro t' v' hs
  rcases closed_within part (.inl rfl : S _ v) (seen_within hs) with rfl | rfl | rfl <;>
    exact clear_simple rfl (fun e => by simp [World.resolve]) (fun e => by simp [World.resolve])

end Demo

/-- C84: two values of one type, in two memories, for which `Marshal` returns the same text are the same value (`SameIn`: up to addresses,
NaNs, fields that are not written, and the order in which map entries are listed). strconv must write numbers as it does (`Strconv`, `SpecialTexts`), and iterating over a map
must give its entries, in some order.
Missing, because it is false: interfaces, where an int8 cannot be told from an int (`C84_interface_counterexample`); pointers to nil
(`C84_pointer_counterexample`); structs of which two fields have the same key (`C84_keys_counterexample`); methods that return
the same text for different values or no well-formed text. `Clear` and `MethodsTell` exclude them. -/
theorem C84_tells_partial (W : World) (h h' : Heap) (hs : Strconv W) (hi : SpecialTexts W) (ho : Reordered h h) (ho' : Reordered h' h') (t : Ty) (v v' : GV)
    (hc : ∀ t' u, Seen W h true t v t' u → Clear W h t' u) (hc' : ∀ t' u, Seen W h' true t v' t' u → Clear W h' t' u) (hM : MethodsTell W h h' t v v')
    (tx : Bytes) (hm : MarshalGives W h (some (t, v)) (.ok tx)) (hm' : MarshalGives W h' (some (t, v')) (.ok tx)) (hl : tx.length < 2 ^ 63) :
    SameIn W h h' t v v' :=
  encG_tells hs hi ho.iter ho'.iter (P := Seen W h true t v) (P' := Seen W h' true t v') hM (marshalGives_ok_iff.1 hm).2 (marshalGives_ok_iff.1 hm').2 rfl hl
    (by simp) (by simp) (fun t' u s => ⟨hc t' u s, s⟩) fun t' u s => ⟨hc' t' u s, s⟩

-- slices of maps in two memories
example : Strconv Demo.WT ∧ SpecialTexts Demo.WT ∧ Reordered Demo.heapT Demo.heapT ∧ Reordered Demo.heapT' Demo.heapT' ∧
    (∀ t' u, Seen Demo.WT Demo.heapT true (.slice (.map .str (.int .int))) (.slice 60 1) t' u → Clear Demo.WT Demo.heapT t' u) ∧
    (∀ t' u, Seen Demo.WT Demo.heapT' true (.slice (.map .str (.int .int))) (.slice 61 1) t' u → Clear Demo.WT Demo.heapT' t' u) ∧
    MethodsTell Demo.WT Demo.heapT Demo.heapT' (.slice (.map .str (.int .int))) (.slice 60 1) (.slice 61 1) ∧
    MarshalGives Demo.WT Demo.heapT (some (.slice (.map .str (.int .int)), .slice 60 1)) (.ok (b! "a:1:{i:0;a:2:{s:1:\"k\";i:1;s:1:\"l\";i:2;}}")) ∧
    MarshalGives Demo.WT Demo.heapT' (some (.slice (.map .str (.int .int)), .slice 61 1)) (.ok (b! "a:1:{i:0;a:2:{s:1:\"k\";i:1;s:1:\"l\";i:2;}}")) :=
  ⟨Demo.wt_strconv, Demo.wt_special, Demo.heapT_reordered, Demo.heapT'_reordered, Demo.clear_maps, Demo.clear_maps, Demo.wt_tell,
    marshalGives_of (cf := 9) (f := 9) (by simp) (by rfl), marshalGives_of (cf := 9) (f := 9) (by simp) (by rfl)⟩

/-- C84: of values without maps the texts are the same exactly if the values are. (Missing: as for `C84_tells_partial`.) -/
theorem C84_iff_partial (W : World) (h h' : Heap) (hs : Strconv W) (hi : SpecialTexts W) (ho : Reordered h h) (ho' : Reordered h' h') (t : Ty) (v v' : GV)
    (hc : ∀ t' u, Seen W h true t v t' u → Clear W h t' u) (hc' : ∀ t' u, Seen W h' true t v' t' u → Clear W h' t' u) (hM : MethodsTell W h h' t v v')
    (hA : MethodsAgree W h h' t v) (hno : ∀ t' a, ¬ Within W h t v t' (.map a))
    (tx tx' : Bytes) (hm : MarshalGives W h (some (t, v)) (.ok tx)) (hm' : MarshalGives W h' (some (t, v')) (.ok tx')) (hl : tx.length < 2 ^ 63) :
    tx = tx' ↔ SameIn W h h' t v v' :=
  ⟨fun he => C84_tells_partial W h h' hs hi ho ho' t v v' hc hc' hM tx hm (he ▸ hm') hl,
    fun hss => C83_equal_text W h h' (special_nans hi) t v v' hA hss hno tx tx' hm hm'⟩

namespace Demo

theorem clear_list {h : Heap} {v : GV} (hd : ∀ a, h.deref (.struct 1) a ≠ .sliceNil ∧ h.deref (.struct 1) a ≠ .mapNil ∧ h.deref (.struct 1) a ≠ .ptrNil) :
    ∀ t' v', Seen WT h true (.ptr (.struct 1)) v t' v' → Clear WT h t' v' := by
  let S : Ty → GV → Prop := fun t _ => t = .ptr (.struct 1) ∨ t = .struct 1 ∨ t = .int .int
  have part : ∀ t v t' v', S t v → Part WT h t v t' v' → S t' v' := by
    rintro t v t' v' (rfl | rfl | rfl) hp <;> have := part_type hp <;> simp [World.resolve, World.isIface, WT, fields] at this
    · exact .inr (.inl this.symm)
    · rcases this with h | h
      · exact .inl h.symm
      · exact .inr (.inr h.symm)
  intro t' v' hs
  rcases closed_within part (.inl rfl : S _ v) (seen_within hs) with rfl | rfl | rfl
  · refine ⟨rfl, fun e he => (by cases he; rfl), fun e a he _ => (by cases he; exact ⟨fun h1 => absurd h1 (hd a).1, (hd a).2⟩), fun id he => (by cases he), fun hm => ?_⟩
    rw [wt_mar] at hm; cases hm
  · refine ⟨rfl, fun e he => (by cases he), fun e a he => (by cases he), fun id he => ?_, fun hm => (by rw [wt_mar] at hm; cases hm)⟩
    cases he
    have k0 : HasKey WT ⟨b! "Next", b! "next", true, false, .ptr (.struct 1)⟩ (b! "next") := ⟨_, _, tagMeaning_iff.2 ⟨by rfl, Iff.rfl, Iff.rfl⟩⟩
    have k1 : HasKey WT ⟨b! "N", b! "n", true, false, .int .int⟩ (b! "n") := ⟨_, _, tagMeaning_iff.2 ⟨by rfl, Iff.rfl, Iff.rfl⟩⟩
    rintro (_ | _ | i) (_ | _ | j) f g k hf hg - - h1 h2 -
    · rfl
    · cases hf; cases hg; have := (hasKey_unique h1 k0).symm.trans (hasKey_unique h2 k1); cases this
    · simp [WT, fields] at hg
    · cases hf; cases hg; have := (hasKey_unique h1 k1).symm.trans (hasKey_unique h2 k0); cases this
    · rfl
    · simp [WT, fields] at hg
    · simp [WT, fields] at hf
    · simp [WT, fields] at hf
    · simp [WT, fields] at hf
  · exact clear_simple rfl (fun e => by simp [World.resolve]) (fun e => by simp [World.resolve])

end Demo

-- lists of two nodes in two memories
example : (∀ t' u, Seen Demo.WT Demo.heap true (.ptr (.struct 1)) (.ptr 3000) t' u → Clear Demo.WT Demo.heap t' u) ∧
    (∀ t' u, Seen Demo.WT Demo.heapT true (.ptr (.struct 1)) (.ptr 70) t' u → Clear Demo.WT Demo.heapT t' u) ∧
    (∀ t' a, ¬ Within Demo.WT Demo.heap (.ptr (.struct 1)) (.ptr 3000) t' (.map a)) ∧
    MarshalGives Demo.WT Demo.heap (some (.ptr (.struct 1), .ptr 3000)) (.ok (b! "a:2:{s:4:\"next\";a:2:{s:4:\"next\";N;s:1:\"n\";i:2;}s:1:\"n\";i:1;}")) ∧
    MarshalGives Demo.WT Demo.heapT (some (.ptr (.struct 1), .ptr 70)) (.ok (b! "a:2:{s:4:\"next\";a:2:{s:4:\"next\";N;s:1:\"n\";i:2;}s:1:\"n\";i:1;}")) := by
  refine ⟨Demo.clear_list fun a => ?_, Demo.clear_list fun a => ?_, fun t' a hw => ?_,
    marshalGives_of (cf := 9) (f := 9) (by simp) (by rfl), marshalGives_of (cf := 9) (f := 9) (by simp) (by rfl)⟩
  · show Demo.heapDeref _ a ≠ _ ∧ Demo.heapDeref _ a ≠ _ ∧ Demo.heapDeref _ a ≠ _
    unfold Demo.heapDeref
    split <;> simp
  · simp only [Demo.heapT]
    split <;> simp_all
  · let S : Ty → GV → Prop := fun t v => (t = .ptr (.struct 1) ∧ (v = .ptr 3000 ∨ v = .ptr 3001 ∨ v = .ptrNil)) ∨
      (t = .struct 1 ∧ (v = .struct [.ptr 3001, .int 1] ∨ v = .struct [.ptrNil, .int 2])) ∨ ∃ i, v = .int i
    have part : ∀ t v t' v', S t v → Part Demo.WT Demo.heap t v t' v' → S t' v' := by
      rintro t v t' v' (⟨rfl, rfl | rfl | rfl⟩ | ⟨rfl, rfl | rfl⟩ | ⟨i, rfl⟩) hp
      · cases hp with | ptr hr => cases hr; exact .inr (.inl ⟨rfl, .inl rfl⟩)
      · cases hp with | ptr hr => cases hr; exact .inr (.inl ⟨rfl, .inr rfl⟩)
      · cases hp
      · cases hp with
        | field hr hf hv =>
          rename_i i _ _
          cases hr
          rcases i with _ | _ | i
          · cases hf; cases hv; exact .inl ⟨rfl, .inr (.inl rfl)⟩
          · cases hf; cases hv; exact .inr (.inr ⟨_, rfl⟩)
          · simp at hv
      · cases hp with
        | field hr hf hv =>
          rename_i i _ _
          cases hr
          rcases i with _ | _ | i
          · cases hf; cases hv; exact .inl ⟨rfl, .inr (.inr rfl)⟩
          · cases hf; cases hv; exact .inr (.inr ⟨_, rfl⟩)
          · simp at hv
      · cases hp
    rcases closed_within part (.inl ⟨rfl, .inl rfl⟩ : S _ _) hw with ⟨-, h | h | h⟩ | ⟨-, h | h⟩ | ⟨i, h⟩ <;> cases h

/-- C84 is false for interfaces: an int8 is written as an int is. -/
theorem C84_interface_counterexample :
    MarshalGives Demo.WT Demo.heapT (some (.array 1 .any, .arr [.iface (.int .int) (.int 1)])) (.ok (b! "a:1:{i:0;i:1;}")) ∧
    MarshalGives Demo.WT Demo.heapT (some (.array 1 .any, .arr [.iface (.int .i8) (.int 1)])) (.ok (b! "a:1:{i:0;i:1;}")) ∧
    ¬ SameIn Demo.WT Demo.heapT Demo.heapT (.array 1 .any) (.arr [.iface (.int .int) (.int 1)]) (.arr [.iface (.int .i8) (.int 1)]) := by
  refine ⟨marshalGives_of (cf := 9) (f := 9) (by simp) (by rfl), marshalGives_of (cf := 9) (f := 9) (by simp) (by rfl), fun hs => ?_⟩
  cases hs with
  | arr hr _ h1 =>
    cases hr
    cases h1 0 _ _ rfl rfl

/-- C84 is false for pointers to nil: a nil pointer to a slice and a pointer to a nil slice are both written as null. -/
theorem C84_pointer_counterexample :
    MarshalGives Demo.WT Demo.heapT (some (.ptr (.slice (.int .int)), .ptrNil)) (.ok (b! "N;")) ∧
    MarshalGives Demo.WT Demo.heapT (some (.ptr (.slice (.int .int)), .ptr 80)) (.ok (b! "N;")) ∧
    ¬ SameIn Demo.WT Demo.heapT Demo.heapT (.ptr (.slice (.int .int))) .ptrNil (.ptr 80) :=
  ⟨marshalGives_of (cf := 9) (f := 9) (by simp) (by rfl), marshalGives_of (cf := 9) (f := 9) (by simp) (by rfl), fun hs => by cases hs⟩

/-- C84 is false for structs of which two fields have the same key: it cannot be told which one was written. -/
theorem C84_keys_counterexample :
    MarshalGives Demo.WT Demo.heapT (some (.struct 42, .struct [.int 1, .int 0])) (.ok (b! "a:1:{s:1:\"k\";i:1;}")) ∧
    MarshalGives Demo.WT Demo.heapT (some (.struct 42, .struct [.int 0, .int 1])) (.ok (b! "a:1:{s:1:\"k\";i:1;}")) ∧
    ¬ SameIn Demo.WT Demo.heapT Demo.heapT (.struct 42) (.struct [.int 1, .int 0]) (.struct [.int 0, .int 1]) := by
  refine ⟨marshalGives_of (cf := 9) (f := 9) (by simp) (by rfl), marshalGives_of (cf := 9) (f := 9) (by simp) (by rfl), fun hs => ?_⟩
  cases hs with
  | struct hr hl h1 h2 =>
    cases hr
    have ht : TagMeaning Demo.WT ⟨b! "A", b! "k,omitempty", true, false, .int .int⟩ (b! "k") _ _ := tagMeaning_iff.2 ⟨by rfl, Iff.rfl, Iff.rfl⟩
    have sh : Shown Demo.WT ⟨b! "A", b! "k,omitempty", true, false, .int .int⟩ (.int 1) := ⟨rfl, _, _, _, ht, by decide, fun hz => by cases hz.2⟩
    cases h2 0 _ _ _ rfl rfl rfl sh

end Verif

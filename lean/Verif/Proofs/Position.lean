import Verif.Proofs.EncStruct
import Verif.Spec.Position
/-
The text at the place of a part of a value is the text of that part.
-/
namespace Verif
open Spec

/-- A list of entries for `arrText`. -/
def entries (n : Nat) (kd : Nat → Doc) (tx : Nat → Bytes) : List (Doc × Bytes) := (List.range' 0 n).map fun i => (kd i, tx i)

theorem arrText_list (n : Nat) (kd : Nat → Doc) (tx : Nat → Bytes) : arrText n kd tx = listText (entries n kd tx) := by
  have : ∀ i n, bodyText kd tx i n = ((List.range' i n).map fun i => (kd i, tx i)).flatMap fun e => e.1.text ++ e.2 := by
    intro i n
    induction n generalizing i with
    | zero => rfl
    | succ n ih => simp only [bodyText, List.range'_succ, List.map_cons, List.flatMap_cons, ih]
  simp only [arrText, listText, entries, this, List.length_map, List.length_range']

theorem entries_get {n i : Nat} {kd : Nat → Doc} {tx : Nat → Bytes} (h : i < n) : (entries n kd tx)[i]? = some (kd i, tx i) := by
  simp [entries, h]

theorem entries_length {n : Nat} {kd : Nat → Doc} {tx : Nat → Bytes} : (entries n kd tx).length = n := by simp [entries]

theorem lt_of_get {α : Type} {l : List α} {i : Nat} {x : α} (h : l[i]? = some x) : i < l.length := by
  obtain ⟨h, -⟩ := List.getElem?_eq_some_iff.1 h; exact h

variable {W : World} {h : Heap} {ok : Ty → Prop} {G : Stack → Nat → Bool → Prop}

/-- Held values are looked at only at the end of pointers and interfaces. -/
theorem held_deref {st : Stack} {p : Path} {t t2 : Ty} {v v2 : GV} {tx : Bytes} (he : EncG W h ok G .held st p t v tx)
    (hd : ∀ o, Deref W h t v o → Deref W h t2 v2 o) : EncG W h ok G .held st p t2 v2 tx := by
  cases he with
  | heldNil a => exact .heldNil (hd _ a)
  | heldScalar a b => exact .heldScalar (hd _ a) b
  | heldConcreteSlice a b c d e f => exact .heldConcreteSlice (hd _ a) b c d e f
  | heldSliceNil a b c d => exact .heldSliceNil (hd _ a) b c d
  | heldSlice a b c d e f => exact .heldSlice (hd _ a) b c d e f
  | heldMapNil a b c d => exact .heldMapNil (hd _ a) b c d
  | heldMap a b c d e f g i => exact .heldMap (hd _ a) b c d e f g i
  | heldConcreteMap a b c d e f g i j => exact .heldConcreteMap (hd _ a) b c d e f g i j
  | heldStruct a b c d => exact .heldStruct (hd _ a) b c d

theorem deref_iface {t dt : Ty} {v : GV} {o : Option (Ty × GV)} (hi : W.isIface t = true) (hd : Deref W h t (.iface dt v) o) : Deref W h dt v o := by
  cases hd with
  | iface _ h => exact h
  | done _ h => rw [hi] at h; cases h

theorem deref_ptr {t e : Ty} {a : Nat} {o : Option (Ty × GV)} (hr : W.resolve t = .ptr e) (hd : Deref W h t (.ptr a) o) : Deref W h e (h.deref e a) o := by
  cases hd with
  | ptr hr' h => rw [hr] at hr'; cases hr'; exact h
  | done h _ => simp [World.isPtr, hr] at h

theorem deref_done {t : Ty} {v : GV} {o : Option (Ty × GV)} (hp : W.isPtr t = false) (hi : W.isIface t = false) (hd : Deref W h t v o) : o = some (t, v) := by
  cases hd with
  | ptrNil hr => simp [World.isPtr, hr] at hp
  | ptr hr => simp [World.isPtr, hr] at hp
  | ifaceNil h => rw [hi] at h; cases h
  | iface h => rw [hi] at h; cases h
  | done => rfl

/-- Parts of a value that is written by kind. -/
theorem kind_step {st : Stack} {p : Path} {t : Ty} {v : GV} {tx : Bytes} (he : EncG W h ok G .kind st p t v tx)
    {m' : Mode} {p' : Path} {t' : Ty} {v' : GV} (hs : Step W h .kind p t v m' p' t' v') :
    ∃ st' tx', Slot W h t v tx t' v' tx' ∧ EncG W h ok G m' st' p' t' v' tx' := by
  cases hs with
  | slice _ hr _ hi =>
    cases he with
    | scalar hs => cases hs
    | slice hr' _ hv hf =>
      rw [hr] at hr'; cases hr'; subst hv
      rw [arrText_list]
      exact ⟨_, _, .slice hr hi entries_length (entries_get (lt_of_get hi)), hf _ _ hi⟩
    | iface hi' _ => simp [World.isIface, hr] at hi'
  | array _ _ hr hi =>
    cases he with
    | scalar hs => cases hs
    | array hr' _ hf =>
      rw [hr] at hr'; cases hr'
      rw [arrText_list]
      exact ⟨_, _, .array hr hi entries_length (entries_get (lt_of_get hi)), hf _ _ hi⟩
    | iface hi' _ => simp [World.isIface, hr] at hi'
  | map _ hr _ hi =>
    cases he with
    | scalar hs => cases hs
    | map hr' _ hv hk hf =>
      rw [hr] at hr'; cases hr'; subst hv
      rw [arrText_list]
      exact ⟨_, _, .map hr hi entries_length (hk _ _ _ hi) (entries_get (lt_of_get hi)), hf _ _ _ hi⟩
    | iface hi' _ => simp [World.isIface, hr] at hi'
  | @field _ _ _ id vs f v i str _ hr hf hv hsh hstr =>
    obtain ⟨idxs, key, txt, -, h2, h3, h4, rfl⟩ := struct_layout hr he
    have hi : i ∈ idxs := (h2 i).2 ⟨_, _, hf, hv, hsh⟩
    obtain ⟨str', h5, h6⟩ := h4 i hi _ _ hf hv
    obtain rfl : str = str' := by
      rw [Bool.eq_iff_iff]; exact hstr.trans h5.symm
    refine ⟨_, _, ?_, h6⟩
    have : listText (idxs.map fun i => (strDoc (key i), txt i)) =
        [97, 58] ++ natText idxs.length ++ [58, 123] ++ (idxs.flatMap fun i => (strDoc (key i)).text ++ txt i) ++ [125] := by
      simp only [listText, List.length_map, List.flatMap_map]
    rw [← this]
    exact .field hr hf hv hsh (h3 i hi _ hf) (List.mem_map.2 ⟨i, hi, rfl⟩)
  | iface _ hi =>
    cases he with
    | scalar hs => cases hs
    | iface _ hh =>
      exact ⟨st, _, .iface hi, held_deref hh fun o => deref_iface hi⟩

theorem step_kind {m : Mode} {p : Path} {t : Ty} {v : GV} {m' : Mode} {p' : Path} {t' : Ty} {v' : GV} (hs : Step W h m p t v m' p' t' v')
    (hm : m ≠ .held) (hp : W.isPtr t = false) : Step W h .kind p t v m' p' t' v' := by
  have ho : Open W .kind t := ⟨by simp, .inl rfl⟩
  cases hs with
  | slice _ b _ d => exact .slice ho b (by simp) d
  | sliceHeld => exact absurd rfl hm
  | array _ _ c d => exact .array ho (by simp) c d
  | map _ b _ d => exact .map (.inr ho) b (by simp) d
  | mapHeld => exact absurd rfl hm
  | field _ b c d e f => exact .field ho b c d e f
  | ptrKind _ b => simp [World.isPtr, b] at hp
  | ptrTyped _ b => simp [World.isPtr, b] at hp
  | ptrIface _ b => simp [World.isPtr, b] at hp
  | ptrField b => simp [World.isPtr, b] at hp
  | ptrHeld b => exact absurd rfl hm
  | iface _ b => exact .iface (.inr ho) b

theorem step_open {m : Mode} {p : Path} {t : Ty} {v : GV} {m' : Mode} {p' : Path} {t' : Ty} {v' : GV} (hs : Step W h m p t v m' p' t' v')
    (hp : W.isPtr t = false) (hm : m ≠ .held) : Open W m t := by
  cases hs with
  | slice a => exact a
  | sliceHeld => exact absurd rfl hm
  | array a => exact a
  | map a => exact a.resolve_left hm
  | mapHeld => exact absurd rfl hm
  | field a => exact a
  | ptrKind _ b => simp [World.isPtr, b] at hp
  | ptrTyped _ b => simp [World.isPtr, b] at hp
  | ptrIface _ b => simp [World.isPtr, b] at hp
  | ptrField b => simp [World.isPtr, b] at hp
  | ptrHeld b => exact absurd rfl hm
  | iface a b => exact a.resolve_left hm

/-- Parts of a value met as a variable. -/
theorem typed_step {st : Stack} {p : Path} {t : Ty} {v : GV} {tx : Bytes} (he : EncG W h ok G .typed st p t v tx)
    {m' : Mode} {p' : Path} {t' : Ty} {v' : GV} (hs : Step W h .typed p t v m' p' t' v') :
    ∃ st' tx', Slot W h t v tx t' v' tx' ∧ EncG W h ok G m' st' p' t' v' tx' := by
  cases hp : W.isPtr t with
  | false =>
    obtain ⟨-, ho⟩ := step_open hs hp (by simp)
    obtain ⟨hm, hb⟩ := ho.resolve_left (by simp)
    cases he with
    | marshaler a => rw [hm] at a; cases a
    | bytesNil => exact absurd rfl hb
    | bytes => exact absurd rfl hb
    | plain _ _ _ hk => exact kind_step hk (step_kind hs (by simp) hp)
    | ptrNil _ b => simp [World.isPtr, b] at hp
    | ptrStruct _ b => simp [World.isPtr, b] at hp
    | ptrKind _ b => simp [World.isPtr, b] at hp
    | ptrTyped _ b => simp [World.isPtr, b] at hp
    | ptrIface _ b => simp [World.isPtr, b] at hp
  | true =>
    obtain ⟨e, hr⟩ := isPtr_cases hp
    have key : ∀ {a : Nat}, W.marOf t = false → EncG W h ok G .typed st p t (.ptr a) tx →
        (((W.isStruct e = true ∨ directKind W e = true) ∧ ∃ st', EncG W h ok G .kind st' p e (h.deref e a) tx) ∨
        ((W.isStruct e = false ∧ directKind W e = false ∧ W.isIface e = false) ∧ EncG W h ok G .typed st p e (h.deref e a) tx) ∨
        (W.isIface e = true ∧ EncG W h ok G .held st p e (h.deref e a) tx)) := by
      intro a hm he
      cases he with
      | marshaler a => rw [hm] at a; cases a
      | plain _ _ c => rw [hp] at c; cases c
      | ptrStruct _ b c _ d => rw [hr] at b; cases b; exact .inl ⟨.inl c, _, d⟩
      | ptrKind _ b c d => rw [hr] at b; cases b; exact .inl ⟨.inr c, _, d⟩
      | ptrTyped _ b _ c d f g => rw [hr] at b; cases b; exact .inr (.inl ⟨⟨d, f, c⟩, g⟩)
      | ptrIface _ b c d => rw [hr] at b; cases b; exact .inr (.inr ⟨c, held_deref d fun o => deref_ptr hr⟩)
    have hd : W.isIface e = true → W.isStruct e = false ∧ directKind W e = false := by
      intro hi
      rcases isIface_cases hi with h | ⟨i, h⟩ <;> simp [World.isStruct, directKind, h]
    cases hs with
    | slice _ b => rw [hr] at b; cases b
    | array _ _ b => rw [hr] at b; cases b
    | map _ b => rw [hr] at b; cases b
    | field _ b => rw [hr] at b; cases b
    | ptrKind hm b c =>
      rw [hr] at b; cases b
      rcases key hm he with ⟨_, st', h1⟩ | ⟨⟨h1, h2, _⟩, _⟩ | ⟨h1, h2⟩
      · exact ⟨st', _, .ptr hr, h1⟩
      · rw [h1, h2] at c; simp at c
      · rw [(hd h1).1, (hd h1).2] at c; simp at c
    | ptrTyped hm b c d f =>
      rw [hr] at b; cases b
      rcases key hm he with ⟨h1, _⟩ | ⟨_, h1⟩ | ⟨h1, h2⟩
      · rw [c, d] at h1; simp at h1
      · exact ⟨st, _, .ptr hr, h1⟩
      · rw [f] at h1; cases h1
    | ptrIface hm b c =>
      rw [hr] at b; cases b
      rcases key hm he with ⟨h1, _⟩ | ⟨⟨_, _, h1⟩, _⟩ | ⟨_, h1⟩
      · rw [(hd c).1, (hd c).2] at h1; simp at h1
      · rw [c] at h1; cases h1
      · exact ⟨st, _, .ptr hr, h1⟩
    | iface _ b => rcases isIface_cases b with b | ⟨i, b⟩ <;> rw [hr] at b <;> cases b

theorem slice_not {t e : Ty} (hr : W.resolve t = .slice e) : W.isPtr t = false ∧ W.isIface t = false ∧ W.isStruct t = false := by
  simp [World.isPtr, World.isIface, World.isStruct, hr]
theorem map_not {t k e : Ty} (hr : W.resolve t = .map k e) : W.isPtr t = false ∧ W.isIface t = false ∧ W.isStruct t = false := by
  simp [World.isPtr, World.isIface, World.isStruct, hr]
theorem struct_not {t : Ty} {id : Nat} (hr : W.resolve t = .struct id) : W.isPtr t = false ∧ W.isIface t = false ∧ W.isStruct t = true := by
  simp [World.isPtr, World.isIface, World.isStruct, hr]

/-- Parts of a value held in an interface. -/
theorem held_step {st : Stack} {p : Path} {t : Ty} {v : GV} {tx : Bytes} (he : EncG W h ok G .held st p t v tx)
    {m' : Mode} {p' : Path} {t' : Ty} {v' : GV} (hs : Step W h .held p t v m' p' t' v') :
    ∃ st' tx', Slot W h t v tx t' v' tx' ∧ EncG W h ok G m' st' p' t' v' tx' := by
  cases hs with
  | @slice _ _ _ e a n _ i o hr hc hi =>
    have hn := slice_not hr
    have hc := hc rfl
    have fin := fun o (hd : Deref W h t (.slice a n) o) => deref_done hn.1 hn.2.1 hd
    have ho := o.2.resolve_left (by simp)
    cases he with
    | heldNil d => cases fin _ d
    | heldScalar d s => cases fin _ d; cases s
    | heldConcreteSlice d r c g k x =>
      cases fin _ d
      exact typed_step x (.slice ⟨by simp, .inr ho⟩ hr (by simp) hi)
    | heldSliceNil d => cases fin _ d
    | heldSlice d r c => cases fin _ d; rw [hr] at r; cases r; rw [hc] at c; cases c
    | heldMapNil d => cases fin _ d
    | heldMap d => cases fin _ d
    | heldConcreteMap d => cases fin _ d
    | heldStruct d s => cases fin _ d; rw [hn.2.2] at s; cases s
  | @sliceHeld _ _ e a n _ i hr hc hi =>
    have hn := slice_not hr
    have fin := fun o (hd : Deref W h t (.slice a n) o) => deref_done hn.1 hn.2.1 hd
    cases he with
    | heldNil d => cases fin _ d
    | heldScalar d s => cases fin _ d; cases s
    | heldConcreteSlice d r c => cases fin _ d; rw [hr] at r; cases r; rw [hc] at c; cases c
    | heldSliceNil d => cases fin _ d
    | heldSlice d r c g hv hf =>
      cases fin _ d; rw [hr] at r; cases r; subst hv
      rw [arrText_list]
      exact ⟨_, _, .slice hr hi entries_length (entries_get (lt_of_get hi)), hf _ _ hi⟩
    | heldMapNil d => cases fin _ d
    | heldMap d => cases fin _ d
    | heldConcreteMap d => cases fin _ d
    | heldStruct d s => cases fin _ d; rw [hn.2.2] at s; cases s
  | array _ hm => exact absurd rfl hm
  | @map _ _ _ k e a x y i o hr hc hi =>
    have hn := map_not hr
    have hc := hc rfl
    have fin := fun o (hd : Deref W h t (.map a) o) => deref_done hn.1 hn.2.1 hd
    cases he with
    | heldNil d => cases fin _ d
    | heldScalar d s => cases fin _ d; cases s
    | heldConcreteSlice d r => cases fin _ d; rw [hr] at r; cases r
    | heldSliceNil d => cases fin _ d
    | heldSlice d => cases fin _ d
    | heldMapNil d => cases fin _ d
    | heldMap d r _ c => cases fin _ d; rw [hr] at r; cases r; rw [hc] at c; cases c
    | heldConcreteMap d r _ _ _ hv _ hk hf =>
      cases fin _ d; rw [hr] at r; cases r; subst hv
      rw [arrText_list]
      exact ⟨_, _, .map hr hi entries_length (hk _ _ _ hi) (entries_get (lt_of_get hi)), hf _ _ _ hi⟩
    | heldStruct d s => cases fin _ d; rw [hn.2.2] at s; cases s
  | @mapHeld _ _ k e a x y i hr hc hi =>
    have hn := map_not hr
    have fin := fun o (hd : Deref W h t (.map a) o) => deref_done hn.1 hn.2.1 hd
    cases he with
    | heldNil d => cases fin _ d
    | heldScalar d s => cases fin _ d; cases s
    | heldConcreteSlice d r => cases fin _ d; rw [hr] at r; cases r
    | heldSliceNil d => cases fin _ d
    | heldSlice d => cases fin _ d
    | heldMapNil d => cases fin _ d
    | heldMap d r _ _ _ hv hk hf =>
      cases fin _ d; rw [hr] at r; cases r; subst hv
      rw [arrText_list]
      exact ⟨_, _, .map hr hi entries_length (hk _ _ _ hi) (entries_get (lt_of_get hi)), hf _ _ _ hi⟩
    | heldConcreteMap d r _ c => cases fin _ d; rw [hr] at r; cases r; rw [hc] at c; cases c
    | heldStruct d s => cases fin _ d; rw [hn.2.2] at s; cases s
  | @field _ _ _ id vs f v i str o hr h1 h2 h3 h4 =>
    have hn := struct_not hr
    have fin := fun o (hd : Deref W h t (.struct vs) o) => deref_done hn.1 hn.2.1 hd
    have ho := o.2.resolve_left (by simp)
    cases he with
    | heldNil d => cases fin _ d
    | heldScalar d s => cases fin _ d; cases s
    | heldConcreteSlice d r => cases fin _ d; rw [hr] at r; cases r
    | heldSliceNil d => cases fin _ d
    | heldSlice d => cases fin _ d
    | heldMapNil d => cases fin _ d
    | heldMap d => cases fin _ d
    | heldConcreteMap d => cases fin _ d
    | heldStruct d s k x => cases fin _ d; exact typed_step x (.field ⟨by simp, .inr ho⟩ hr h1 h2 h3 h4)
  | ptrHeld hr => exact ⟨st, _, .ptr hr, held_deref he fun o => deref_ptr hr⟩
  | iface _ hi => exact ⟨st, _, .iface hi, held_deref he fun o => deref_iface hi⟩

/-- The text at the place of a direct part is the text of that part. -/
theorem encG_step {m : Mode} {st : Stack} {p : Path} {t : Ty} {v : GV} {tx : Bytes} (he : EncG W h ok G m st p t v tx)
    {m' : Mode} {p' : Path} {t' : Ty} {v' : GV} (hs : Step W h m p t v m' p' t' v') :
    ∃ st' tx', Slot W h t v tx t' v' tx' ∧ EncG W h ok G m' st' p' t' v' tx' := by
  match m, he, hs with
  | .typed, he, hs => exact typed_step he hs
  | .kind, he, hs => exact kind_step he hs
  | .held, he, hs => exact held_step he hs
  | .field str, he, hs =>
    cases hp : W.isPtr t with
    | false =>
      have ho := step_open hs hp (by simp)
      cases he with
      | fieldPlain _ hk => exact typed_step hk (by
          have := ho.2.resolve_left (by simp)
          have ho' : Open W .typed t := ⟨by simp, .inr this⟩
          cases hs with
          | slice _ b _ d => exact .slice ho' b (by simp) d
          | array _ _ c d => exact .array ho' (by simp) c d
          | map _ b _ d => exact .map (.inr ho') b (by simp) d
          | field _ b c d e f => exact .field ho' b c d e f
          | ptrField b => simp [World.isPtr, b] at hp
          | iface _ b => exact .iface (.inr ho') b)
      | fieldPtrNil b => simp [World.isPtr, b] at hp
      | fieldPtrStruct b => simp [World.isPtr, b] at hp
      | fieldPtr b => simp [World.isPtr, b] at hp
      | fieldStr => exact absurd rfl ho.1
      | fieldStrPtr b => simp [World.isPtr, b] at hp
    | true =>
      obtain ⟨e, hr⟩ := isPtr_cases hp
      cases hs with
      | slice _ b => rw [hr] at b; cases b
      | array _ _ b => rw [hr] at b; cases b
      | map _ b => rw [hr] at b; cases b
      | field _ b => rw [hr] at b; cases b
      | ptrField b =>
        cases he with
        | fieldPlain c => rw [hp] at c; cases c
        | fieldPtrStruct c _ _ d => rw [b] at c; cases c; exact ⟨_, _, .ptr b, d⟩
        | fieldPtr c _ d => rw [b] at c; cases c; exact ⟨_, _, .ptr b, d⟩
      | iface _ b => rcases isIface_cases b with b | ⟨i, b⟩ <;> rw [hr] at b <;> cases b

/-- The text at the place of a part, any number of levels deep, is the text of that part. -/
theorem encG_steps {m : Mode} {st : Stack} {p : Path} {t : Ty} {v : GV} {tx : Bytes} (he : EncG W h ok G m st p t v tx)
    {m' : Mode} {p' : Path} {t' : Ty} {v' : GV} (hs : Steps W h m p t v m' p' t' v') :
    ∃ st' tx', Slots W h t v tx t' v' tx' ∧ EncG W h ok G m' st' p' t' v' tx' := by
  induction hs generalizing st tx with
  | refl => exact ⟨_, _, .refl, he⟩
  | step h1 _ ih =>
    obtain ⟨st', tx', h2, h3⟩ := encG_step he h1
    obtain ⟨st'', tx'', h4, h5⟩ := ih h3
    exact ⟨st'', tx'', .step h2 h4, h5⟩

/-- Where the code looks for a MarshalPHP method, its result is the text. -/
theorem honours_marshaled {W : World} {h : Heap} {ok : Ty → Prop} {G : Stack → Nat → Bool → Prop} {m : Mode} {st : Stack} {p : Path} {t : Ty}
    {v : GV} {tx : Bytes} (he : EncG W h ok G m st p t v tx) (hm : W.marOf t = true) (hh : Honours W m t) : Marshaled W h t v tx := by
  have typed : ∀ {st p v tx}, EncG W h ok G .typed st p t v tx → Marshaled W h t v tx := by
    intro st p v tx he
    cases he with
    | marshaler _ h => exact h
    | bytesNil => simp [World.marOf] at hm
    | bytes => simp [World.marOf] at hm
    | plain a => rw [hm] at a; cases a
    | ptrNil a => rw [hm] at a; cases a
    | ptrStruct a => rw [hm] at a; cases a
    | ptrKind a => rw [hm] at a; cases a
    | ptrTyped a => rw [hm] at a; cases a
    | ptrIface a => rw [hm] at a; cases a
  rcases hh with rfl | ⟨rfl, hp⟩ | ⟨rfl, hs | ⟨e, hr, hi⟩⟩
  · exact typed he
  · cases he with
    | fieldPlain _ h => exact typed h
    | fieldPtrNil b => simp [World.isPtr, b] at hp
    | fieldPtrStruct b => simp [World.isPtr, b] at hp
    | fieldPtr b => simp [World.isPtr, b] at hp
  · obtain ⟨id, hr⟩ := isStruct_cases hs
    have hn := struct_not hr
    have fin := fun o (hd : Deref W h t v o) => deref_done hn.1 hn.2.1 hd
    cases he with
    | heldNil d => cases fin _ d
    | heldScalar d s => cases fin _ d; cases s <;> simp_all
    | heldConcreteSlice d r => cases fin _ d; rw [hr] at r; cases r
    | heldSliceNil d r => cases fin _ d; rw [hr] at r; cases r
    | heldSlice d r => cases fin _ d; rw [hr] at r; cases r
    | heldMapNil d r => cases fin _ d; rw [hr] at r; cases r
    | heldMap d r => cases fin _ d; rw [hr] at r; cases r
    | heldConcreteMap d r => cases fin _ d; rw [hr] at r; cases r
    | heldStruct d _ _ x => cases fin _ d; exact typed x
  · have hn := slice_not hr
    have fin := fun o (hd : Deref W h t v o) => deref_done hn.1 hn.2.1 hd
    cases he with
    | heldNil d => cases fin _ d
    | heldScalar d s => cases fin _ d; cases s <;> simp_all
    | heldConcreteSlice d _ _ _ _ x => cases fin _ d; exact typed x
    | heldSliceNil d r c => cases fin _ d; rw [hr] at r; cases r; rw [hi] at c; cases c
    | heldSlice d r c => cases fin _ d; rw [hr] at r; cases r; rw [hi] at c; cases c
    | heldMapNil d r => cases fin _ d; rw [hr] at r; cases r
    | heldMap d r => cases fin _ d; rw [hr] at r; cases r
    | heldConcreteMap d r => cases fin _ d; rw [hr] at r; cases r
    | heldStruct d s => cases fin _ d; rw [hn.2.2] at s; cases s

theorem nil_deref {t : Ty} {v : GV} {o : Option (Ty × GV)} (hn : NilValue W t v) (hd : Deref W h t v o) : o = none ∨ o = some (t, v) := by
  cases hn with
  | ptr hr =>
    cases hd with
    | ptrNil => exact .inl rfl
    | done h _ => simp [World.isPtr, hr] at h
  | slice hr _ => exact .inr (deref_done (slice_not hr).1 (slice_not hr).2.1 hd)
  | map hr => exact .inr (deref_done (map_not hr).1 (map_not hr).2.1 hd)
  | iface hi =>
    cases hd with
    | ifaceNil => exact .inl rfl
    | done _ h => rw [hi] at h; cases h

/-- Nil values are written as null, however they are met. -/
theorem nil_text {m : Mode} {st : Stack} {p : Path} {t : Ty} {v : GV} {tx : Bytes} (he : EncG W h ok G m st p t v tx) (hn : NilValue W t v)
    (hm : W.marOf t = false) : tx = [78, 59] := by
  induction he with
  | marshaler a => rw [hm] at a; cases a
  | bytesNil => cases hn with | slice _ h => exact absurd rfl h
  | bytes => cases hn
  | plain _ _ _ _ ih => exact ih hn hm
  | ptrNil => rfl
  | ptrStruct => cases hn
  | ptrKind => cases hn
  | ptrTyped => cases hn
  | ptrIface _ _ _ _ ih => exact ih hn hm
  | scalar s => cases hn <;> cases s
  | struct => cases hn
  | array => cases hn
  | sliceNil => rfl
  | slice => cases hn
  | mapNil => rfl
  | map => cases hn
  | iface _ _ ih => exact ih hn hm
  | heldNil => rfl
  | heldScalar d s => rcases nil_deref hn d with h | h <;> cases h; cases hn <;> cases s
  | heldConcreteSlice d _ _ _ _ _ ih => rcases nil_deref hn d with h | h <;> cases h; exact ih hn hm
  | heldSliceNil => rfl
  | heldSlice d => rcases nil_deref hn d with h | h <;> cases h; cases hn
  | heldMapNil => rfl
  | heldMap d => rcases nil_deref hn d with h | h <;> cases h; cases hn
  | heldConcreteMap d => rcases nil_deref hn d with h | h <;> cases h; cases hn
  | heldStruct d _ _ _ ih => rcases nil_deref hn d with h | h <;> cases h; exact ih hn hm
  | fieldPlain _ _ ih => exact ih hn hm
  | fieldPtrNil => rfl
  | fieldPtrStruct => cases hn
  | fieldPtr => cases hn
  | fieldStr hp hd =>
    cases hd with
    | str => cases hn
    | basic hb =>
      generalize W.resolve _ = t' at hb
      cases hn <;> cases hb
    | ifaceNil => rfl
    | iface _ d hb => rcases nil_deref hn d with h | h <;> cases h; cases hn <;> cases hb
  | fieldStrPtr => cases hn

end Verif

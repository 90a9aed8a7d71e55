import Verif.Spec.Held
import Verif.Proofs.EncParts
/-
Values in variables and in interfaces have the same text.
-/
namespace Verif
open Spec

variable {W : World} {h : Heap}

/-- Moving a value to another place where maps are iterated in the same order. -/
theorem encG_path {ok : Ty → Prop} {G : Stack → Nat → Bool → Prop} {R : Path → Path → Prop} (hc : ∀ i p q, R p q → R (i :: p) (i :: q))
    (ho : ∀ k e p q a, R p q → h.iter k e q a = h.iter k e p a) {m : Mode} {st : Stack} {p q : Path} {t : Ty} {v : GV} {tx : Bytes}
    (he : EncG W h ok G m st p t v tx) (hr : R p q) : EncG W h ok G m st q t v tx := by
  induction he generalizing q with
  | marshaler a b => exact .marshaler a b
  | bytesNil => exact .bytesNil
  | bytes a => exact .bytes a
  | plain a b c _ ih => exact .plain a b c (ih hr)
  | ptrNil a b c d => exact .ptrNil a b c d
  | ptrStruct a b c d _ ih => exact .ptrStruct a b c d (ih hr)
  | ptrKind a b c _ ih => exact .ptrKind a b c (ih hr)
  | ptrTyped a b c d e f _ ih => exact .ptrTyped a b c d e f (ih hr)
  | ptrIface a b c _ ih => exact .ptrIface a b c (ih hr)
  | scalar a => exact .scalar a
  | struct a b _ ih => exact .struct a b fun j w hj => ih j w hj (hc _ _ _ hr)
  | array a b _ ih => exact .array a b fun j w hj => ih j w hj (hc _ _ _ hr)
  | sliceNil a => exact .sliceNil a
  | slice a b c _ ih => exact .slice a b c fun j w hj => ih j w hj (hc _ _ _ hr)
  | mapNil a => exact .mapNil a
  | map a b c d _ ih => exact .map a b ((ho _ _ _ _ _ hr).trans c) d fun j x y hj => ih j x y hj (hc _ _ _ hr)
  | iface a _ ih => exact .iface a (ih hr)
  | heldNil a => exact .heldNil a
  | heldScalar a b => exact .heldScalar a b
  | heldConcreteSlice a b c d e _ ih => exact .heldConcreteSlice a b c d e (ih hr)
  | heldSliceNil a b c d => exact .heldSliceNil a b c d
  | heldSlice a b c d e _ ih => exact .heldSlice a b c d e fun j w hj => ih j w hj (hc _ _ _ hr)
  | heldMapNil a b c d => exact .heldMapNil a b c d
  | heldMap a b c d e f g _ ih => exact .heldMap a b c d e ((ho _ _ _ _ _ hr).trans f) g fun j x y hj => ih j x y hj (hc _ _ _ hr)
  | heldConcreteMap a b c d e f g i _ ih =>
    exact .heldConcreteMap a b c d e ((ho _ _ _ _ _ hr).trans f) g i fun j x y hj => ih j x y hj (hc _ _ _ hr)
  | heldStruct a b c _ ih => exact .heldStruct a b c (ih hr)
  | fieldPlain a _ ih => exact .fieldPlain a (ih hr)
  | fieldPtrNil a => exact .fieldPtrNil a
  | fieldPtrStruct a b c _ ih => exact .fieldPtrStruct a b c (ih hr)
  | fieldPtr a b _ ih => exact .fieldPtr a b (ih hr)
  | fieldStr a b => exact .fieldStr a b
  | fieldStrPtr a b => exact .fieldStrPtr a b

/-- To the first place of a list and back. -/
theorem encG_first {ok : Ty → Prop} {G : Stack → Nat → Bool → Prop} (ho : SameOrder h) {m : Mode} {st : Stack} {p : Path} {t : Ty} {v : GV} {tx : Bytes} :
    EncG W h ok G m st (p ++ [0]) t v tx ↔ EncG W h ok G m st p t v tx :=
  ⟨fun he => encG_path (R := fun p q => p = q ++ [0]) (fun i p q hr => by rw [hr]; rfl) (fun k e p q a hr => by rw [hr, ho]) he rfl,
    fun he => encG_path (R := fun p q => q = p ++ [0]) (fun i p q hr => by rw [hr]; rfl) (fun k e p q a hr => by rw [hr, ho]) he rfl⟩

theorem keyKind_of {k : Ty} (h : W.mapKeyOk k = true) : KeyKind W k := by
  unfold World.mapKeyOk at h
  split at h
  · exact .str ‹_›
  · exact .int _ ‹_›
  · exact .uint _ ‹_› (by simpa using h)
  · cases h

/-- A value of a type that is not a pointer: kinds other than interfaces. -/
theorem held_of_plain {st : Stack} {p : Path} {t : Ty} {v : GV} {tx : Bytes} (hp : W.isPtr t = false) (hs : Supported W t) (hn : NoSpecial W t)
    (hm : W.marOf t = false) (hi : W.isIface t = false) (he : EncT W h .typed st p t v tx) : EncT W h .held st p t v tx := by
  have hd : Deref W h t v (some (t, v)) := .done hp hi
  have elem : ∀ {e : Ty} {st' p' w tx'}, (W.resolve t = .slice e ∨ ∃ k, W.resolve t = .map k e) → W.isIface e = true → EncT W h .typed st' p' e w tx' →
      EncT W h .held st' p' e w tx' := fun {e _ _ _ _} hr hi he => by
    have hme : W.marOf e = false := Bool.eq_false_iff.2 fun hm => hn.elems _ hr hi (marOf_iff.1 hm)
    exact held_of_kind hi (kind_of_typed hme (iface_not_ptr hi) (by rintro rfl; cases hi) he)
  by_cases hb : t = .slice (.uint .u8)
  · subst hb
    exact .heldConcreteSlice hd rfl rfl trivial hs (encT_any_stack he)
  have hk := kind_of_typed hm hp hb he
  cases hk with
  | scalar a => exact .heldScalar hd a
  | struct a b c => exact .heldStruct hd (by simp [World.isStruct, a]) hs he
  | array a => exact absurd a (hn.array _ _)
  | sliceNil a =>
    rename_i e
    cases hie : W.isIface e with
    | false => exact .heldConcreteSlice hd a hie trivial hs (encT_any_stack he)
    | true => exact .heldSliceNil hd a hie trivial
  | slice a b c d =>
    rename_i e _ _ _ _
    cases hie : W.isIface e with
    | false => exact .heldConcreteSlice hd a hie trivial hs (encT_any_stack he)
    | true => exact .heldSlice hd a hie trivial c fun i w hw => elem (.inl a) hie (encT_any_stack (d i w hw))
  | mapNil a => exact .heldMapNil hd a (keyKind_of (supported_map a hm hs).2) trivial
  | map a b c d e =>
    rename_i k e' _ _ _ _
    obtain ⟨h1, h2⟩ := supported_map a hm hs
    cases hie : W.isIface e' with
    | false => exact .heldConcreteMap hd a (keyKind_of h2) hie trivial c (fun _ => h1) d fun i x y hx => encT_any_stack (e i x y hx)
    | true => exact .heldMap hd a (keyKind_of h2) hie trivial c d fun i x y hx => elem (.inr ⟨_, a⟩) hie (encT_any_stack (e i x y hx))
  | iface a => rw [hi] at a; cases a

theorem plain_of_held {st : Stack} {p : Path} {t : Ty} {v : GV} {tx : Bytes} (hp : W.isPtr t = false) (hn : NoSpecial W t)
    (hm : W.marOf t = false) (hi : W.isIface t = false) (he : EncT W h .held st p t v tx) : EncT W h .typed st p t v tx := by
  have elem : ∀ {e : Ty} {st' p' w tx'}, (W.resolve t = .slice e ∨ ∃ k, W.resolve t = .map k e) → W.isIface e = true → EncT W h .held st' p' e w tx' →
      EncT W h .typed st' p' e w tx' := fun {e _ _ _ _} hr hi he => by
    have hme : W.marOf e = false := Bool.eq_false_iff.2 fun hm => hn.elems _ hr hi (marOf_iff.1 hm)
    exact .plain hme (by rintro rfl; cases hi) (iface_not_ptr hi) (.iface hi he)
  have kind : ∀ {x}, EncT W h .kind st p t v x → t ≠ .slice (.uint .u8) → EncT W h .typed st p t v x := fun h hb => .plain hm hb hp h
  have nb : ∀ {x : Ty}, W.resolve t = x → x ≠ .slice (.uint .u8) → t ≠ .slice (.uint .u8) := by rintro x rfl hx rfl; exact hx rfl
  cases he with
  | heldNil a => cases deref_done hp hi a
  | heldScalar a b =>
    cases deref_done hp hi a
    exact kind (.scalar b) (by rintro rfl; cases b <;> simp_all [World.resolve])
  | heldConcreteSlice a b c d e f => cases deref_done hp hi a; exact encT_any_stack f
  | heldSliceNil a b c d => cases deref_done hp hi a; exact kind (.sliceNil b) (nb b (by intro h; cases h; cases c))
  | heldSlice a b c d e f =>
    cases deref_done hp hi a
    exact kind (.slice b trivial e fun i w hw => elem (.inl b) c (encT_any_stack (f i w hw))) (nb b (by intro h; cases h; cases c))
  | heldMapNil a b => cases deref_done hp hi a; exact kind (.mapNil b) (nb b (by simp))
  | heldMap a b c d e f g i =>
    cases deref_done hp hi a
    exact kind (.map b trivial f g fun j x y hx => elem (.inr ⟨_, b⟩) d (encT_any_stack (i j x y hx))) (nb b (by simp))
  | heldConcreteMap a b c d e f g i j =>
    cases deref_done hp hi a
    exact kind (.map b trivial f i fun l x y hx => encT_any_stack (j l x y hx)) (nb b (by simp))
  | heldStruct a b c d => cases deref_done hp hi a; exact d

/-- Structs and slices of concrete elements, with or without methods. -/
theorem held_of_own {st : Stack} {p : Path} {t : Ty} {v : GV} {tx : Bytes} (hs : Supported W t) (hk : (∃ id, W.resolve t = .struct id) ∨ ConcreteSlice W t) :
    EncT W h .held st p t v tx ↔ EncT W h .typed st p t v tx := by
  have hp : W.isPtr t = false := by rcases hk with ⟨id, h⟩ | ⟨e, h, -⟩ <;> simp [World.isPtr, h]
  have hi : W.isIface t = false := by rcases hk with ⟨id, h⟩ | ⟨e, h, -⟩ <;> simp [World.isIface, h]
  have hd : Deref W h t v (some (t, v)) := .done hp hi
  constructor
  · intro he
    rcases hk with ⟨id, hr⟩ | ⟨e, hr, hie⟩
    · cases he with
      | heldNil a => cases deref_done hp hi a
      | heldScalar a b => cases deref_done hp hi a; cases b <;> simp_all
      | heldConcreteSlice a b => cases deref_done hp hi a; simp_all
      | heldSliceNil a b => cases deref_done hp hi a; simp_all
      | heldSlice a b => cases deref_done hp hi a; simp_all
      | heldMapNil a b => cases deref_done hp hi a; simp_all
      | heldMap a b => cases deref_done hp hi a; simp_all
      | heldConcreteMap a b => cases deref_done hp hi a; simp_all
      | heldStruct a b c d => cases deref_done hp hi a; exact d
    · cases he with
      | heldNil a => cases deref_done hp hi a
      | heldScalar a b => cases deref_done hp hi a; cases b <;> simp_all
      | heldConcreteSlice a b c d e f => cases deref_done hp hi a; exact encT_any_stack f
      | heldSliceNil a b c => cases deref_done hp hi a; rw [hr] at b; cases b; rw [hie] at c; cases c
      | heldSlice a b c => cases deref_done hp hi a; rw [hr] at b; cases b; rw [hie] at c; cases c
      | heldMapNil a b => cases deref_done hp hi a; simp_all
      | heldMap a b => cases deref_done hp hi a; simp_all
      | heldConcreteMap a b => cases deref_done hp hi a; simp_all
      | heldStruct a b c d => cases deref_done hp hi a; exact d
  · intro he
    rcases hk with ⟨id, hr⟩ | ⟨e, hr, hie⟩
    · exact .heldStruct hd (by simp [World.isStruct, hr]) hs he
    · exact .heldConcreteSlice hd hr hie trivial hs (encT_any_stack he)

/-- A type without pointers at the top. -/
theorem held_iff_plain {st : Stack} {p : Path} {t : Ty} {v : GV} {tx : Bytes} (hp : W.isPtr t = false) (hi : W.isIface t = false) (hs : Supported W t)
    (hn : NoSpecial W t) (ho : HasMarshal W t → (∃ id, W.resolve t = .struct id) ∨ ConcreteSlice W t) :
    EncT W h .held st p t v tx ↔ EncT W h .typed st p t v tx := by
  by_cases hm : W.marOf t = true
  · exact held_of_own hs (ho (marOf_iff.1 hm))
  · have hm : W.marOf t = false := by simpa using hm
    exact ⟨plain_of_held hp hn hm hi, held_of_plain hp hs hn hm hi⟩

/-- Variables and interfaces alike. -/
theorem held_iff {st : Stack} {p : Path} {t : Ty} {v : GV} {tx : Bytes} (hs : Supported W t) (ha : AlikeHeld W t) :
    EncT W h .held st p t v tx ↔ EncT W h .typed st p t v tx := by
  cases hp : W.isPtr t with
  | false =>
    cases hi : W.isIface t with
    | false => exact held_iff_plain hp hi hs ha.here ha.own
    | true =>
      have hm : W.marOf t = false := by
        cases hm : W.marOf t with
        | false => rfl
        | true =>
          have hx := isIface_cases hi
          rcases ha.own (marOf_iff.1 hm) with ⟨id, h⟩ | ⟨e, h, -⟩ <;> rcases hx with hx | ⟨i, hx⟩ <;> rw [h] at hx <;> cases hx
      constructor
      · intro he
        exact .plain hm (by rintro rfl; cases hi) hp (.iface hi he)
      · intro he
        exact held_of_kind hi (kind_of_typed hm hp (by rintro rfl; cases hi) he)
  | true =>
    obtain ⟨e, hr⟩ := isPtr_cases hp
    have hm : W.marOf t = false := by
      cases hm : W.marOf t with
      | false => rfl
      | true => rcases ha.own (marOf_iff.1 hm) with ⟨id, h⟩ | ⟨e, h, -⟩ <;> rw [h] at hr <;> cases hr
    obtain ⟨hse, hpe⟩ := supported_pointee hr hm hs
    obtain ⟨hne, hme⟩ := ha.there e hr
    have hb : t ≠ .slice (.uint .u8) := by rintro rfl; cases hr
    cases hie : W.isIface e with
    | true =>
      constructor
      · intro he; exact .ptrIface hm hr hie he
      · intro he
        cases he with
        | marshaler a => rw [hm] at a; cases a
        | bytesNil => cases hr
        | bytes => cases hr
        | plain _ _ a => rw [hp] at a; cases a
        | ptrNil _ a _ b => rw [hr] at a; cases a; rw [hie] at b; cases b
        | ptrStruct _ a b => rw [hr] at a; cases a; rw [not_iface_of_struct b] at hie; cases hie
        | ptrKind _ a b => rw [hr] at a; cases a; rw [not_iface_of_direct b] at hie; cases hie
        | ptrTyped _ a _ b => rw [hr] at a; cases a; rw [hie] at b; cases b
        | ptrIface _ _ _ x => exact x
    | false =>
      have key := fun w => held_iff_plain (h := h) (st := st) (p := p) (v := w) (tx := tx) hpe hie hse hne (fun x => .inr (hme x))
      -- the pointee as a variable and by kind
      have kd : ∀ {w}, W.isStruct e = true ∨ directKind W e = true → (EncT W h .typed st p e w tx ↔ EncT W h .kind st p e w tx) := by
        intro w hk
        have hm' : W.marOf e = false := by
          cases hm' : W.marOf e with
          | false => rfl
          | true =>
            obtain ⟨e', h1, -⟩ := hme (marOf_iff.1 hm')
            rcases hk with hk | hk <;> simp [World.isStruct, directKind, h1] at hk
        have hb' : e ≠ .slice (.uint .u8) := by rintro rfl; rcases hk with hk | hk <;> cases hk
        exact ⟨kind_of_typed hm' hpe hb', .plain hm' hb' hpe⟩
      constructor
      · intro he
        -- what the pointer leads to
        have hv : v = .ptrNil ∨ ∃ a, v = .ptr a := by
          have : ∃ o, Deref W h t v o := by
            cases he with
            | heldNil a => exact ⟨_, a⟩
            | heldScalar a => exact ⟨_, a⟩
            | heldConcreteSlice a => exact ⟨_, a⟩
            | heldSliceNil a => exact ⟨_, a⟩
            | heldSlice a => exact ⟨_, a⟩
            | heldMapNil a => exact ⟨_, a⟩
            | heldMap a => exact ⟨_, a⟩
            | heldConcreteMap a => exact ⟨_, a⟩
            | heldStruct a => exact ⟨_, a⟩
          obtain ⟨o, ho⟩ := this
          cases ho with
          | ptrNil => exact .inl rfl
          | ptr => exact .inr ⟨_, rfl⟩
          | ifaceNil a => rw [iface_not_ptr a] at hp; cases hp
          | iface a => rw [iface_not_ptr a] at hp; cases hp
          | done a => rw [hp] at a; cases a
        rcases hv with rfl | ⟨a, rfl⟩
        · have hd : Deref W h t .ptrNil none := .ptrNil hr
          cases he with
          | heldNil a => exact .ptrNil hm hr hpe hie
          | heldScalar a => cases deref_det a hd
          | heldConcreteSlice a => cases deref_det a hd
          | heldSliceNil a => cases deref_det a hd
          | heldSlice a => cases deref_det a hd
          | heldMapNil a => cases deref_det a hd
          | heldMap a => cases deref_det a hd
          | heldConcreteMap a => cases deref_det a hd
          | heldStruct a => cases deref_det a hd
        · have he' := (key _).1 (held_deref (t2 := e) (v2 := h.deref e a) he fun o ho => deref_ptr hr ho)
          cases hse' : W.isStruct e with
          | true => exact .ptrStruct hm hr hse' trivial (encT_any_stack ((kd (.inl hse')).1 he'))
          | false =>
            cases hde : directKind W e with
            | true => exact .ptrKind hm hr hde ((kd (.inr hde)).1 he')
            | false => exact .ptrTyped hm hr hpe hie hse' hde he'
      · intro he
        cases he with
        | marshaler a => rw [hm] at a; cases a
        | bytesNil => cases hr
        | bytes => cases hr
        | plain _ _ a => rw [hp] at a; cases a
        | ptrNil => exact .heldNil (.ptrNil hr)
        | ptrStruct _ a b _ x =>
          rw [hr] at a; cases a
          exact held_deref ((key _).2 ((kd (.inl b)).2 (encT_any_stack x))) fun o ho => .ptr hr ho
        | ptrKind _ a b x =>
          rw [hr] at a; cases a
          exact held_deref ((key _).2 ((kd (.inr b)).2 x)) fun o ho => .ptr hr ho
        | ptrTyped _ a _ _ _ _ x =>
          rw [hr] at a; cases a
          exact held_deref ((key _).2 x) fun o ho => .ptr hr ho
        | ptrIface _ a b => rw [hr] at a; cases a; rw [hie] at b; cases b

end Verif

import Verif.Proofs.Looks
import Verif.Proofs.Errors
/-
How often decoders look at a position.
-/
namespace Verif
open Reader

variable {b : Bytes}

/-- What a decoder hands on when it fails. -/
theorem onOk_fails {v rv : Val} {r : Res Nat} {g : Nat → Reader DR} (h : endD (v, r) = none) :
    ((done r).onOk rv g).seen b = [] ∧ endD (((done r).onOk rv g).outcome b) = none := by
  cases r with
  | ok a => cases h
  | _ => exact ⟨rfl, rfl⟩

theorem argument_looks (hb : b.length < 2 ^ 63) (c d : Nat) : Looks endT b 0 3 4 c (argumentR b.length c d) := by
  unfold argumentR
  refine Looks.fetch (k := 2) (m := 3) ?_ ?_ ?_ (by omega)
  · exact (skipValue_looks hb c d).thenStill fun e _ => ⟨seen_sub, fun e' h => end_sub h⟩
  all_goals
    intro w e h
    rw [outcome_andThen, Res.bind_eq_ok] at h
    obtain ⟨e1, h1, h⟩ := h
    obtain ⟨rfl, rfl, h3⟩ := out_sub_ok h
    dsimp only
    first | omega | (rw [if_neg (by omega)]; omega)

/-- Something is decoded with a method. -/
theorem dyn_looks (hb : b.length < 2 ^ 63) (W : World) (t : Ty) (v : Val) (c d : Nat) (rv : Val) : Looks endD b 0 3 4 c (dynDecodeR W t v b.length c d rv) := by
  unfold dynDecodeR
  refine (argument_looks hb c d).okStill ?_
  rintro ⟨src, e⟩ -
  refine ⟨rfl, fun e' he => ?_⟩
  simp only [outcome] at he
  split at he
  · cases he; rfl
  · cases ho : unquoteBytes src with
    | ok o =>
      rw [ho] at he
      dsimp only [Verif.onOk] at he
      cases hr : (W.unmarshalDyn t v (o.getD src)).2 with
      | ok a => rw [hr] at he; cases he; rfl
      | _ => rw [hr] at he; cases he
    | _ => rw [ho] at he; cases he

theorem unmarshal_looks (hb : b.length < 2 ^ 63) (W : World) (id c d : Nat) (rv : Val) : Looks endD b 0 3 4 c (unmarshalDecodeR W id b.length c d rv) := by
  unfold unmarshalDecodeR
  refine (argument_looks hb c d).okStill ?_
  rintro ⟨src, e⟩ -
  refine ⟨rfl, fun e' he => ?_⟩
  simp only [outcome] at he
  split at he
  · cases he
  split at he
  · cases he
  split at he
  · cases he
  split at he
  · cases he; rfl
  · cases ho : unquoteBytes src with
    | ok o =>
      rw [ho] at he
      dsimp only [Verif.onOk] at he
      cases hr : (W.unmarshal id (o.getD src)).mapErr (annotate c) with
      | ok a => rw [hr] at he; cases he; rfl
      | _ => rw [hr] at he; cases he
    | _ => rw [ho] at he; cases he

theorem iface_looks (hb : b.length < 2 ^ 63) (W : World) (c d : Nat) (rv : Val) : Looks endD b 0 3 4 c (ifaceDecodeR W b.length c d rv) := by
  unfold ifaceDecodeR
  split
  · exact dyn_looks hb W _ _ c d rv
  · refine .byteOk (k := 2) fun y _ => .ite (fun _ => ?_) fun _ => .noneD
    exact ((validateNull_looks (m := 4) (by omega) c).okStill fun a _ => ⟨rfl, fun e he => by cases he; rfl⟩).weaken (by omega) (by omega) (by omega)

theorem null_looks {k m : Nat} (hm : 1 ≤ m) (c : Nat) (rv v : Val) :
    Looks endD b 0 k m c ((validateNullR b.length c).onOk rv fun _ => done (v, .ok (c + 2))) :=
  ((validateNull_looks (m := m) hm c).okStill fun a _ => ⟨rfl, fun e he => by cases he; rfl⟩).weaken (by omega) (by omega) (by omega)

/-- The decoder looks at its first byte at most `k` times and at the others at most five times. -/
def Sees (b : Bytes) (k : Nat) (dec : Nat → Nat → Val → Reader DR) : Prop := ∀ c d v, Looks endD b 0 k 5 c (dec c d v)

theorem ptr_looks {inner : Nat → Nat → Val → Reader DR} (h : Sees b 3 inner) (z : Val) (c d : Nat) (rv : Val) :
    Looks endD b 0 4 5 c (ptrDecodeR inner z b.length c d rv) := by
  unfold ptrDecodeR
  refine .byteOk (k := 3) fun y _ => .ite (fun _ => null_looks (by omega) c rv .ptrNil) fun _ => ?_
  split
  · exact (h c d _).mapD fun a e he => by obtain ⟨v, r⟩ := a; cases r <;> cases he; rfl
  · exact (h c d _).mapD fun a e he => by obtain ⟨v, r⟩ := a; cases r <;> cases he; rfl
  · exact .panicD

/-! ### Loops -/

theorem sliceLoop_looks {dec : Nat → Val → Reader DR} (h : ∀ c v, Looks endD b 0 4 5 c (dec c v)) (z : Val) (es : Nat) :
    ∀ {f c : Nat} {vs : List Val} {rv : Val}, Looks endD b 0 4 5 c (sliceLoopR dec z es b.length f c vs rv)
  | 0, c, vs, rv => .fail rfl rfl
  | f + 1, c, vs, rv => by
    unfold sliceLoopR
    refine .ite (fun _ => .noneD) fun _ => ?_
    refine Looks.onOk (pos := Prod.snd) (j := 0) ((readInt_looks c).weaken (by omega) (by omega) (by omega)) (k' := 4) ?_ (by omega)
    rintro ⟨i, c1⟩ -
    refine .ite (fun _ => .noneD) fun _ => .ite (fun _ => .panicD) fun _ => ?_
    dsimp only
    generalize (if decide (i ≥ vs.length) = true then vs ++ List.replicate (i + 1 - vs.length) z else vs) = slice
    cases slice[i]? with
    | none => exact .panicD
    | some v0 =>
      dsimp only
      refine (h c1 v0).bindD (k' := 5) (fun v e _ => ?_) (by omega) fun v r hr => onOk_fails hr
      show Looks endD b 0 5 5 e (ite _ _ _)
      refine .ite (fun _ => .noneD) fun _ => .byteOk (k := 4) fun y _ => .ite (fun _ => .ret rfl (by omega)) fun _ => ?_
      exact sliceLoop_looks h z es

theorem arrayLoop_looks {dec : Nat → Val → Reader DR} (h : ∀ c v, Looks endD b 0 4 5 c (dec c v)) {skip : Nat → Reader (Res Nat)}
    (hs : ∀ c, Looks (endOf id) b 0 2 3 c (skip c)) : ∀ {f c : Nat} {vs : List Val}, Looks endD b 0 4 5 c (arrayLoopR dec skip b.length f c vs)
  | 0, c, vs => .fail rfl rfl
  | f + 1, c, vs => by
    unfold arrayLoopR
    refine .ite (fun _ => .noneD) fun _ => ?_
    refine Looks.onOk (pos := Prod.snd) (j := 0) ((readInt_looks c).weaken (by omega) (by omega) (by omega)) (k' := 4) ?_ (by omega)
    rintro ⟨i, c1⟩ -
    refine .ite (fun _ => .noneD) fun _ => ?_
    refine Looks.seq (fin := fun p => endOf id p.2) (j := 0) (k := 4) (m := 5) (k' := 5) ?_ ?_ (by omega) ?_
    · split
      · exact (h c1 _).mapD fun a e he => by obtain ⟨v, r⟩ := a; cases r <;> cases he; rfl
      · exact ((hs c1).weaken (j' := 0) (k' := 4) (m' := 5) (by omega) (by omega) (by omega)).mapD fun a e he => he
    · intro e he
      generalize hp : Reader.outcome b _ = p at he ⊢
      obtain ⟨v, r⟩ := p
      cases r with
      | ok a =>
        cases he
        show Looks endD b 0 5 5 a (ite _ _ _)
        refine .ite (fun _ => .noneD) fun _ => .byteOk (k := 4) fun y _ => .ite (fun _ => .ret rfl (by omega)) fun _ => ?_
        exact arrayLoop_looks h hs
      | _ => cases he
    · intro he
      generalize hp : Reader.outcome b _ = p at he ⊢
      obtain ⟨v, r⟩ := p
      cases r with
      | ok a => cases he
      | _ => exact ⟨rfl, rfl⟩

theorem mapLoop_looks {keyDec valDec : Nat → Reader DR} (hk : ∀ c, Looks endD b 0 4 5 c (keyDec c)) (hv : ∀ c, Looks endD b 0 4 5 c (valDec c)) :
    ∀ {f c : Nat} {es : List (Val × Val)}, Looks endD b 0 4 5 c (mapLoopR keyDec valDec b.length f c es)
  | 0, c, es => .fail rfl rfl
  | f + 1, c, es => by
    unfold mapLoopR
    refine .ite (fun _ => .noneD) fun _ => ?_
    refine (hk c).bindD (k' := 4) (fun v e _ => ?_) (by omega) fun v r hr => onOk_fails hr
    show Looks endD b 0 4 5 e (ite _ _ _)
    refine .ite (fun _ => .noneD) fun _ => ?_
    refine (hv e).bindD (k' := 5) (fun v e _ => ?_) (by omega) fun v r hr => onOk_fails hr
    show Looks endD b 0 5 5 e (ite _ _ _)
    refine .ite (fun _ => .panicD) fun _ => .ite (fun _ => .noneD) fun _ => .byteOk (k := 4) fun y _ => .ite (fun _ => .ret rfl (by omega)) fun _ => ?_
    exact mapLoop_looks hk hv

theorem decodeKey_looks (sets : List FieldSet) (c : Nat) : Looks endT b 0 4 5 c (decodeKeyR sets b.length c) := by
  unfold decodeKeyR
  exact ((stringBytes_looks c).thenStill fun a _ => ⟨rfl, fun e he => by cases he; rfl⟩).weaken (by omega) (by omega) (by omega)

theorem structLoop_looks {sets : List FieldSet} {dec : FieldSet → Nat → Val → Reader DR} (h : ∀ s c v, Looks endD b 0 4 5 c (dec s c v))
    {skip : Nat → Reader (Res Nat)} (hs : ∀ c, Looks (endOf id) b 0 2 3 c (skip c)) :
    ∀ {f c : Nat} {vs : List Val}, Looks endD b 0 4 5 c (structLoopR sets dec skip b.length f c vs)
  | 0, c, vs => .fail rfl rfl
  | f + 1, c, vs => by
    unfold structLoopR
    refine .ite (fun _ => .noneD) fun _ => ?_
    refine Looks.onOk (pos := Prod.snd) (j := 0) (decodeKey_looks sets c) (k' := 4) ?_ (by omega)
    rintro ⟨fld, c1⟩ -
    refine .ite (fun _ => .noneD) fun _ => ?_
    refine Looks.seq (fin := fun p => endOf id p.2) (j := 0) (k := 4) (m := 5) (k' := 5) ?_ ?_ (by omega) ?_
    · split
      · split
        · exact (h _ c1 _).mapD fun a e he => by obtain ⟨v, r⟩ := a; cases r <;> cases he; rfl
        · exact .fail rfl rfl
      · exact ((hs c1).weaken (j' := 0) (k' := 4) (m' := 5) (by omega) (by omega) (by omega)).mapD fun a e he => he
    · intro e he
      generalize hp : Reader.outcome b _ = p at he ⊢
      obtain ⟨v, r⟩ := p
      cases r with
      | ok a =>
        cases he
        show Looks endD b 0 5 5 a (ite _ _ _)
        refine .ite (fun _ => .noneD) fun _ => .byteOk (k := 4) fun y _ => .ite (fun _ => .ret rfl (by omega)) fun _ => ?_
        exact structLoop_looks h hs
      | _ => cases he
    · intro he
      generalize hp : Reader.outcome b _ = p at he ⊢
      obtain ⟨v, r⟩ := p
      cases r with
      | ok a => cases he
      | _ => exact ⟨rfl, rfl⟩

/-! ### Arrays -/

/-- The look at `i` before a length that ends behind `i`. -/
theorem count_before {pos : Int × Nat → Nat} {j' k' m' i : Nat} {rv : Val} {x : Reader (Res (Int × Nat))} {f : Int × Nat → Reader DR}
    (hf : ∀ a, x.outcome b = .ok a → Looks endD b j' k' m' (pos a) (f a)) (hi : ∀ a, x.outcome b = .ok a → i < pos a) :
    ((x.onOk rv f).seen b).count i = (x.seen b).count i ∧ ∀ e, endD ((x.onOk rv f).outcome b) = some e → i < e := by
  unfold Reader.onOk
  rw [seen_bind, List.count_append, outcome_bind]
  cases hr : x.outcome b with
  | ok a =>
    have h1 := hf a hr
    have h2 := hi a hr
    dsimp only
    have : i ∉ (f a).seen b := fun hm => by have := h1.low i hm; omega
    exact ⟨by rw [count_zero this]; rfl, fun e he => by have := (h1.high e he).1; omega⟩
  | _ => exact ⟨rfl, fun e he => by cases he⟩

theorem emptyArray_looks (c : Nat) (rv v : Val) : Looks endD b 0 0 5 c ((validateEmptyArrayR b.length c).onOk rv fun _ => done (v, .ok (c + 4))) :=
  (validateEmptyArray_looks (m := 5) (by omega) c).okStill fun a _ => ⟨rfl, fun e he => by cases he; rfl⟩

/-- The length of an array, which is first looked at whether it is 0. -/
theorem header_looks {c : Nat} {rv v : Val} {f : Int × Nat → Reader DR} (hf : ∀ a, Looks endD b 0 5 5 a.2 (f a)) :
    Looks endD b 0 1 5 (c + 1) ((byte (c + 2)).onOk rv fun y =>
      if y = c0 then (validateEmptyArrayR b.length (c + 2)).onOk rv fun _ => done (v, .ok (c + 2 + 4)) else (readLengthR b.length (c + 1)).onOk rv f) := by
  refine .peek (by omega) (fun y _ => ?_) fun y _ => ?_
  · refine .ite (fun _ => (emptyArray_looks (c + 2) rv v).ahead (by omega) (by omega) 1) fun _ => ?_
    exact Looks.onOk (pos := Prod.snd) (j := 0) ((readLength_looks (c + 1)).weaken (by omega) (by omega) (by omega)) (k' := 5) (fun a _ => hf a) (by omega)
  · split
    · have h := emptyArray_looks (b := b) (c + 2) rv v
      have := h.few (c + 2)
      rw [if_pos rfl] at this
      exact ⟨by omega, fun e he => (h.high e he).1⟩
    · obtain ⟨h1, h2⟩ := count_before (b := b) (i := c + 2) (rv := rv) (x := readLengthR b.length (c + 1)) (fun a _ => hf a) fun a ha => by
        rw [out_readLength] at ha
        have := readLength_le (n := a.1) (c' := a.2) ha
        omega
      refine ⟨?_, h2⟩
      rw [h1]
      have := (readLength_looks (b := b) (c + 1)).few (c + 2)
      rw [if_neg (by omega)] at this
      omega

theorem slice_looks {dec : Nat → Nat → Val → Reader DR} (h : Sees b 4 dec) (z : Val) (es c d : Nat) (rv : Val) :
    Looks endD b 0 2 5 c (sliceDecodeR dec z es b.length c d rv) := by
  unfold sliceDecodeR
  refine .ite (fun _ => .noneD) fun _ => .ite (fun _ => .byteOk (k := 1) fun _ _ => .noneD) fun _ => .byteOk (k := 1) fun y _ => .ite (fun _ => null_looks (by omega) c rv _) fun _ =>
    .ite (fun _ => ?_) fun _ => .ite (fun _ => .noneD) fun _ => .noneD
  refine Looks.ahead (c' := c + 1) (k := 2) ?_ (by omega) (by omega) 1
  refine .ite (fun _ => .noneD) fun _ => .byteOk (k := 1) fun y _ => .ite (fun _ => .noneD) fun _ => .ite (fun _ => .noneD) fun _ => ?_
  refine header_looks fun a => ?_
  refine .ite (fun _ => .noneD) fun _ => .byteOk (k := 4) fun y _ => .ite (fun _ => .noneD) fun _ => .ite (fun _ => .panicD) fun _ => ?_
  exact (sliceLoop_looks (fun c v => h c _ v) z es).ahead (by omega) (by omega) 4

theorem array_looks (hb : b.length < 2 ^ 63) {dec : Nat → Nat → Val → Reader DR} (h : Sees b 4 dec) (z : Val) (l c d : Nat) (rv : Val) :
    Looks endD b 0 2 5 c (arrayDecodeR dec z l b.length c d rv) := by
  unfold arrayDecodeR
  refine .ite (fun _ => .noneD) fun _ => .ite (fun _ => .byteOk (k := 1) fun _ _ => .noneD) fun _ => .byteOk (k := 1) fun y _ => .ite (fun _ => null_looks (by omega) c rv _) fun _ =>
    .ite (fun _ => ?_) fun _ => .noneD
  refine Looks.ahead (c' := c + 1) (k := 2) ?_ (by omega) (by omega) 1
  refine .ite (fun _ => .noneD) fun _ => .byteOk (k := 1) fun y _ => .ite (fun _ => .noneD) fun _ => .ite (fun _ => .noneD) fun _ => ?_
  refine header_looks fun a => ?_
  refine .ite (fun _ => .noneD) fun _ => .byteOk (k := 4) fun y _ => .ite (fun _ => .noneD) fun _ => ?_
  exact (arrayLoop_looks (fun c v => h c _ v) fun c => skipValue_looks hb c _).ahead (by omega) (by omega) 4

theorem bytes_looks {dec : Nat → Nat → Val → Reader DR} (h : Sees b 4 dec) (z : Val) (c d : Nat) (rv : Val) :
    Looks endD b 0 3 5 c (bytesDecodeR dec z b.length c d rv) := by
  unfold bytesDecodeR
  refine .byteOk (k := 2) fun y _ => .ite (fun _ => slice_looks h z 1 c d rv) fun _ => ?_
  refine Looks.okStill (pos := Prod.snd) ((stringBytes_looks c).weaken (by omega) (by omega) (by omega)) ?_
  rintro ⟨ob, e1⟩ -
  cases ob with
  | none => exact ⟨rfl, fun e he => by cases he; rfl⟩
  | some t => exact ⟨rfl, fun e he => by cases he; rfl⟩

/-! ### Maps and structs -/

/-- The start of an array or object and what follows: the ':' is looked at once. -/
theorem start_looks (hb : b.length < 2 ^ 63) {c : Nat} {y : Byte} {bad : Err} {rv : Val} {f : Nat → Reader DR} (hf : ∀ e, Looks endD b 0 4 5 e (f e)) :
    Looks endD b 0 1 5 c ((startR b.length c y bad).onOk rv f) := by
  unfold startR
  split
  · refine Looks.onOk (pos := id) (j := 1) (k' := 4) ?_ (fun a _ => hf a) (by omega)
    exact ((skipClassName_looks hb c).thenStill fun a _ => ⟨rfl, fun e he => by cases he; rfl⟩).weaken (by omega) (by omega) (by omega)
  · split
    · exact (hf (c + 1)).ahead (by omega) (by omega) 1
    · exact .fail rfl rfl

theorem map_looks (hb : b.length < 2 ^ 63) {keyDec valDec : Nat → Nat → Reader DR} (hk : ∀ c d, Looks endD b 0 4 5 c (keyDec c d))
    (hv : ∀ c d, Looks endD b 0 4 5 c (valDec c d)) (c d : Nat) (rv : Val) : Looks endD b 0 2 5 c (mapDecodeR keyDec valDec b.length c d rv) := by
  unfold mapDecodeR
  refine .ite (fun _ => .noneD) fun _ => .ite (fun _ => .byteOk (k := 1) fun _ _ => .noneD) fun _ => .byteOk (k := 1) fun y _ => .ite (fun _ => null_looks (by omega) c rv _) fun _ => ?_
  refine start_looks hb fun c1 => ?_
  refine Looks.onOk (pos := Prod.snd) (j := 0) ((readLength_looks c1).weaken (by omega) (by omega) (by omega)) (k' := 5) (fun a _ => ?_) (by omega)
  refine .ite (fun _ => .noneD) fun _ => .byteOk (k := 4) fun y _ => .ite (fun _ => .noneD) fun _ => ?_
  split
  · exact .panicD
  · refine Looks.ahead (c' := a.2 + 1) (k := 5) ?_ (by omega) (by omega) 4
    refine .ite (fun _ => .noneD) fun _ => .byteOk (k := 4) fun y _ => .ite (fun _ => .ret rfl (by omega)) fun _ => ?_
    exact mapLoop_looks (fun c => hk c _) fun c => hv c _

theorem struct_looks (hb : b.length < 2 ^ 63) {sets : List FieldSet} {dec : FieldSet → Nat → Nat → Val → Reader DR}
    (h : ∀ s, Sees b 4 (dec s)) (c d : Nat) (rv : Val) : Looks endD b 0 2 5 c (structDecodeR sets dec b.length c d rv) := by
  unfold structDecodeR
  refine .ite (fun _ => .noneD) fun _ => .ite (fun _ => .byteOk (k := 1) fun _ _ => .noneD) fun _ => .byteOk (k := 1) fun y _ => .ite (fun _ => null_looks (by omega) c rv _) fun _ => ?_
  refine start_looks hb fun c1 => ?_
  refine .ite (fun _ => .noneD) fun _ => .byteOk (k := 3) fun y _ => .ite (fun _ => .noneD) fun _ => ?_
  refine Looks.onOk (pos := id) (j := 0) ((skipLength_looks c1).weaken (by omega) (by omega) (by omega)) (k' := 5) (fun a _ => ?_) (by omega)
  refine .ite (fun _ => .noneD) fun _ => .byteOk (k := 4) fun y _ => .ite (fun _ => .noneD) fun _ => ?_
  refine Looks.ahead (c' := a + 1) (k := 5) ?_ (by show a < a + 1; omega) (by omega) 4
  refine .ite (fun _ => .noneD) fun _ => .byteOk (k := 4) fun y _ => .ite (fun _ => .ret rfl (by omega)) fun _ => ?_
  split
  · exact structLoop_looks (fun s c v => h s c _ v) fun c => skipValue_looks hb c _
  · exact .panicD

/-! ### Interfaces and keys -/

theorem wrap_looks {k : Nat} {c : Nat} {x : Reader DR} {g : Val → Val} {w : Val} (h : Looks endD b 0 k 5 c x) :
    Looks endD b 0 k 5 c (x.bind fun (v, r) => done (onOk w r fun c => (g v, .ok c))) :=
  h.mapD fun a e he => by obtain ⟨v, r⟩ := a; cases r <;> cases he; rfl

theorem anyKey_looks (c : Nat) : Looks endD b 0 3 5 c (anyKeyDecodeR b.length c) := by
  unfold anyKeyDecodeR
  refine .byteOk (k := 2) fun y _ => .ite (fun _ => ?_) fun _ => .ite (fun _ => ?_) fun _ => .noneD
  · exact wrap_looks (g := fun v => .iface .str v) ((string_looks c _).weaken (by omega) (by omega) (by omega))
  · exact wrap_looks (g := fun v => .iface (.int .i64) v) ((int_looks .i64 c _).weaken (by omega) (by omega) (by omega))

theorem any_looks (hb : b.length < 2 ^ 63) (W : World) {anyDec : Nat → Nat → Reader DR} (h : ∀ c d, Looks endD b 0 4 5 c (anyDec c d)) (c d : Nat) (rv : Val) :
    Looks endD b 0 3 5 c (anyDecodeR W anyDec b.length c d rv) := by
  unfold anyDecodeR
  refine .byteOk (k := 2) fun y _ => .ite (fun _ => ?_) fun _ => .ite (fun _ => ?_) fun _ => .ite (fun _ => ?_) fun _ => .ite (fun _ => ?_) fun _ =>
    .ite (fun _ => ?_) fun _ => .ite (fun _ => ?_) fun _ => .ite (fun _ => null_looks (by omega) c rv _) fun _ => .noneD
  · exact wrap_looks (g := fun v => .iface (.map .str .any) v) (map_looks hb (fun c _ => (string_looks c _).weaken (by omega) (by omega) (by omega)) h c d _)
  · exact wrap_looks (g := fun v => .iface (.map .any .any) v) (map_looks hb (fun c _ => (anyKey_looks c).weaken (by omega) (by omega) (by omega)) h c d _)
  · exact wrap_looks (g := fun v => .iface .f64 v) ((float_looks W false c _).weaken (by omega) (by omega) (by omega))
  · refine Looks.ahead (c' := c + 1) (k := 1) ?_ (by omega) (by omega) 2
    exact ((stringText_looks (c + 1)).okStill fun a _ => ⟨rfl, fun e he => by cases he; rfl⟩).weaken (by omega) (by omega) (by omega)
  · exact wrap_looks (g := fun v => .iface (.int .i64) v) ((int_looks .i64 c _).weaken (by omega) (by omega) (by omega))
  · exact ((readBool_looks (m := 5) (by omega) c).okStill fun a _ => ⟨rfl, fun e he => by cases he; rfl⟩).weaken (by omega) (by omega) (by omega)

theorem ptrKey_looks {c : Nat} {x : Reader DR} (h : Looks endD b 0 3 5 c x) : Looks endD b 0 4 5 c (ptrKeyDecodeR x b.length c) := by
  unfold ptrKeyDecodeR
  refine .byteOk (k := 3) fun y _ => .ite (fun _ => null_looks (by omega) c _ _) fun _ => ?_
  exact h.mapD fun a e he => by obtain ⟨v, r⟩ := a; cases r <;> cases he

theorem key_looks (hb : b.length < 2 ^ 63) (W : World) {anyDec : Nat → Nat → Reader DR} (h : ∀ c d, Looks endD b 0 4 5 c (anyDec c d)) (k : Ty) (c d : Nat) :
    Looks endD b 0 4 5 c (keyDecodeR W anyDec b.length k c d) := by
  have hn : ∀ c v, Looks endD b 0 4 5 c (done (invalidDecode c v)) := fun c v => .fail rfl rfl
  unfold keyDecodeR
  split
  · exact (unmarshal_looks hb W _ c d _).weaken (by omega) (by omega) (by omega)
  split
  · exact (string_looks c _).weaken (by omega) (by omega) (by omega)
  · exact (bool_looks c _).weaken (by omega) (by omega) (by omega)
  · exact (int_looks _ c _).weaken (by omega) (by omega) (by omega)
  · exact (uint_looks _ c _).weaken (by omega) (by omega) (by omega)
  · exact (any_looks hb W h c d _).weaken (by omega) (by omega) (by omega)
  · exact (iface_looks hb W c d _).weaken (by omega) (by omega) (by omega)
  · split
    · exact hn _ _
    split
    · exact ptrKey_looks ((string_looks c _).weaken (by omega) (by omega) (by omega))
    · exact ptrKey_looks ((bool_looks c _).weaken (by omega) (by omega) (by omega))
    · exact ptrKey_looks ((int_looks _ c _).weaken (by omega) (by omega) (by omega))
    · exact ptrKey_looks ((uint_looks _ c _).weaken (by omega) (by omega) (by omega))
    · exact ptrKey_looks (any_looks hb W h c d _)
    · exact ptrKey_looks (any_looks hb W h c d _)
    · exact hn _ _
  · exact hn _ _

theorem field_looks (W : World) {rec : Ty → Nat → Nat → Val → Reader DR} (h : ∀ t, Sees b 4 (rec t)) (s : FieldSet) :
    Sees b 4 (fieldDecodeR W rec b.length s) := by
  intro c d v
  have hw : ∀ t c v, Looks endD b 0 1 5 c (wrappedDecodeR W t b.length c v) := fun t c v => (wrapped_looks W t c v).weaken (by omega) (by omega) (by omega)
  unfold fieldDecodeR
  split
  · split
    · refine .ite (fun _ => ptr_looks (fun c _ v => (hw _ c v).weaken (by omega) (by omega) (by omega)) _ c d v) fun _ => .noneD
    · exact .ite (fun _ => (hw _ c v).weaken (by omega) (by omega) (by omega)) fun _ => .noneD
  · exact h _ c d v

theorem nonPtr_looks (hb : b.length < 2 ^ 63) (W : World) {rec : Ty → Nat → Nat → Val → Reader DR} (h : ∀ t, Sees b 4 (rec t)) (t : Ty) :
    Sees b 3 (decodeNonPtrR W rec b.length t) := by
  intro c d rv
  unfold decodeNonPtrR
  split
  · exact (unmarshal_looks hb W _ c d _).weaken (by omega) (by omega) (by omega)
  split
  · exact (bool_looks c _).weaken (by omega) (by omega) (by omega)
  · exact (int_looks _ c _).weaken (by omega) (by omega) (by omega)
  · exact (uint_looks _ c _).weaken (by omega) (by omega) (by omega)
  · exact (float_looks W _ c _).weaken (by omega) (by omega) (by omega)
  · exact (float_looks W _ c _).weaken (by omega) (by omega) (by omega)
  · exact (string_looks c _).weaken (by omega) (by omega) (by omega)
  · refine .ite (fun _ => bytes_looks (h _) _ c d rv) fun _ => (slice_looks (h _) _ _ c d rv).weaken (by omega) (by omega) (by omega)
  · exact (array_looks hb (h _) _ _ c d rv).weaken (by omega) (by omega) (by omega)
  · exact (map_looks hb (fun c d => key_looks hb W (fun c d => h _ c d _) _ c d) (fun c d => h _ c d _) c d rv).weaken (by omega) (by omega) (by omega)
  · exact (struct_looks hb (field_looks W h) c d rv).weaken (by omega) (by omega) (by omega)
  · exact any_looks hb W (fun c d => h _ c d _) c d rv
  · exact (iface_looks hb W c d _).weaken (by omega) (by omega) (by omega)
  · exact .fail rfl rfl
  · exact .noneD
  · exact .noneD

theorem decode_looks (hb : b.length < 2 ^ 63) (W : World) : ∀ (f : Nat) (t : Ty), Sees b 4 (decodeFR W b.length f t)
  | 0, t => fun c d v => .fail rfl rfl
  | f + 1, t => fun c d v => by
    unfold decodeFR
    have h := fun t => nonPtr_looks hb W (decode_looks hb W f) t
    split
    · exact .ite (fun _ => .noneD) fun _ => ptr_looks (h _) _ c d v
    · exact (h t c d v).weaken (by omega) (by omega) (by omega)

/-- The whole: no position is looked at more than five times. -/
theorem unmarshalR_looks (hb : b.length < 2 ^ 63) (W : World) (fuel : Nat) (t : Ty) (v : Val) (i : Nat) :
    ((unmarshalR W fuel b.length t v).seen b).count i ≤ 5 := by
  unfold unmarshalR
  cases compileD W fuel [] t with
  | ok _ =>
    show ((Reader.bind _ (decodeFR W b.length (b.length + 1) t 0 0 v)).seen b).count i ≤ 5
    have h := decode_looks hb W (b.length + 1) t 0 0 v
    rw [seen_bind, List.count_append]
    rcases ho : (decodeFR W b.length (b.length + 1) t 0 0 v).outcome b with ⟨v', r⟩
    have hf := h.few i
    cases r with
    | ok c =>
      obtain ⟨h1, h2, h3⟩ := h.high c (by rw [ho]; rfl)
      show _ + ((Reader.bind _ (validateEndBufR b.length c)).seen b).count i ≤ 5
      rw [seen_bind]
      have he : ((validateEndBufR b.length c).seen b).count i ≤ if i = c then 1 else 0 := by
        unfold validateEndBufR
        split
        · simp [seen]
        · unfold Reader.andThen
          rw [seen_bind, seen_byte]
          by_cases hc : c < b.length
          · obtain ⟨y, hy⟩ := idx_ok hc
            rw [if_pos hc, outcome_byte, hy]
            simp only [seen, List.append_nil, List.count_cons, List.count_nil, beq_iff_eq, eq_comm (a := c)]
            split <;> omega
          · rw [if_neg hc, outcome_byte, idx_none hc]
            simp [seen]
      simp only [seen, List.append_nil]
      split at he
      · rename_i hic
        subst hic
        omega
      · split at hf <;> omega
    | _ =>
      show _ + ([] : List Nat).count i ≤ 5
      simp only [List.count_nil]
      split at hf <;> omega
  | _ => exact Nat.zero_le _

/-! ### All looks together, and what they settle -/

theorem length_of_counts {k : Nat} : ∀ {n : Nat} {l : List Nat}, (∀ i ∈ l, i < n) → (∀ i, l.count i ≤ k) → l.length ≤ k * n
  | 0, l, h, _ => by
    cases l with
    | nil => simp
    | cons x l => exact absurd (h x (by simp)) (by omega)
  | n + 1, l, h, hc => by
    have h1 := length_of_counts (k := k) (n := n) (l := l.filter (· != n)) (fun i hi => by
      rw [List.mem_filter] at hi
      have := h i hi.1
      have : i ≠ n := by simpa using hi.2
      omega) fun i => Nat.le_trans (List.Sublist.count_le i List.filter_sublist) (hc i)
    have h2 := List.length_eq_countP_add_countP (p := (· == n)) (l := l)
    have h3 : l.countP (fun a => decide ¬ (a == n) = true) = (l.filter (· != n)).length := by
      rw [← List.countP_eq_length_filter]
      congr 1
      funext a
      by_cases ha : a = n <;> simp [ha]
    have h4 : l.countP (· == n) ≤ k := hc n
    rw [Nat.mul_succ]
    omega

theorem seen_inside {α : Type} {x : Reader α} : ∀ i ∈ x.seen b, i < b.length := by
  induction x with
  | done a => simp [seen]
  | look p k ih =>
    intro i hi
    simp only [seen] at hi
    split at hi
    · rcases List.mem_cons.1 hi with rfl | hi
      · assumption
      · exact ih _ i hi
    · exact ih _ i hi

/-- A reader gets no other information than that of its looks. -/
theorem outcome_agree {α : Type} {b' : Bytes} (hl : b'.length = b.length) {x : Reader α} (h : ∀ i ∈ x.seen b, b'[i]? = b[i]?) :
    x.outcome b' = x.outcome b ∧ x.seen b' = x.seen b := by
  induction x with
  | done a => exact ⟨rfl, rfl⟩
  | look p k ih =>
    by_cases hp : p < b.length
    · have h1 : b'[p]? = b[p]? := h p (by simp only [seen]; rw [if_pos hp]; simp)
      have := ih b[p]? fun i hi => h i (by simp only [seen]; rw [if_pos hp]; exact List.mem_cons_of_mem _ hi)
      simp only [outcome, seen, h1, hl]
      exact ⟨this.1, by rw [if_pos hp, if_pos hp, this.2]⟩
    · have h1 : b'[p]? = b[p]? := by rw [List.getElem?_eq_none (by omega), List.getElem?_eq_none (by omega)]
      have := ih b[p]? fun i hi => h i (by simp only [seen]; rw [if_neg hp]; exact hi)
      simp only [outcome, seen, h1, hl]
      exact ⟨this.1, by rw [if_neg hp, if_neg hp, this.2]⟩

end Verif

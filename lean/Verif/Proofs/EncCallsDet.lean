import Verif.Proofs.EncCalls
import Verif.Proofs.EncDet
/-
A value has at most one shape, so that the calls and their order are fixed before any method has run. And where methods keep no state, the encoder with the calls does
what the encoder of Model/Encode.lean does.
-/
namespace Verif
open Spec

variable {W : World} {h : Heap} {M : MarHooks}

theorem calledOn_det {t t1 t2 : Ty} {v v1 v2 : GV} (h1 : CalledOn W t v t1 v1) (h2 : CalledOn W t v t2 v2) : t1 = t2 ∧ v1 = v2 := by
  cases h1 with
  | value a b c =>
    cases h2 with
    | value => exact ⟨rfl, rfl⟩
    | iface => exact absurd rfl (a _ _)
  | iface a =>
    cases h2 with
    | value b => exact absurd rfl (b _ _)
    | iface => exact ⟨rfl, rfl⟩

theorem arrPieces_congr {n : Nat} {kd kd' : Nat → Doc} {px px' : Nat → List Piece} (hk : ∀ i, i < n → (kd i).text = (kd' i).text) (ht : ∀ i, i < n → px i = px' i) :
    arrPieces n kd px = arrPieces n kd' px' := by
  rw [arrPieces, arrPieces, bodyPieces_congr (i := 0) (n := n) (kd' := kd') (px' := px') (fun j _ hj => hk j (by omega)) (fun j _ hj => ht j (by omega))]

theorem not_marshal_bytes : ¬ HasMarshal W (.slice (.uint .u8)) := fun a => by
  have := marOf_iff.2 a
  simp [World.marOf] at this

local macro "kill" : tactic => `(tactic| (exfalso; first
  | contradiction
  | (simp_all [not_struct_of_direct, not_iface_of_direct, not_iface_of_struct]; done)
  | (simp_all [World.isPtr, World.isIface, World.isStruct, directKind]; done)))

theorem not_iface_of_ptr {t e : Ty} (hr : W.resolve t = .ptr e) : W.isPtr t = true := by simp [World.isPtr, hr]

/-- A value has at most one shape. -/
theorem shape_det {m : Mode} {p : Path} {t : Ty} {v : GV} {ps ps' : List Piece} (he : Shape W h m p t v ps) (he' : Shape W h m p t v ps') : ps = ps' := by
  induction he generalizing ps' with
  | marshaler a b =>
    cases he' with
    | marshaler _ c => obtain ⟨rfl, rfl⟩ := calledOn_det b c; rfl
    | bytesNil => exact absurd a not_marshal_bytes
    | bytes => exact absurd a not_marshal_bytes
    | _ => contradiction
  | bytesNil =>
    cases he' with
    | marshaler a => exact absurd a not_marshal_bytes
    | bytesNil => rfl
    | plain _ a => exact absurd rfl a
    | ptrIface _ a => simp [World.resolve] at a
  | bytes a =>
    cases he' with
    | marshaler a => exact absurd a not_marshal_bytes
    | bytes b => rw [a] at b; cases b; rfl
    | plain _ a => exact absurd rfl a
    | ptrIface _ a => simp [World.resolve] at a
  | plain a b c _ ih =>
    cases he' with
    | plain _ _ _ x => exact ih x
    | bytesNil => exact absurd rfl b
    | bytes => exact absurd rfl b
    | marshaler a' => contradiction
    | ptrNil _ r => rw [not_iface_of_ptr r] at c; cases c
    | ptrKind _ r => rw [not_iface_of_ptr r] at c; cases c
    | ptrTyped _ r => rw [not_iface_of_ptr r] at c; cases c
    | ptrIface _ r => rw [not_iface_of_ptr r] at c; cases c
  | ptrNil a b c d =>
    cases he' with
    | ptrNil => rfl
    | marshaler a' => contradiction
    | plain _ _ r => rw [not_iface_of_ptr b] at r; cases r
    | ptrIface _ b' r => rw [b] at b'; cases b'; rw [d] at r; cases r
  | ptrKind a b c _ ih =>
    cases he' with
    | marshaler a' => contradiction
    | plain _ _ r => rw [not_iface_of_ptr b] at r; cases r
    | ptrKind _ b' _ x => rw [b] at b'; cases b'; exact ih x
    | ptrTyped _ b' _ _ s d => rw [b] at b'; cases b'; simp [s, d] at c
    | ptrIface _ b' r =>
      rw [b] at b'; cases b'
      rcases c with c | c
      · rw [not_iface_of_struct c] at r; cases r
      · rw [not_iface_of_direct c] at r; cases r
  | ptrTyped a b c d e f _ ih =>
    cases he' with
    | marshaler a' => contradiction
    | plain _ _ r => rw [not_iface_of_ptr b] at r; cases r
    | ptrKind _ b' c' => rw [b] at b'; cases b'; simp [e, f] at c'
    | ptrTyped _ b' _ _ _ _ x => rw [b] at b'; cases b'; exact ih x
    | ptrIface _ b' r => rw [b] at b'; cases b'; rw [d] at r; cases r
  | ptrIface a b c _ ih =>
    cases he' with
    | ptrIface _ b' _ x => exact ih x
    | bytesNil => simp [World.resolve] at b
    | bytes => simp [World.resolve] at b
    | marshaler a' => contradiction
    | plain _ _ r => rw [not_iface_of_ptr b] at r; cases r
    | ptrNil _ b' _ r => rw [b] at b'; cases b'; rw [c] at r; cases r
    | ptrKind _ b' r =>
      rw [b] at b'; cases b'
      rcases r with r | r
      · rw [not_iface_of_struct r] at c; cases c
      · rw [not_iface_of_direct r] at c; cases c
    | ptrTyped _ b' _ r => rw [b] at b'; cases b'; rw [c] at r; cases r
  | scalar a =>
    cases he' with
    | scalar b => rw [scalarDoc_det a b]
    | iface b _ => cases a <;> kill
    | _ => cases a
  | struct a b _ ih =>
    cases he' with
    | scalar b => cases b
    | struct a' b' x =>
      rw [a] at a'; cases a'
      cases written_det b b'
      exact arrPieces_congr (fun _ _ => rfl) fun i hi => by
        obtain ⟨w, hw⟩ := get_of_lt hi
        exact ih i w hw (x i w hw)
    | iface b _ => kill
  | array a b _ ih =>
    cases he' with
    | scalar b => cases b
    | array a' _ x =>
      rw [a] at a'; cases a'
      exact arrPieces_congr (fun _ _ => rfl) fun i hi => by
        obtain ⟨w, hw⟩ := get_of_lt hi
        exact ih i w hw (x i w hw)
    | iface b _ => kill
  | sliceNil a =>
    cases he' with
    | scalar b => cases b
    | sliceNil => rfl
    | iface b _ => kill
  | slice a b _ ih =>
    subst b
    cases he' with
    | scalar b => cases b
    | slice a' b' x =>
      rw [a] at a'; cases a'; subst b'
      exact arrPieces_congr (fun _ _ => rfl) fun i hi => by
        obtain ⟨w, hw⟩ := get_of_lt hi
        exact ih i w hw (x i w hw)
    | iface b _ => kill
  | mapNil a =>
    cases he' with
    | scalar b => cases b
    | mapNil => rfl
    | iface b _ => kill
  | map a b c _ ih =>
    subst b
    cases he' with
    | scalar b => cases b
    | map a' b' c' x =>
      rw [a] at a'; cases a'; subst b'
      exact arrPieces_congr (fun i hi => by
        obtain ⟨w, hw⟩ := get_of_lt hi
        exact keyDoc_det (c i w.1 w.2 hw) (c' i w.1 w.2 hw)) fun i hi => by
        obtain ⟨w, hw⟩ := get_of_lt hi
        exact ih i w.1 w.2 hw (x i w.1 w.2 hw)
    | iface b _ => kill
  | iface a _ ih =>
    cases he' with
    | iface _ x => exact ih x
    | scalar b => cases b <;> kill
    | _ => kill
  | heldNil a =>
    cases he' with
    | heldNil => rfl
    | heldScalar b => cases deref_det a b
    | heldTyped b => cases deref_det a b
    | heldSliceNil b => cases deref_det a b
    | heldSlice b => cases deref_det a b
    | heldMapNil b => cases deref_det a b
    | heldMap b => cases deref_det a b
  | heldScalar a s =>
    cases he' with
    | heldNil b => cases deref_det a b
    | heldScalar b s' => cases deref_det a b; rw [scalarDoc_det s s']
    | heldTyped b c =>
      cases deref_det a b
      rcases c with c | ⟨e, c, -⟩ <;> cases s <;> kill
    | heldSliceNil b => cases deref_det a b; cases s
    | heldSlice b => cases deref_det a b; cases s
    | heldMapNil b => cases deref_det a b; cases s
    | heldMap b => cases deref_det a b; cases s
  | heldTyped a c _ ih =>
    cases he' with
    | heldNil b => cases deref_det a b
    | heldScalar b s =>
      cases deref_det a b
      rcases c with c | ⟨e, c, -⟩ <;> cases s <;> kill
    | heldTyped b _ x => cases deref_det a b; exact ih x
    | heldSliceNil b r i =>
      cases deref_det a b
      rcases c with c | ⟨e, c, d⟩
      · kill
      · rw [c] at r; cases r; rw [d] at i; cases i
    | heldSlice b r i =>
      cases deref_det a b
      rcases c with c | ⟨e, c, d⟩
      · kill
      · rw [c] at r; cases r; rw [d] at i; cases i
    | heldMapNil b => cases deref_det a b; rcases c with c | ⟨e, c, d⟩ <;> kill
    | heldMap b => cases deref_det a b; rcases c with c | ⟨e, c, d⟩ <;> kill
  | heldSliceNil a r i =>
    cases he' with
    | heldNil b => cases deref_det a b
    | heldScalar b s => cases deref_det a b; cases s
    | heldTyped b c =>
      cases deref_det a b
      rcases c with c | ⟨e, c, d⟩
      · kill
      · rw [c] at r; cases r; rw [d] at i; cases i
    | heldSliceNil b => rfl
    | heldSlice b => cases deref_det a b
    | heldMapNil b => cases deref_det a b
    | heldMap b => cases deref_det a b
  | heldSlice a r i c _ ih =>
    subst c
    cases he' with
    | heldNil b => cases deref_det a b
    | heldScalar b s => cases deref_det a b; cases s
    | heldTyped b c =>
      cases deref_det a b
      rcases c with c | ⟨e, c, d⟩
      · kill
      · rw [c] at r; cases r; rw [d] at i; cases i
    | heldSliceNil b => cases deref_det a b
    | heldSlice b r' _ c' x =>
      cases deref_det a b
      rw [r] at r'; cases r'; subst c'
      exact arrPieces_congr (fun _ _ => rfl) fun i hi => by
        obtain ⟨w, hw⟩ := get_of_lt hi
        exact ih i w hw (x i w hw)
    | heldMapNil b => cases deref_det a b
    | heldMap b => cases deref_det a b
  | heldMapNil a r =>
    cases he' with
    | heldNil b => cases deref_det a b
    | heldScalar b s => cases deref_det a b; cases s
    | heldTyped b c => cases deref_det a b; rcases c with c | ⟨e, c, d⟩ <;> kill
    | heldSliceNil b => cases deref_det a b
    | heldSlice b => cases deref_det a b
    | heldMapNil b => rfl
    | heldMap b => cases deref_det a b
  | heldMap a r i c _ ih =>
    subst i
    cases he' with
    | heldNil b => cases deref_det a b
    | heldScalar b s => cases deref_det a b; cases s
    | heldTyped b c => cases deref_det a b; rcases c with c | ⟨e, c, d⟩ <;> kill
    | heldSliceNil b => cases deref_det a b
    | heldSlice b => cases deref_det a b
    | heldMapNil b => cases deref_det a b
    | heldMap b r' i' c' x =>
      cases deref_det a b
      rw [r] at r'; cases r'; subst i'
      exact arrPieces_congr (fun i hi => by
        obtain ⟨w, hw⟩ := get_of_lt hi
        exact keyDoc_det (c i w.1 w.2 hw) (c' i w.1 w.2 hw)) fun i hi => by
        obtain ⟨w, hw⟩ := get_of_lt hi
        exact ih i w.1 w.2 hw (x i w.1 w.2 hw)
  | fieldPlain a _ ih =>
    cases he' with
    | fieldPlain _ x => exact ih x
    | fieldPtrNil r => rw [not_iface_of_ptr r] at a; cases a
    | fieldPtr r => rw [not_iface_of_ptr r] at a; cases a
  | fieldPtrNil r =>
    cases he' with
    | fieldPlain a => rw [not_iface_of_ptr r] at a; cases a
    | fieldPtrNil => rfl
    | fieldStr a => rw [not_iface_of_ptr r] at a; cases a
  | fieldPtr r _ ih =>
    cases he' with
    | fieldPlain a => rw [not_iface_of_ptr r] at a; cases a
    | fieldPtr r' x => rw [r] at r'; cases r'; exact ih x
  | fieldStr a b =>
    cases he' with
    | fieldPtrNil r => rw [not_iface_of_ptr r] at a; cases a
    | fieldStr _ b' => rw [strField_det b b']
    | fieldStrPtr r => rw [not_iface_of_ptr r] at a; cases a
  | fieldStrPtr r b =>
    cases he' with
    | fieldStr a => rw [not_iface_of_ptr r] at a; cases a
    | fieldStrPtr r' b' => rw [r] at r'; cases r'; rw [strField_det b b']

/-- Filled with the results of given methods, pieces give one text. -/
theorem fills_det {cs : MarCalls} {ps : List Piece} {o o' : Bytes} (h1 : Fills M cs ps o) (h2 : Fills M cs ps o') : o = o' := by
  induction h1 generalizing o' with
  | nil => cases h2; rfl
  | text _ ih => cases h2 with | text x => rw [ih x]
  | call a _ ih =>
    cases h2 with
    | call b x => rw [a] at b; cases b; rw [ih x]

/-! ### Methods without state -/

/-- Without the calls. -/
def EHR.drop {α : Type} (r : EHR α) : ER α := (r.1.toCtx, r.2)

theorem drop_andThen {α β : Type} {R : EHR α} {r : ER α} {K : CtxH → α → EHR β} {k : Ctx → α → ER β} (h1 : EHR.drop R = r) (h2 : ∀ c a, EHR.drop (K c a) = k c.toCtx a) :
    EHR.drop (andThenH R K) = andThen r k := by
  subst h1
  obtain ⟨c, a⟩ := R
  cases a
  · exact h2 _ _
  all_goals rfl

theorem drop_checkRecursive {E : CtxH → Bytes → EHR Bytes} {e : Ctx → Bytes → ER Bytes} (he : ∀ c b, EHR.drop (E c b) = e c.toCtx b) {a : Nat} {c : CtxH} {b : Bytes} :
    EHR.drop (checkRecursiveH E a c b) = checkRecursive e a c.toCtx b := by
  unfold checkRecursiveH checkRecursive
  simp only []
  split
  · rfl
  · have := he { c with seen := if decide (c.depth + 1 > 1000) then a :: c.seen else c.seen, depth := c.depth + 1 } b
    simp only [] at this
    rw [← this]
    generalize E _ b = R
    obtain ⟨c', r⟩ := R
    cases r <;> rfl

theorem drop_reflectRecursive {E : CtxH → Bytes → EHR Bytes} {e : Ctx → Bytes → ER Bytes} (he : ∀ c b, EHR.drop (E c b) = e c.toCtx b) {a : Nat} {c : CtxH} {b : Bytes} :
    EHR.drop (reflectRecursiveH E a c b) = reflectRecursive e a c.toCtx b := by
  unfold reflectRecursiveH reflectRecursive
  split
  · rfl
  · have := he { c with seen := a :: c.seen } b
    simp only [] at this
    rw [← this]
    generalize E _ b = R
    obtain ⟨c', r⟩ := R
    cases r <;> rfl

theorem drop_elems {E : Nat → CtxH → Bytes → GV → EHR Bytes} {e : Nat → Ctx → Bytes → GV → ER Bytes} (he : ∀ i c b v, EHR.drop (E i c b v) = e i c.toCtx b v)
    {vs : List GV} {i : Nat} {c : CtxH} {b : Bytes} : EHR.drop (elemsLoopH E i vs c b) = elemsLoop e i vs c.toCtx b := by
  induction vs generalizing i c b with
  | nil => rfl
  | cons v vs ih => exact drop_andThen (he _ _ _ _) fun _ _ => ih

theorem drop_encodeElems {E : Nat → CtxH → Bytes → GV → EHR Bytes} {e : Nat → Ctx → Bytes → GV → ER Bytes} (he : ∀ i c b v, EHR.drop (E i c b v) = e i c.toCtx b v)
    {vs : List GV} {c : CtxH} {b : Bytes} : EHR.drop (encodeElemsH E vs c b) = encodeElems e vs c.toCtx b :=
  drop_andThen (drop_elems he) fun _ _ => rfl

theorem drop_entries {key : Bytes → GV → Res Bytes} {E : Nat → CtxH → Bytes → GV → EHR Bytes} {e : Nat → Ctx → Bytes → GV → ER Bytes}
    (he : ∀ i c b v, EHR.drop (E i c b v) = e i c.toCtx b v) {es : List (GV × GV)} {i : Nat} {c : CtxH} {b : Bytes} :
    EHR.drop (entriesLoopH key E i es c b) = entriesLoop key e i es c.toCtx b := by
  induction es generalizing i c b with
  | nil => rfl
  | cons q es ih =>
    obtain ⟨k, v⟩ := q
    exact drop_andThen rfl fun _ _ => drop_andThen (he _ _ _ _) fun _ _ => ih

theorem drop_encodeEntries {key : Bytes → GV → Res Bytes} {E : Nat → CtxH → Bytes → GV → EHR Bytes} {e : Nat → Ctx → Bytes → GV → ER Bytes}
    (he : ∀ i c b v, EHR.drop (E i c b v) = e i c.toCtx b v) {es : List (GV × GV)} {c : CtxH} {b : Bytes} :
    EHR.drop (encodeEntriesH key E es c b) = encodeEntries key e es c.toCtx b :=
  drop_andThen (drop_entries he) fun _ _ => rfl

theorem drop_ite {α : Type} {q : Prop} [Decidable q] {X Y : EHR α} {x y : ER α} (hx : EHR.drop X = x) (hy : EHR.drop Y = y) :
    EHR.drop (if q then X else Y) = if q then x else y := by
  split
  · exact hx
  · exact hy

theorem drop_checkStruct {e : Ty} {E : CtxH → Bytes → GV → EHR Bytes} {f : Ctx → Bytes → GV → ER Bytes} (he : ∀ c b v, EHR.drop (E c b v) = f c.toCtx b v)
    {c : CtxH} {b : Bytes} {v : GV} : EHR.drop (checkStructH h e E c b v) = checkStruct h e f c.toCtx b v := by
  cases v <;> try rfl
  rename_i a
  exact drop_checkRecursive (E := fun c b => E c b (h.deref e a)) (e := fun c b => f c b (h.deref e a)) fun _ _ => he _ _ _

theorem drop_deRefNil {e : Ty} {E : CtxH → Bytes → GV → EHR Bytes} {f : Ctx → Bytes → GV → ER Bytes} (he : ∀ c b v, EHR.drop (E c b v) = f c.toCtx b v)
    {c : CtxH} {b : Bytes} {v : GV} : EHR.drop (deRefNilH h e E c b v) = deRefNil h e f c.toCtx b v := by
  cases v <;> first | rfl | exact he _ _ _

theorem drop_fields {E : EField → CtxH → Bytes → GV → EHR Bytes} {e : EField → Ctx → Bytes → GV → ER Bytes} (he : ∀ i c b v, EHR.drop (E i c b v) = e i c.toCtx b v)
    {vs : List GV} {fls : List EField} {c : CtxH} {b : Bytes} {n : Nat} : EHR.drop (fieldsLoopH E vs fls c b n) = fieldsLoop e vs fls c.toCtx b n := by
  induction fls generalizing c b n with
  | nil => rfl
  | cons fl fls ih =>
    unfold fieldsLoopH fieldsLoop
    generalize vs[fl.idx]? = o
    cases o with
    | none => rfl
    | some v => exact drop_ite ih (drop_andThen (he _ _ _ _) fun _ _ => ih)

theorem drop_struct {E : EField → CtxH → Bytes → GV → EHR Bytes} {e : EField → Ctx → Bytes → GV → ER Bytes} (he : ∀ i c b v, EHR.drop (E i c b v) = e i c.toCtx b v)
    {nf : Nat} {fls : List EField} {c : CtxH} {b : Bytes} {v : GV} : EHR.drop (encodeStructH E nf fls c b v) = encodeStruct e nf fls c.toCtx b v := by
  cases v <;> try rfl
  exact drop_ite rfl (drop_andThen (drop_fields he) fun _ _ => rfl)

/-- One level of recursion does the same. -/
structure RecSame (R : RecH) (r : Rec) : Prop where
  comp : ∀ p t c b v, EHR.drop (R.comp p t c b v) = r.comp p t c.toCtx b v
  held : ∀ p t c b v, EHR.drop (R.held p t c b v) = r.held p t c.toCtx b v

theorem drop_field {f : Nat} {R : Ty → CtxH → Bytes → GV → EHR Bytes} {r : Ty → Ctx → Bytes → GV → ER Bytes} (hr : ∀ t c b v, EHR.drop (R t c b v) = r t c.toCtx b v)
    {fl : EField} {c : CtxH} {b : Bytes} {v : GV} : EHR.drop (encodeFieldH W h f R fl c b v) = encodeField W h f r fl c.toCtx b v := by
  unfold encodeFieldH encodeField
  generalize W.resolve fl.ty = q
  cases q
  case ptr e =>
    refine drop_ite (drop_checkStruct (hr e)) (drop_deRefNil ?_)
    intro c b v
    split
    · rfl
    · exact hr e c b v
  all_goals exact drop_ite rfl (hr _ _ _ _)

theorem drop_kind {f : Nat} {R : RecH} {r : Rec} (hr : RecSame R r) {p : Path} {t : Ty} {c : CtxH} {b : Bytes} {v : GV} :
    EHR.drop (encodeKindH W h f R p t c b v) = encodeKind W h f r p t c.toCtx b v := by
  unfold encodeKindH encodeKind
  generalize encodeScalar W t b v = o
  cases o with
  | some x => rfl
  | none =>
    generalize W.resolve t = q
    cases q
    case struct id =>
      dsimp only
      refine drop_struct (E := fun fl => encodeFieldH W h f (R.comp (fl.idx :: p)) fl) (e := fun fl => encodeField W h f (r.comp (fl.idx :: p)) fl) ?_
      exact fun fl c b v => drop_field (hr.comp _)
    case array n e =>
      cases v <;> try rfl
      exact drop_ite (drop_encodeElems fun i => hr.comp (i :: p) e) rfl
    case slice e =>
      cases v <;> try rfl
      exact drop_checkRecursive fun _ _ => drop_encodeElems fun i => hr.comp (i :: p) e
    case map k e =>
      cases v <;> try rfl
      exact drop_checkRecursive fun _ _ => drop_encodeEntries fun i => hr.comp (i :: p) e
    case any => exact hr.held _ _ _ _ _
    case iface => exact hr.held _ _ _ _ _
    all_goals rfl

theorem drop_slice {cf : Nat} {R : RecH} {r : Rec} (hr : RecSame R r) {p : Path} {t e : Ty} {c : CtxH} {b : Bytes} {v : GV} :
    EHR.drop (reflectSliceH W h cf R p t e v c b) = reflectSlice W h cf r p t e v c.toCtx b := by
  refine drop_ite (drop_andThen rfl fun _ _ => hr.comp _ _ _ _ _) ?_
  cases v <;> try rfl
  exact drop_encodeElems fun i => hr.held (i :: p) e

theorem drop_map {cf : Nat} {R : RecH} {r : Rec} (hr : RecSame R r) {p : Path} {k e : Ty} {c : CtxH} {b : Bytes} {v : GV} :
    EHR.drop (reflectMapH W h cf R p k e v c b) = reflectMap W h cf r p k e v c.toCtx b := by
  refine drop_ite rfl ?_
  cases v <;> try rfl
  exact drop_ite rfl (drop_ite (drop_encodeEntries fun i => hr.held (i :: p) e) (drop_andThen rfl fun _ _ => drop_encodeEntries fun i => hr.comp (i :: p) e))

theorem drop_value {cf f : Nat} {R : RecH} {r : Rec} (hr : RecSame R r) {p : Path} {t : Ty} {c : CtxH} {b : Bytes} {v : GV} :
    EHR.drop (reflectValueH W h cf f R p t c b v) = reflectValue W h cf f r p t c.toCtx b v := by
  refine drop_andThen rfl fun c o => ?_
  cases o with
  | none => rfl
  | some q =>
    obtain ⟨t, v⟩ := q
    dsimp only
    generalize encodeScalar W t b v = o
    cases o with
    | some x => rfl
    | none =>
      dsimp only
      generalize W.resolve t = q
      cases q
      case slice e => exact drop_reflectRecursive fun _ _ => drop_slice hr
      case map k e => exact drop_reflectRecursive fun _ _ => drop_map hr
      case struct id => exact drop_andThen rfl fun _ _ => hr.comp _ _ _ _ _
      all_goals rfl

theorem drop_hook (hn : NoState h M) {t : Ty} {v : GV} {c : CtxH} {b : Bytes} :
    EHR.drop (callHook M t v c b) = (c.toCtx, h.marshal t v >>= fun raw => .ok (b ++ raw)) := by
  rw [← hn c.calls t v]
  rfl

theorem drop_marshaler (hn : NoState h M) {t : Ty} {v : GV} {c : CtxH} {b : Bytes} :
    EHR.drop (callMarshalerH W M t c b v) = (c.toCtx, callMarshaler W h t b v) := by
  unfold callMarshalerH callMarshaler
  split
  · split
    · rename_i hm; simp [EHR.drop, hm]
    · rename_i hm; rw [drop_hook hn]; simp [hm]
  · simp [EHR.drop]
  · split
    · split
      · rename_i hm; simp [EHR.drop, hm]
      · rename_i hm; rw [drop_hook hn]; simp [hm]
    · rename_i hx
      rw [drop_hook hn]
      dsimp only
      split
      · rename_i e; cases e
      · rename_i e; cases e
      · rename_i e
        cases e
        split
        · exact (hx _ rfl rfl).elim
        · rfl
      · rename_i e _; exact (e _ _ rfl).elim
  · rename_i h2 h3 h1
    rw [drop_hook hn]
    dsimp only
    split
    · exact (h1 _ rfl rfl).elim
    · exact (h2 rfl).elim
    · exact (h3 _ _ rfl).elim
    · rfl

theorem drop_encF (hn : NoState h M) {cf : Nat} : ∀ f, RecSame (encFH W h M cf f) (encF W h cf f)
  | 0 => ⟨fun _ _ _ _ _ => rfl, fun _ _ _ _ _ => rfl⟩
  | f + 1 => by
    have hr := drop_encF hn (cf := cf) f
    refine ⟨fun p t c b v => ?_, fun p t c b v => drop_value hr⟩
    simp only [encFH, encF]
    refine drop_ite (drop_marshaler hn) (drop_ite rfl ?_)
    generalize W.resolve t = q
    cases q
    case ptr e =>
      dsimp only
      generalize W.resolve e = q
      cases q
      case uint k =>
        cases k <;> first
          | exact drop_deRefNil fun _ _ _ => drop_kind hr
          | exact drop_deRefNil (hr.comp p e)
      all_goals first
        | rfl
        | exact hr.held _ _ _ _ _
        | exact drop_checkStruct fun _ _ _ => drop_kind hr
        | exact drop_deRefNil fun _ _ _ => drop_kind hr
        | exact drop_deRefNil (hr.comp p e)
    all_goals exact drop_kind hr

theorem drop_marshal (hn : NoState h M) {cf f : Nat} {c : CtxH} {a : Option (Ty × GV)} : EHR.drop (marshalH W h M cf f c a) = marshal W h cf f c.toCtx a := by
  cases a with
  | none => rfl
  | some q =>
    obtain ⟨t, v⟩ := q
    exact drop_andThen rfl fun _ _ => (drop_encF hn f).comp _ _ _ _ _

end Verif

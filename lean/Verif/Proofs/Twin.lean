import Verif.Proofs.Overlay
/-
What a decoder returns does not depend on what its destination holds: two runs of every decoder function on the same input
with two destinations of the same type.
-/
set_option linter.unusedSimpArgs false
namespace Verif
open Spec

/-- The same outcome, and if it is a success then both destinations satisfy `T`. -/
def Twin {β : Type} (T : Val → Prop) (r r' : Val × Res β) : Prop := r.2 = r'.2 ∧ ∀ a, r.2 = .ok a → T r.1 ∧ T r'.1

section Combinators
variable {α β : Type} {T : Val → Prop} {v v' : Val}

theorem twin_ok {a : β} (h : T v) (h' : T v') : Twin T (v, .ok a) (v', .ok a) := ⟨rfl, fun _ _ => ⟨h, h'⟩⟩

theorem twin_err {e : Err} : Twin (β := β) T (v, .err e) (v', .err e) := ⟨rfl, fun _ h => nomatch h⟩

theorem twin_panic {p : Panic} : Twin (β := β) T (v, .panic p) (v', .panic p) := ⟨rfl, fun _ h => nomatch h⟩

theorem twin_diverge : Twin (β := β) T (v, .diverge) (v', .diverge) := ⟨rfl, fun _ h => nomatch h⟩

theorem twin_onOk {r : Res α} {k k' : α → Val × Res β} (h : ∀ x, r = .ok x → Twin T (k x) (k' x)) : Twin T (onOk v r k) (onOk v' r k') := by
  cases r with
  | ok a => exact h a rfl
  | err e => exact twin_err
  | panic p => exact twin_panic
  | diverge => exact twin_diverge

theorem twin_ite {c : Prop} [Decidable c] {x y x' y' : Val × Res β} (hx : c → Twin T x x') (hy : ¬ c → Twin T y y') :
    Twin T (if c then x else y) (if c then x' else y') := by
  split
  · exact hx ‹_›
  · exact hy ‹_›

theorem twin_wrap {E : Val → Prop} {r r' : Val × Res α} {w : Val → Val} (h : Twin E r r') (hw : ∀ x, E x → T (w x)) :
    Twin T (match r with | (x, s) => (w x, s)) (match r' with | (x, s) => (w x, s)) := by
  obtain ⟨x, s⟩ := r
  obtain ⟨x', s'⟩ := r'
  exact ⟨h.1, fun a ha => ⟨hw _ (h.2 a ha).1, hw _ (h.2 a ha).2⟩⟩

/-- One run is a twin of itself. -/
theorem twin_self {r : Val × Res β} (h : ∀ a, r.2 = .ok a → T r.1) : Twin T r r := ⟨rfl, fun a ha => ⟨h a ha, h a ha⟩⟩

theorem Twin.imp {E : Val → Prop} {r r' : Val × Res β} (h : Twin E r r') (hw : ∀ x, E x → T x) : Twin T r r' :=
  ⟨h.1, fun a ha => ⟨hw _ (h.2 a ha).1, hw _ (h.2 a ha).2⟩⟩

end Combinators

section Leaves
variable {W : World} {b : Bytes} {c depth : Nat} {rv rv' : Val}

/-- Nothing is asked of the destinations. -/
abbrev Anything : Val → Prop := fun _ => True

theorem processInt_twin {k : IKind} {s : Bytes} : Twin Anything (processInt k s c rv) (processInt k s c rv') := by
  unfold processInt
  split
  · exact twin_ite (fun _ => twin_err) fun _ => twin_ok trivial trivial
  · exact twin_err
  · exact twin_panic
  · exact twin_diverge

theorem intDecode_twin {k : IKind} : Twin Anything (intDecode k b c rv) (intDecode k b c rv') := by
  unfold intDecode
  refine twin_onOk ?_
  rintro ⟨ob, c'⟩ -
  cases ob with
  | none => exact twin_ok trivial trivial
  | some s => exact processInt_twin

theorem processUint_twin {k : UKind} {s : Bytes} : Twin Anything (processUint k s c rv) (processUint k s c rv') := by
  unfold processUint
  split
  · exact twin_err
  · exact twin_ite (fun _ => twin_err) fun _ => twin_ok trivial trivial

theorem uintDecode_twin {k : UKind} : Twin Anything (uintDecode k b c rv) (uintDecode k b c rv') := by
  unfold uintDecode
  refine twin_onOk ?_
  rintro ⟨ob, c'⟩ -
  cases ob with
  | none => exact twin_ok trivial trivial
  | some s => exact processUint_twin

theorem processFloat_twin {i : Bool} {s : Bytes} : Twin Anything (processFloat W i s c rv) (processFloat W i s c rv') := by
  unfold processFloat
  split
  · exact twin_err
  · exact twin_ite (fun _ => twin_ite (fun _ => twin_err) fun _ => twin_ok trivial trivial) fun _ => twin_ok trivial trivial

theorem floatDecode_twin {i : Bool} : Twin Anything (floatDecode W i b c rv) (floatDecode W i b c rv') := by
  unfold floatDecode
  refine twin_onOk ?_
  rintro ⟨ob, c'⟩ -
  cases ob with
  | none => exact twin_ok trivial trivial
  | some s => exact processFloat_twin

theorem boolDecode_twin : Twin Anything (boolDecode b c rv) (boolDecode b c rv') := by
  unfold boolDecode
  refine twin_ite (fun _ => twin_err) fun _ => twin_onOk fun _ _ => ?_
  refine twin_ite (fun _ => twin_onOk fun _ _ => twin_ok trivial trivial) fun _ => ?_
  exact twin_ite (fun _ => twin_onOk fun _ _ => twin_ok trivial trivial) fun _ => twin_err

theorem stringDecode_twin : Twin Anything (stringDecode b c rv) (stringDecode b c rv') := by
  unfold stringDecode
  refine twin_onOk ?_
  rintro ⟨ob, c'⟩ -
  cases ob with
  | none => exact twin_ok trivial trivial
  | some s => exact twin_ok trivial trivial

theorem decodeString_twin {t : Ty} {s : Bytes} : Twin Anything (decodeString W t s c rv) (decodeString W t s c rv') := by
  unfold decodeString
  cases W.resolve t with
  | bool => dsimp only; cases parseBool s with
    | none => exact twin_err
    | some v => exact twin_ok trivial trivial
  | f32 => exact processFloat_twin
  | f64 => exact processFloat_twin
  | uint k => exact processUint_twin
  | int k => exact processInt_twin
  | _ => exact twin_err

theorem wrappedDecode_twin {t : Ty} : Twin Anything (wrappedDecode W t b c rv) (wrappedDecode W t b c rv') := by
  unfold wrappedDecode
  refine twin_onOk ?_
  rintro ⟨ob, e⟩ -
  cases ob with
  | none => exact twin_ok trivial trivial
  | some s =>
    have h := decodeString_twin (W := W) (t := t) (s := s) (c := c) (rv := rv) (rv' := rv')
    dsimp only
    revert h
    rcases decodeString W t s c rv with ⟨x, r⟩
    rcases decodeString W t s c rv' with ⟨x', r'⟩
    rintro ⟨h1, -⟩
    cases h1
    exact twin_onOk fun _ _ => twin_ok trivial trivial

theorem sliceLoop_twin {dec : Nat → Val → DR} {z : Val} {es f : Nat} {sl : List Val} :
    Twin Anything (sliceLoop dec z es b f c sl rv) (sliceLoop dec z es b f c sl rv') := by
  induction f generalizing c sl rv rv' with
  | zero => exact twin_diverge
  | succ f ih =>
    unfold sliceLoop
    refine twin_ite (fun _ => twin_err) fun _ => twin_onOk ?_
    rintro ⟨i, c1⟩ -
    refine twin_ite (fun _ => twin_err) fun _ => ?_
    dsimp only
    refine twin_ite (fun _ => twin_panic) fun _ => ?_
    split
    · exact twin_panic
    · rcases dec c1 _ with ⟨v, r⟩
      refine twin_onOk fun c2 _ => ?_
      refine twin_ite (fun _ => twin_err) fun _ => twin_onOk fun _ _ => ?_
      exact twin_ite (fun _ => twin_ok trivial trivial) fun _ => ih

theorem sliceDecode_twin {dec : Nat → Nat → Val → DR} {z : Val} {es : Nat} :
    Twin Anything (sliceDecode dec z es b c depth rv) (sliceDecode dec z es b c depth rv') := by
  unfold sliceDecode
  refine twin_ite (fun _ => twin_err) fun _ => twin_ite (fun _ => twin_err) fun _ => twin_onOk fun _ _ => ?_
  refine twin_ite (fun _ => twin_onOk fun _ _ => twin_ok trivial trivial) fun _ => twin_ite (fun _ => ?_) fun _ =>
    twin_ite (fun _ => twin_err) fun _ => twin_err
  refine twin_ite (fun _ => twin_err) fun _ => twin_onOk fun _ _ => ?_
  refine twin_ite (fun _ => twin_err) fun _ => ?_
  refine twin_ite (fun _ => twin_err) fun _ => twin_onOk fun _ _ => ?_
  refine twin_ite (fun _ => twin_onOk fun _ _ => twin_ok trivial trivial) fun _ => twin_onOk ?_
  rintro ⟨n, c1⟩ -
  refine twin_ite (fun _ => twin_err) fun _ => twin_onOk fun _ _ => ?_
  exact twin_ite (fun _ => twin_err) fun _ => twin_ite (fun _ => twin_panic) fun _ => sliceLoop_twin

theorem bytesDecode_twin {dec : Nat → Nat → Val → DR} {z : Val} :
    Twin Anything (bytesDecode dec z b c depth rv) (bytesDecode dec z b c depth rv') := by
  unfold bytesDecode
  refine twin_onOk fun _ _ => twin_ite (fun _ => sliceDecode_twin) fun _ => twin_onOk ?_
  rintro ⟨ob, c1⟩ -
  cases ob with
  | none => exact twin_ok trivial trivial
  | some s => exact twin_ok trivial trivial

theorem arrayDecode_twin {dec : Nat → Nat → Val → DR} {z : Val} {n : Nat} :
    Twin Anything (arrayDecode dec z n b c depth rv) (arrayDecode dec z n b c depth rv') := by
  unfold arrayDecode
  refine twin_ite (fun _ => twin_err) fun _ => twin_ite (fun _ => twin_err) fun _ => twin_onOk fun _ _ => ?_
  refine twin_ite (fun _ => twin_onOk fun _ _ => twin_ok trivial trivial) fun _ => twin_ite (fun _ => ?_) fun _ => twin_err
  refine twin_ite (fun _ => twin_err) fun _ => twin_onOk fun _ _ => ?_
  refine twin_ite (fun _ => twin_err) fun _ => ?_
  refine twin_ite (fun _ => twin_err) fun _ => twin_onOk fun _ _ => ?_
  exact twin_self fun _ _ => trivial

/-- A map value that is nil or not. -/
def IsMap : Val → Prop
  | .mapNil => True
  | .map _ => True
  | _ => False

theorem mapLoop_twin {kd vd : Nat → DR} {f : Nat} {es es' : List (Val × Val)} :
    Twin IsMap (mapLoop kd vd b f c es) (mapLoop kd vd b f c es') := by
  induction f generalizing c es es' with
  | zero => exact twin_diverge
  | succ f ih =>
    unfold mapLoop
    refine twin_ite (fun _ => twin_err) fun _ => ?_
    rcases kd c with ⟨k, r⟩
    refine twin_onOk fun c1 _ => twin_ite (fun _ => twin_err) fun _ => ?_
    rcases vd c1 with ⟨v, r⟩
    refine twin_onOk fun c2 _ => twin_ite (fun _ => twin_panic) fun _ => twin_ite (fun _ => twin_err) fun _ => twin_onOk fun _ _ => ?_
    exact twin_ite (fun _ => twin_ok trivial trivial) fun _ => ih

theorem mapDecode_twin {kd vd : Nat → Nat → DR} (h : IsMap rv) (h' : IsMap rv') :
    Twin IsMap (mapDecode kd vd b c depth rv) (mapDecode kd vd b c depth rv') := by
  unfold mapDecode
  refine twin_ite (fun _ => twin_err) fun _ => twin_ite (fun _ => twin_err) fun _ => twin_onOk fun _ _ => ?_
  refine twin_ite (fun _ => twin_onOk fun _ _ => twin_ok trivial trivial) fun _ => twin_onOk fun _ _ => twin_onOk ?_
  rintro ⟨n, c1⟩ -
  refine twin_ite (fun _ => twin_err) fun _ => twin_onOk fun _ _ => ?_
  refine twin_ite (fun _ => twin_err) fun _ => ?_
  have key : ∀ {v}, IsMap v → ∃ es, mapEntries v = some es := by
    intro v hv
    cases v <;> first | exact ⟨_, rfl⟩ | exact hv.elim
  obtain ⟨es, he⟩ := key h
  obtain ⟨es', he'⟩ := key h'
  rw [he, he']
  dsimp only
  refine twin_ite (fun _ => twin_err) fun _ => twin_onOk fun _ _ => ?_
  exact twin_ite (fun _ => twin_ok trivial trivial) fun _ => mapLoop_twin

theorem anyDecode_twin {ad : Nat → Nat → DR} : Twin Anything (anyDecode W ad b c depth rv) (anyDecode W ad b c depth rv') := by
  unfold anyDecode
  refine twin_onOk fun _ _ => ?_
  refine twin_ite (fun _ => ?_) fun _ => twin_ite (fun _ => ?_) fun _ => twin_ite (fun _ => ?_) fun _ => twin_ite (fun _ => ?_) fun _ =>
    twin_ite (fun _ => ?_) fun _ => twin_ite (fun _ => ?_) fun _ => twin_ite (fun _ => ?_) fun _ => twin_err
  · rcases mapDecode _ ad b c depth .mapNil with ⟨v, r⟩; exact twin_onOk fun _ _ => twin_ok trivial trivial
  · rcases mapDecode _ ad b c depth .mapNil with ⟨v, r⟩; exact twin_onOk fun _ _ => twin_ok trivial trivial
  · rcases floatDecode W false b c (.f64 0) with ⟨v, r⟩; exact twin_onOk fun _ _ => twin_ok trivial trivial
  · exact twin_onOk fun _ _ => twin_ok trivial trivial
  · rcases intDecode .i64 b c (.int 0) with ⟨v, r⟩; exact twin_onOk fun _ _ => twin_ok trivial trivial
  · exact twin_onOk fun _ _ => twin_ok trivial trivial
  · exact twin_onOk fun _ _ => twin_ok trivial trivial

theorem unmarshalDecode_twin {id : Nat} : Twin Anything (unmarshalDecode W id b c depth rv) (unmarshalDecode W id b c depth rv') := by
  simp only [unmarshalDecode_eq]
  refine twin_onOk fun _ _ => twin_onOk fun _ _ => twin_ite (fun _ => twin_err) fun _ => twin_ite (fun _ => twin_err) fun _ =>
    twin_ite (fun _ => twin_err) fun _ => twin_ite (fun _ => twin_ok trivial trivial) fun _ => ?_
  exact twin_onOk fun _ _ => twin_ok trivial trivial

end Leaves

section InPlaceTypes
variable {W : World} {b : Bytes}

theorem ptrDecode_twin {t e : Ty} (hp : Plain W t (.ptr e)) {inner : Nat → Nat → Val → DR} (hz : Slot W e (W.zero e))
    (hi : ∀ c d v v', Slot W e v → Slot W e v' → Twin (Slot W e) (inner c d v) (inner c d v')) {c depth : Nat} {rv rv' : Val}
    (h : Slot W t rv) (h' : Slot W t rv') : Twin (Slot W t) (ptrDecode inner (W.zero e) b c depth rv) (ptrDecode inner (W.zero e) b c depth rv') := by
  have key : ∀ {v}, Slot W t v → v = .ptrNil ∨ ∃ x, v = .ptr x ∧ Slot W e x := by
    intro v hv
    cases hv with
    | unm h => rw [hp.1] at h; cases h
    | leaf h => exact absurd hp.2 (h e)
    | ptrNil => exact .inl rfl
    | ptr h hv => have := h.2; rw [hp.2] at this; cases this; exact .inr ⟨_, rfl, hv⟩
    | mapNil h => have := h.2; rw [hp.2] at this; cases this
    | map h => have := h.2; rw [hp.2] at this; cases this
    | struct h => have := h.2; rw [hp.2] at this; cases this
  unfold ptrDecode
  refine twin_onOk fun _ _ => twin_ite (fun _ => twin_onOk fun _ _ => twin_ok (.ptrNil hp) (.ptrNil hp)) fun _ => ?_
  rcases key h with rfl | ⟨x, rfl, hx⟩ <;> rcases key h' with rfl | ⟨x', rfl, hx'⟩
  · exact twin_wrap (hi _ _ _ _ hz hz) fun _ hv => .ptr hp hv
  · exact twin_wrap (hi _ _ _ _ hz hx') fun _ hv => .ptr hp hv
  · exact twin_wrap (hi _ _ _ _ hx hz) fun _ hv => .ptr hp hv
  · exact twin_wrap (hi _ _ _ _ hx hx') fun _ hv => .ptr hp hv

/-- A struct value with fields of the right shape. -/
def IsStruct (W : World) (id : Nat) (v : Val) : Prop := ∃ vs, v = .struct vs ∧ FieldShapes W id vs

theorem structLoop_twin (hz : ∀ t, Slot W t (W.zero t)) {id : Nat} {dec : FieldSet → Nat → Val → DR} {skip : Nat → Res Nat}
    (hdec : ∀ key i f c v v', FieldFor W id key i f → Slot W f.ty v → Slot W f.ty v' →
      Twin (Slot W f.ty) (dec (mkSet W i f) c v) (dec (mkSet W i f) c v')) {f c : Nat} {vs vs' : List Val}
    (hvs : FieldShapes W id vs) (hvs' : FieldShapes W id vs') :
    Twin (IsStruct W id) (structLoop (fieldSets W 0 (W.fields id)) dec skip b f c vs)
      (structLoop (fieldSets W 0 (W.fields id)) dec skip b f c vs') := by
  induction f generalizing c vs vs' with
  | zero => exact twin_diverge
  | succ f ih =>
    unfold structLoop
    refine twin_ite (fun _ => twin_err) fun _ => twin_onOk ?_
    rintro ⟨fld, cn⟩ hk
    simp only [decodeKey, Res.bind_eq_ok] at hk
    obtain ⟨⟨ob, cn'⟩, -, hk⟩ := hk
    cases hk
    refine twin_ite (fun _ => twin_err) fun _ => ?_
    have key : ∀ {vs1 vs1' : List Val} {r : Res Nat}, (∀ c, r = .ok c → FieldShapes W id vs1 ∧ FieldShapes W id vs1') →
        Twin (IsStruct W id) (onOk (.struct vs1) r fun c =>
          if !hasByte b c then (.struct vs1, .err (.unexpectedEnd "object" c)) else
          onOk (.struct vs1) (idx b c) fun b' =>
          if b' = cRBrace then (.struct vs1, .ok (c + 1)) else
          structLoop (fieldSets W 0 (W.fields id)) dec skip b f c vs1)
        (onOk (.struct vs1') r fun c =>
          if !hasByte b c then (.struct vs1', .err (.unexpectedEnd "object" c)) else
          onOk (.struct vs1') (idx b c) fun b' =>
          if b' = cRBrace then (.struct vs1', .ok (c + 1)) else
          structLoop (fieldSets W 0 (W.fields id)) dec skip b f c vs1') := by
      intro vs1 vs1' r hr
      refine twin_onOk fun c2 hc2 => ?_
      obtain ⟨h1, h2⟩ := hr _ hc2
      refine twin_ite (fun _ => twin_err) fun _ => twin_onOk fun _ _ => ?_
      exact twin_ite (fun _ => twin_ok ⟨_, rfl, h1⟩ ⟨_, rfl, h2⟩) fun _ => ih h1 h2
    dsimp only
    rcases hfind : (fieldSets W 0 (W.fields id)).find? (fun s => decide (s.key = ob.getD [])) with _ | fs
    · rw [hfind]
      exact key fun _ _ => ⟨hvs, hvs'⟩
    · obtain ⟨i, fd, hff, rfl⟩ := find_some hfind
      rw [hfind]
      dsimp only [mkSet]
      have hi : i < (W.fields id).length := (List.getElem?_eq_some_iff.1 hff.1).1
      have hl := hvs.1
      have hl' := hvs'.1
      have hv0 : vs[i]? = some vs[i] := List.getElem?_eq_getElem (by omega)
      have hv0' : vs'[i]? = some vs'[i] := List.getElem?_eq_getElem (by omega)
      rw [hv0, hv0']
      dsimp only
      have hg := hdec _ i fd cn' vs[i] vs'[i] hff (hvs.2 i fd _ hff.1 hv0) (hvs'.2 i fd _ hff.1 hv0')
      unfold mkSet at hg
      revert hg
      generalize dec _ cn' vs[i] = r
      generalize dec _ cn' vs'[i] = r'
      intro hg
      obtain ⟨v, r⟩ := r
      obtain ⟨v', r'⟩ := r'
      obtain ⟨h1, h2⟩ := hg
      cases h1
      exact key fun c hc => ⟨fieldShapes_set (K := fun _ => True) hz hvs hff.1 hv0 (.set (h2 c hc).1), fieldShapes_set (K := fun _ => True) hz hvs' hff.1 hv0' (.set (h2 c hc).2)⟩

theorem structDecode_twin (hz : ∀ t, Slot W t (W.zero t)) {id : Nat} {dec : FieldSet → Nat → Nat → Val → DR}
    (hdec : ∀ key i f c d v v', FieldFor W id key i f → Slot W f.ty v → Slot W f.ty v' →
      Twin (Slot W f.ty) (dec (mkSet W i f) c d v) (dec (mkSet W i f) c d v')) {c depth : Nat} {rv rv' : Val}
    (h : IsStruct W id rv) (h' : IsStruct W id rv') :
    Twin (IsStruct W id) (structDecode (fieldSets W 0 (W.fields id)) dec b c depth rv)
      (structDecode (fieldSets W 0 (W.fields id)) dec b c depth rv') := by
  unfold structDecode
  refine twin_ite (fun _ => twin_err) fun _ => twin_ite (fun _ => twin_err) fun _ => twin_onOk fun _ _ => ?_
  refine twin_ite (fun _ => twin_onOk fun _ _ => twin_ok h h') fun _ => twin_onOk fun _ _ => ?_
  refine twin_ite (fun _ => twin_err) fun _ => twin_onOk fun _ _ => ?_
  refine twin_ite (fun _ => twin_err) fun _ => twin_onOk fun _ _ => ?_
  refine twin_ite (fun _ => twin_err) fun _ => twin_onOk fun _ _ => ?_
  refine twin_ite (fun _ => twin_err) fun _ => ?_
  refine twin_ite (fun _ => twin_err) fun _ => twin_onOk fun _ _ => ?_
  refine twin_ite (fun _ => twin_ok h h') fun _ => ?_
  obtain ⟨vs, rfl, hvs⟩ := h
  obtain ⟨vs', rfl, hvs'⟩ := h'
  exact structLoop_twin hz (fun key i f c v v' => hdec key i f c _ v v') hvs hvs'

theorem slot_leaf {t : Ty} (h1 : ∀ e, W.resolve t ≠ .ptr e) (h2 : ∀ k e, W.resolve t ≠ .map k e) (h3 : ∀ id, W.resolve t ≠ .struct id) :
    ∀ x, Anything x → Slot W t x := fun _ _ => .leaf h1 h2 h3

theorem fieldDecode_twin {rec : Ty → Nat → Nat → Val → DR} (hz : ∀ t, Slot W t (W.zero t)) {s : FieldSet} {c depth : Nat} {rv rv' : Val}
    (hu : s.str = true → W.unmOf s.ty = none)
    (hrec : Twin (Slot W s.ty) (rec s.ty c depth rv) (rec s.ty c depth rv')) (h : Slot W s.ty rv) (h' : Slot W s.ty rv') :
    Twin (Slot W s.ty) (fieldDecode W rec b s c depth rv) (fieldDecode W rec b s c depth rv') := by
  unfold fieldDecode
  refine twin_ite (fun hs => ?_) fun _ => hrec
  have hw : ∀ {e : Ty}, wrappable W e = true → ∀ x, Anything x → Slot W e x := by
    intro e he
    unfold wrappable at he
    revert he
    cases hue : W.unmOf e with
    | some id => exact fun _ x _ => .unm hue
    | none =>
      cases hr : W.resolve e with
      | bool => exact fun _ => slot_leaf (by simp [hr]) (by simp [hr]) (by simp [hr])
      | int k => exact fun _ => slot_leaf (by simp [hr]) (by simp [hr]) (by simp [hr])
      | uint k => exact fun _ => slot_leaf (by simp [hr]) (by simp [hr]) (by simp [hr])
      | f32 => exact fun _ => slot_leaf (by simp [hr]) (by simp [hr]) (by simp [hr])
      | f64 => exact fun _ => slot_leaf (by simp [hr]) (by simp [hr]) (by simp [hr])
      | _ => intro h; cases h
  have hdirect : Twin (Slot W s.ty) (if wrappable W s.ty then wrappedDecode W s.ty b c rv else (rv, .err (.unsupported "string option")))
      (if wrappable W s.ty then wrappedDecode W s.ty b c rv' else (rv', .err (.unsupported "string option"))) :=
    twin_ite (fun hwr => wrappedDecode_twin.imp (hw hwr)) fun _ => twin_err
  cases hr : W.resolve s.ty with
  | ptr e =>
    refine twin_ite (fun hwr => ?_) fun _ => twin_err
    exact ptrDecode_twin (inner := fun c _ v => wrappedDecode W e b c v) ⟨hu hs, hr⟩ (hz e) (fun _ _ _ _ _ _ => wrappedDecode_twin.imp (hw hwr)) h h'
  | _ => exact hdirect

theorem isStruct_of_slot {t : Ty} {id : Nat} (hp : Plain W t (.struct id)) {v : Val} (h : Slot W t v) : IsStruct W id v := by
  cases h with
  | unm h => rw [hp.1] at h; cases h
  | leaf _ _ h => exact absurd hp.2 (h id)
  | struct h h1 h2 => have := h.2; rw [hp.2] at this; cases this; exact ⟨_, rfl, h1, h2⟩
  | ptrNil h => have := h.2; rw [hp.2] at this; cases this
  | ptr h => have := h.2; rw [hp.2] at this; cases this
  | mapNil h => have := h.2; rw [hp.2] at this; cases this
  | map h => have := h.2; rw [hp.2] at this; cases this

theorem isMap_of_slot {t k e : Ty} (hp : Plain W t (.map k e)) {v : Val} (h : Slot W t v) : IsMap v := by
  cases h with
  | unm h => rw [hp.1] at h; cases h
  | leaf _ h _ => exact absurd hp.2 (h k e)
  | struct h => have := h.2; rw [hp.2] at this; cases this
  | ptrNil h => have := h.2; rw [hp.2] at this; cases this
  | ptr h => have := h.2; rw [hp.2] at this; cases this
  | mapNil h => trivial
  | map h => trivial

theorem decodeNonPtr_twin (hz : ∀ t, Slot W t (W.zero t)) {rec : Ty → Nat → Nat → Val → DR} {t : Ty}
    (hi : ∀ t' i, InPlace W t t' → ¬ Plain W t' (.iface i))
    (hrec : ∀ t' c d v v', (∀ u i, InPlace W t' u → ¬ Plain W u (.iface i)) → Slot W t' v → Slot W t' v' → Twin (Slot W t') (rec t' c d v) (rec t' c d v'))
    {c depth : Nat} {rv rv' : Val} (h : Slot W t rv) (h' : Slot W t rv') :
    Twin (Slot W t) (decodeNonPtr W rec b t c depth rv) (decodeNonPtr W rec b t c depth rv') := by
  unfold decodeNonPtr
  cases hu : W.unmOf t with
  | some id => exact unmarshalDecode_twin.imp fun _ _ => .unm hu
  | none =>
    cases hr : W.resolve t with
    | bool => exact boolDecode_twin.imp (slot_leaf (by simp [hr]) (by simp [hr]) (by simp [hr]))
    | int k => exact intDecode_twin.imp (slot_leaf (by simp [hr]) (by simp [hr]) (by simp [hr]))
    | uint k => exact uintDecode_twin.imp (slot_leaf (by simp [hr]) (by simp [hr]) (by simp [hr]))
    | f32 => exact floatDecode_twin.imp (slot_leaf (by simp [hr]) (by simp [hr]) (by simp [hr]))
    | f64 => exact floatDecode_twin.imp (slot_leaf (by simp [hr]) (by simp [hr]) (by simp [hr]))
    | str => exact stringDecode_twin.imp (slot_leaf (by simp [hr]) (by simp [hr]) (by simp [hr]))
    | slice e =>
      refine twin_ite (fun _ => ?_) fun _ => ?_
      · exact bytesDecode_twin.imp (slot_leaf (by simp [hr]) (by simp [hr]) (by simp [hr]))
      · exact sliceDecode_twin.imp (slot_leaf (by simp [hr]) (by simp [hr]) (by simp [hr]))
    | array n e => exact arrayDecode_twin.imp (slot_leaf (by simp [hr]) (by simp [hr]) (by simp [hr]))
    | map k v =>
      refine (mapDecode_twin (isMap_of_slot ⟨hu, hr⟩ h) (isMap_of_slot ⟨hu, hr⟩ h')).imp fun x hx => ?_
      cases x <;> first | exact hx.elim | exact .mapNil ⟨hu, hr⟩ | exact .map ⟨hu, hr⟩
    | struct id =>
      refine (structDecode_twin hz ?_ (isStruct_of_slot ⟨hu, hr⟩ h) (isStruct_of_slot ⟨hu, hr⟩ h')).imp ?_
      · intro key i f c d v v' hff hv hv'
        refine fieldDecode_twin hz (s := mkSet W i f) ?_ (hrec _ _ _ _ _ ?_ hv hv') hv hv'
        · intro hs
          simp only [mkSet, Bool.and_eq_true, stringTagOk] at hs
          cases hf : W.unmOf f.ty with
          | none => exact hf
          | some _ => rw [hf] at hs; simp at hs
        · intro u j hu'
          exact hi u j ((InPlace.refl.field ⟨hu, hr⟩ (List.mem_of_getElem? hff.1) hff.2.1).trans hu')
      · rintro _ ⟨vs, rfl, hvs⟩
        exact .struct ⟨hu, hr⟩ hvs.1 hvs.2
    | any => exact anyDecode_twin.imp (slot_leaf (by simp [hr]) (by simp [hr]) (by simp [hr]))
    | iface i => exact absurd ⟨hu, hr⟩ (hi t i .refl)
    | other => exact twin_err
    | ptr e => exact twin_err
    | named i => exact twin_err

theorem decodeF_twin (hz : ∀ t, Slot W t (W.zero t)) {f : Nat} {t : Ty} (hi : ∀ t' i, InPlace W t t' → ¬ Plain W t' (.iface i))
    {c depth : Nat} {rv rv' : Val} (h : Slot W t rv) (h' : Slot W t rv') :
    Twin (Slot W t) (decodeF W b f t c depth rv) (decodeF W b f t c depth rv') := by
  induction f generalizing t c depth rv rv' with
  | zero => exact twin_diverge
  | succ f ih =>
    unfold decodeF
    have hnp : ∀ (t : Ty) (c d : Nat) (v v' : Val), (∀ u i, InPlace W t u → ¬ Plain W u (.iface i)) → Slot W t v → Slot W t v' →
        Twin (Slot W t) (decodeNonPtr W (decodeF W b f) b t c d v) (decodeNonPtr W (decodeF W b f) b t c d v') := by
      intro t c d v v' hi hv hv'
      exact decodeNonPtr_twin (rec := decodeF W b f) hz hi (fun _ _ _ _ _ hi hv hv' => ih hi hv hv') hv hv'
    cases hu : W.unmOf t with
    | some id => exact hnp _ _ _ _ _ hi h h'
    | none =>
      cases hr : W.resolve t with
      | ptr e =>
        refine twin_ite (fun _ => twin_err) fun _ => ?_
        exact ptrDecode_twin (inner := decodeNonPtr W (decodeF W b f) b e) ⟨hu, hr⟩ (hz e) (fun _ _ _ _ hv hv' => hnp _ _ _ _ _ (fun u i hu' => hi u i ((InPlace.refl.ptr ⟨hu, hr⟩).trans hu')) hv hv') h h'
      | _ => exact hnp _ _ _ _ _ hi h h'

end InPlaceTypes

end Verif

import Verif.Model.DecObj
import Verif.Spec.Names
/-
The functions of the decoder treat errors alike that differ in the names they carry.
-/
namespace Verif
open Spec

def AlikeR {α : Type} (x y : Res α) : Prop := x.mapErr plainErr = y.mapErr plainErr

theorem AlikeR.refl {α : Type} (x : Res α) : AlikeR x x := rfl
theorem SameRun.refl {α β : Type} (x : α × Res β) : SameRun x x := ⟨rfl, rfl⟩
theorem SameRun.of_eq {α β : Type} {x y : α × Res β} (h : x = y) : SameRun x y := h ▸ SameRun.refl x

theorem plain_blame (n : Names) (t : Option Ty) (e : Err) : plainErr (blame n t e) = plainErr e := by
  cases e with
  | typeError w o b => cases b <;> rfl
  | _ => rfl

theorem plain_annotateNames (n : Names) (e : Err) : plainErr (annotateNames n e) = plainErr e := by
  cases e <;> rfl

theorem alikeR_mapErr {α : Type} {g : Err → Err} (hg : ∀ e, plainErr (g e) = plainErr e) (x : Res α) : AlikeR (x.mapErr g) x := by
  cases x with
  | err e => simp only [AlikeR, Res.mapErr, hg]
  | _ => rfl

theorem alike_blamed (n : Names) (t : Ty) {x y : DR} (h : SameRun x y) : SameRun (blamed n t x) y := by
  refine ⟨h.1, ?_⟩
  rw [← h.2]
  exact alikeR_mapErr (plain_blame n (some t)) x.2

theorem alikeR_cases {α : Type} {x y : Res α} (h : AlikeR x y) :
    (∃ a, x = .ok a ∧ y = .ok a) ∨ (∃ e e', x = .err e ∧ y = .err e' ∧ plainErr e = plainErr e') ∨ (∃ p, x = .panic p ∧ y = .panic p) ∨
    (x = .diverge ∧ y = .diverge) := by
  unfold AlikeR at h
  cases x <;> cases y <;> simp_all [Res.mapErr]

theorem onOk_alike {α β : Type} {rv : Val} {r r' : Res α} {k k' : α → Val × Res β} (h : AlikeR r r') (hk : ∀ a, SameRun (k a) (k' a)) :
    SameRun (onOk rv r k) (onOk rv r' k') := by
  rcases alikeR_cases h with ⟨a, rfl, rfl⟩ | ⟨e, e', rfl, rfl, he⟩ | ⟨p, rfl, rfl⟩ | ⟨rfl, rfl⟩
  · exact hk a
  · refine ⟨rfl, ?_⟩
    simp only [onOk, Res.mapErr, he]
  · exact SameRun.refl _
  · exact SameRun.refl _

theorem onOk_same {α β : Type} {rv : Val} {r : Res α} {k k' : α → Val × Res β} (hk : ∀ a, SameRun (k a) (k' a)) : SameRun (onOk rv r k) (onOk rv r k') :=
  onOk_alike (.refl r) hk

theorem ite_alike {α β : Type} {p : Prop} [Decidable p] {x x' y y' : α × Res β} (h1 : SameRun x x') (h2 : SameRun y y') :
    SameRun (if p then x else y) (if p then x' else y') := by
  split
  · exact h1
  · exact h2

theorem sliceLoop_alike {dec dec' : Nat → Val → DR} (h : ∀ c v, SameRun (dec c v) (dec' c v)) {z : Val} {es : Nat} {buf : Bytes} :
    ∀ f c sl rv, SameRun (sliceLoop dec z es buf f c sl rv) (sliceLoop dec' z es buf f c sl rv) := by
  intro f
  induction f with
  | zero => intro c sl rv; exact SameRun.refl _
  | succ f ih =>
    intro c sl rv
    unfold sliceLoop
    refine ite_alike (SameRun.refl _) (onOk_same ?_)
    rintro ⟨i, c1⟩
    refine ite_alike (SameRun.refl _) ?_
    dsimp only
    refine ite_alike (SameRun.refl _) ?_
    generalize (if decide (i ≥ sl.length) = true then sl ++ List.replicate (i + 1 - sl.length) z else sl) = sl'
    cases sl'[i]? with
    | none => exact SameRun.refl _
    | some v0 =>
      dsimp only
      rw [(h c1 v0).1]
      refine onOk_alike (h c1 v0).2 fun c2 => ?_
      refine ite_alike (SameRun.refl _) (onOk_same fun b => ?_)
      exact ite_alike (SameRun.refl _) (ih _ _ _)

theorem sliceDecode_alike {dec dec' : Nat → Nat → Val → DR} (h : ∀ c d v, SameRun (dec c d v) (dec' c d v)) {z : Val} {es : Nat} {buf : Bytes} (c depth : Nat)
    (rv : Val) : SameRun (sliceDecode dec z es buf c depth rv) (sliceDecode dec' z es buf c depth rv) := by
  unfold sliceDecode
  dsimp only
  refine ite_alike (SameRun.refl _) (ite_alike (SameRun.refl _) (onOk_same fun b => ite_alike (SameRun.refl _) (ite_alike ?_ (SameRun.refl _))))
  refine ite_alike (SameRun.refl _) (onOk_same fun b => ite_alike (SameRun.refl _) (ite_alike (SameRun.refl _) (onOk_same fun b => ite_alike (SameRun.refl _) ?_)))
  refine onOk_same fun p => ?_
  refine ite_alike (SameRun.refl _) (onOk_same fun b => ite_alike (SameRun.refl _) (ite_alike (SameRun.refl _) ?_))
  exact sliceLoop_alike (fun c v => h c _ v) _ _ _ _

theorem arrayLoop_alike {dec dec' : Nat → Val → DR} (h : ∀ c v, SameRun (dec c v) (dec' c v)) {skip : Nat → Res Nat} {buf : Bytes} :
    ∀ f c vs, SameRun (arrayLoop dec skip buf f c vs) (arrayLoop dec' skip buf f c vs) := by
  intro f
  induction f with
  | zero => intro c vs; exact SameRun.refl _
  | succ f ih =>
    intro c vs
    unfold arrayLoop
    refine ite_alike (SameRun.refl _) (onOk_same ?_)
    rintro ⟨i, c1⟩
    refine ite_alike (SameRun.refl _) ?_
    have key : ∀ (vs : List Val) (r r' : Res Nat), AlikeR r r' → SameRun
        (onOk (.arr vs) r fun c =>
          if !hasByte buf c then (.arr vs, .err (.unexpectedEnd "array" c)) else
          onOk (.arr vs) (idx buf c) fun b =>
          if b = cRBrace then (.arr vs, .ok (c + 1)) else
          arrayLoop dec skip buf f c vs)
        (onOk (.arr vs) r' fun c =>
          if !hasByte buf c then (.arr vs, .err (.unexpectedEnd "array" c)) else
          onOk (.arr vs) (idx buf c) fun b =>
          if b = cRBrace then (.arr vs, .ok (c + 1)) else
          arrayLoop dec' skip buf f c vs) := by
      intro vs r r' hr
      exact onOk_alike hr fun c2 => ite_alike (SameRun.refl _) (onOk_same fun b => ite_alike (SameRun.refl _) (ih _ _))
    cases vs[i]? with
    | none => exact key vs _ _ (.refl _)
    | some v0 =>
      dsimp only
      have h1 := (h c1 v0).1
      have h2 := (h c1 v0).2
      rw [h1]
      exact key _ _ _ h2

theorem arrayDecode_alike {dec dec' : Nat → Nat → Val → DR} (h : ∀ c d v, SameRun (dec c d v) (dec' c d v)) {z : Val} {l : Nat} {buf : Bytes} (c depth : Nat)
    (rv : Val) : SameRun (arrayDecode dec z l buf c depth rv) (arrayDecode dec' z l buf c depth rv) := by
  unfold arrayDecode
  dsimp only
  refine ite_alike (SameRun.refl _) (ite_alike (SameRun.refl _) (onOk_same fun b => ite_alike (SameRun.refl _) (ite_alike ?_ (SameRun.refl _))))
  refine ite_alike (SameRun.refl _) (onOk_same fun b => ite_alike (SameRun.refl _) (ite_alike (SameRun.refl _) (onOk_same fun b => ite_alike (SameRun.refl _) ?_)))
  refine onOk_same fun p => ?_
  refine ite_alike (SameRun.refl _) (onOk_same fun b => ite_alike (SameRun.refl _) ?_)
  exact arrayLoop_alike (fun c v => h c _ v) _ _ _

theorem mapLoop_alike {kd kd' vd vd' : Nat → DR} (hk : ∀ c, SameRun (kd c) (kd' c)) (hv : ∀ c, SameRun (vd c) (vd' c)) {buf : Bytes} :
    ∀ f c es, SameRun (mapLoop kd vd buf f c es) (mapLoop kd' vd' buf f c es) := by
  intro f
  induction f with
  | zero => intro c es; exact SameRun.refl _
  | succ f ih =>
    intro c es
    unfold mapLoop
    refine ite_alike (SameRun.refl _) ?_
    dsimp only
    rw [(hk c).1]
    refine onOk_alike (hk c).2 fun c1 => ite_alike (SameRun.refl _) ?_
    rw [(hv c1).1]
    refine onOk_alike (hv c1).2 fun c2 => ite_alike (SameRun.refl _) ?_
    exact ite_alike (SameRun.refl _) (onOk_same fun b => ite_alike (SameRun.refl _) (ih _ _))

theorem mapDecode_alike {kd kd' vd vd' : Nat → Nat → DR} (hk : ∀ c d, SameRun (kd c d) (kd' c d)) (hv : ∀ c d, SameRun (vd c d) (vd' c d)) {buf : Bytes}
    (c depth : Nat) (rv : Val) : SameRun (mapDecode kd vd buf c depth rv) (mapDecode kd' vd' buf c depth rv) := by
  unfold mapDecode
  dsimp only
  refine ite_alike (SameRun.refl _) (ite_alike (SameRun.refl _) (onOk_same fun b => ite_alike (SameRun.refl _) (onOk_same fun c1 => onOk_same fun p => ?_)))
  refine ite_alike (SameRun.refl _) (onOk_same fun b => ite_alike (SameRun.refl _) ?_)
  cases mapEntries rv with
  | none => exact SameRun.refl _
  | some es =>
    exact ite_alike (SameRun.refl _) (onOk_same fun b => ite_alike (SameRun.refl _) (mapLoop_alike (fun c => hk c _) (fun c => hv c _) _ _ _))

theorem ptrDecode_alike {inner inner' : Nat → Nat → Val → DR} (h : ∀ c d v, SameRun (inner c d v) (inner' c d v)) {z : Val} {buf : Bytes} (c depth : Nat)
    (rv : Val) : SameRun (ptrDecode inner z buf c depth rv) (ptrDecode inner' z buf c depth rv) := by
  unfold ptrDecode
  refine onOk_same fun b => ite_alike (SameRun.refl _) ?_
  cases rv with
  | ptrNil => exact ⟨congrArg Val.ptr (h c depth z).1, (h c depth z).2⟩
  | ptr v0 => exact ⟨congrArg Val.ptr (h c depth v0).1, (h c depth v0).2⟩
  | _ => exact SameRun.refl _

theorem ptrKeyDecode_alike {x y : DR} (h : SameRun x y) {buf : Bytes} (c : Nat) : SameRun (ptrKeyDecode x buf c) (ptrKeyDecode y buf c) := by
  unfold ptrKeyDecode
  exact onOk_same fun b => ite_alike (SameRun.refl _) (onOk_alike h.2 fun _ => SameRun.refl _)

theorem runInt_alike {k : IKind} {t : Ty} {n : Names} {buf : Bytes} (c : Nat) (rv : Val) : SameRun (runInt k t n buf c rv) (intDecode k buf c rv) :=
  alike_blamed _ _ (SameRun.refl _)
theorem runUint_alike {k : UKind} {t : Ty} {buf : Bytes} (c : Nat) (rv : Val) : SameRun (runUint k t buf c rv) (uintDecode k buf c rv) :=
  alike_blamed _ _ (SameRun.refl _)
theorem runStr_alike {n : Names} {buf : Bytes} (c : Nat) (rv : Val) : SameRun (runStr n buf c rv) (stringDecode buf c rv) :=
  alike_blamed _ _ (SameRun.refl _)

theorem runUnm_alike {W : World} {id : Nat} {n : Names} {buf : Bytes} (c depth : Nat) (rv : Val) :
    SameRun (runUnm W id n buf c depth rv) (unmarshalDecode W id buf c depth rv) := by
  unfold runUnm unmarshalDecode
  refine onOk_same fun e => onOk_same fun src => ?_
  dsimp only
  refine ite_alike ⟨rfl, rfl⟩ (ite_alike ⟨rfl, rfl⟩ (ite_alike ⟨rfl, rfl⟩ (ite_alike (SameRun.refl _) (onOk_same fun o => onOk_alike ?_ fun _ => SameRun.refl _))))
  cases W.unmarshal id (o.getD src) with
  | err e => simp only [AlikeR, Res.mapErr, plain_annotateNames]
  | _ => rfl

theorem runBytes_alike {dec dec' : Nat → Nat → Val → DR} (h : ∀ c d v, SameRun (dec c d v) (dec' c d v)) {t : Ty} {z : Val} {n : Names} {buf : Bytes}
    (c depth : Nat) (rv : Val) : SameRun (runBytes dec t z n buf c depth rv) (bytesDecode dec' z buf c depth rv) := by
  unfold runBytes bytesDecode
  refine onOk_same fun b => ite_alike (alike_blamed _ _ (sliceDecode_alike h _ _ _)) ?_
  refine onOk_alike (alikeR_mapErr (plain_blame _ _) _) ?_
  rintro ⟨ob, e⟩
  exact SameRun.refl _

/-- What is done with the result of a nested call. -/
theorem on_alike {x y : DR} {rv : Val} {g : Val → Val} (h : SameRun x y) :
    SameRun (match x with | (v, r) => onOk rv r fun c => (g v, Res.ok c) : DR) (match y with | (v, r) => onOk rv r fun c => (g v, Res.ok c) : DR) := by
  obtain ⟨v, r⟩ := x
  obtain ⟨v', r'⟩ := y
  have : v = v' := h.1
  subst this
  exact onOk_alike h.2 fun _ => SameRun.refl _

theorem runAnyKey_alike {n : Names} {buf : Bytes} (c : Nat) : SameRun (runAnyKey n buf c) (anyKeyDecode buf c) := by
  unfold runAnyKey anyKeyDecode
  refine onOk_same fun b => ite_alike ?_ (ite_alike ?_ (SameRun.refl _))
  · exact on_alike (runStr_alike c _)
  · exact on_alike (runInt_alike c _)

theorem runAny_alike {W : World} {n : Names} {anyDec anyDec' : Nat → Nat → DR} (h : ∀ c d, SameRun (anyDec c d) (anyDec' c d)) {buf : Bytes} (c depth : Nat)
    (rv : Val) : SameRun (runAny W n anyDec buf c depth rv) (anyDecode W anyDec' buf c depth rv) := by
  unfold runAny anyDecode
  refine onOk_same fun b => ite_alike ?_ (ite_alike ?_ (ite_alike (SameRun.refl _) (ite_alike (SameRun.refl _) (ite_alike ?_ (SameRun.refl _)))))
  · exact on_alike (mapDecode_alike (fun c _ => runStr_alike c _) h _ _ _)
  · exact on_alike (mapDecode_alike (fun c _ => runAnyKey_alike c) h _ _ _)
  · exact on_alike (runInt_alike c _)

theorem runIface_alike {W : World} {t : Ty} {n : Names} {buf : Bytes} (c depth : Nat) (rv : Val) :
    SameRun (runIface W t n buf c depth rv) (ifaceDecode W buf c depth rv) := by
  have plain : SameRun (onOk rv (idx buf c) fun b =>
      if b = cN then onOk rv (validateNull buf c) fun _ => (.ifaceNil, .ok (c + 2))
      else (rv, .err (.typeError "interface" c (some ⟨n, some t⟩))) : DR)
      (onOk rv (idx buf c) fun b =>
      if b = cN then onOk rv (validateNull buf c) fun _ => (.ifaceNil, .ok (c + 2))
      else (rv, .err (.typeError "interface" c))) := onOk_same fun b => ite_alike (SameRun.refl _) ⟨rfl, rfl⟩
  cases rv with
  | iface dt v =>
    simp only [runIface, ifaceDecode]
    by_cases hd : W.dynUnm dt = true
    · simp only [hd, if_true]
      exact ⟨rfl, alikeR_mapErr (plain_blame _ _) _⟩
    · simp only [hd]
      exact plain
  | _ => exact plain

end Verif

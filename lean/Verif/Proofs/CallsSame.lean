import Verif.Spec.Calls
import Verif.Proofs.Docs
/-
The decoder with its calls recorded (Model/Calls.lean) does what the decoder of Model/Decode.lean does, where methods do not depend on earlier calls.
-/
set_option linter.unusedSimpArgs false
namespace Verif
open Spec

/-- The same destination and outcome, and the calls before and after are related by `P`. -/
def Ag (P : Calls → Calls → Prop) (h : Calls) (R : HR) (r : DR) : Prop := R.2 = r ∧ P h R.1

section
variable {P : Calls → Calls → Prop} (hr : ∀ h, P h h) (ht : ∀ a b c, P a b → P b c → P a c)
include hr

theorem ag_here {h : Calls} {v : Val} {r : Res Nat} : Ag P h (h, v, r) (v, r) := ⟨rfl, hr _⟩

theorem ag_lift {h : Calls} {r : DR} : Ag P h (h, r) r := ⟨rfl, hr _⟩

theorem ag_onOk {α : Type} {h : Calls} {rv : Val} {r : Res α} {k : α → HR} {k' : α → DR} (hk : ∀ a, Ag P h (k a) (k' a)) :
    Ag P h (onOkH h rv r k) (onOk rv r k') := by
  cases r <;> first | exact hk _ | exact ag_here hr

omit hr in
theorem ag_ite {h : Calls} {p : Prop} [Decidable p] {X Y : HR} {x y : DR} (hx : Ag P h X x) (hy : Ag P h Y y) :
    Ag P h (if p then X else Y) (if p then x else y) := by
  split
  · exact hx
  · exact hy

omit hr in
include ht in
theorem ag_trans {h h' : Calls} {R : HR} {r : DR} (h1 : P h h') (h2 : Ag P h' R r) : Ag P h R r := ⟨h2.1, ht _ _ _ h1 h2.2⟩

include ht

theorem ag_ptr {inner : Calls → Nat → Nat → Val → HR} {inner' : Nat → Nat → Val → DR} (hi : ∀ h c d v, Ag P h (inner h c d v) (inner' c d v))
    {z : Val} {b : Bytes} {h : Calls} {c depth : Nat} {rv : Val} : Ag P h (ptrDecodeH inner z b h c depth rv) (ptrDecode inner' z b c depth rv) := by
  unfold ptrDecodeH ptrDecode
  refine ag_onOk hr fun x => ag_ite (ag_onOk hr fun _ => ag_here hr) ?_
  cases rv
  case ptrNil =>
    dsimp only
    obtain ⟨e1, e2⟩ := hi h c depth z
    rw [← e1]
    revert e2
    rcases inner h c depth z with ⟨h', v', s'⟩
    intro e2
    refine ag_trans ht e2 ?_
    exact ag_here hr
  case ptr v0 =>
    dsimp only
    obtain ⟨e1, e2⟩ := hi h c depth v0
    rw [← e1]
    revert e2
    rcases inner h c depth v0 with ⟨h', v', s'⟩
    intro e2
    refine ag_trans ht e2 ?_
    exact ag_here hr
  all_goals exact ag_here hr

theorem ag_sliceLoop {dec : Calls → Nat → Val → HR} {dec' : Nat → Val → DR} (hd : ∀ h c v, Ag P h (dec h c v) (dec' c v)) {z : Val} {es : Nat}
    {b : Bytes} {f : Nat} {h : Calls} {c : Nat} {sl : List Val} {rv : Val} :
    Ag P h (sliceLoopH dec z es b f h c sl rv) (sliceLoop dec' z es b f c sl rv) := by
  induction f generalizing h c sl rv with
  | zero => exact ag_here hr
  | succ f ih =>
    unfold sliceLoopH sliceLoop
    refine ag_ite (ag_here hr) (ag_onOk hr fun x => ag_ite (ag_here hr) (ag_ite (ag_here hr) ?_))
    dsimp only
    generalize (if decide (x.fst ≥ sl.length) = true then sl ++ List.replicate (x.fst + 1 - sl.length) z else sl) = sl'
    cases sl'[x.1]? with
    | none => exact ag_here hr
    | some v0 =>
      dsimp only
      obtain ⟨e1, e2⟩ := hd h x.2 v0
      rw [← e1]
      revert e2
      rcases dec h x.2 v0 with ⟨h', v', s'⟩
      intro e2
      refine ag_trans ht e2 ?_
      exact ag_onOk hr fun _ => ag_ite (ag_here hr) (ag_onOk hr fun _ => ag_ite (ag_here hr) ih)

theorem ag_slice {dec : Calls → Nat → Nat → Val → HR} {dec' : Nat → Nat → Val → DR} (hd : ∀ h c d v, Ag P h (dec h c d v) (dec' c d v)) {z : Val} {es : Nat}
    {b : Bytes} {h : Calls} {c depth : Nat} {rv : Val} : Ag P h (sliceDecodeH dec z es b h c depth rv) (sliceDecode dec' z es b c depth rv) := by
  unfold sliceDecodeH sliceDecode
  refine ag_ite (ag_here hr) (ag_ite (ag_here hr) (ag_onOk hr fun x => ag_ite (ag_onOk hr fun _ => ag_here hr) (ag_ite ?_ (ag_ite (ag_here hr) (ag_here hr)))))
  refine ag_ite (ag_here hr) (ag_onOk hr fun x => ag_ite (ag_here hr) (ag_ite (ag_here hr) (ag_onOk hr fun x => ag_ite (ag_onOk hr fun _ => ag_here hr) ?_)))
  refine ag_onOk hr fun x => ag_ite (ag_here hr) (ag_onOk hr fun y => ag_ite (ag_here hr) (ag_ite (ag_here hr) ?_))
  exact ag_sliceLoop hr ht fun h c v => hd h c _ v

theorem ag_bytes {dec : Calls → Nat → Nat → Val → HR} {dec' : Nat → Nat → Val → DR} (hd : ∀ h c d v, Ag P h (dec h c d v) (dec' c d v)) {z : Val}
    {b : Bytes} {h : Calls} {c depth : Nat} {rv : Val} : Ag P h (bytesDecodeH dec z b h c depth rv) (bytesDecode dec' z b c depth rv) := by
  unfold bytesDecodeH bytesDecode
  refine ag_onOk hr fun x => ag_ite (ag_slice hr ht hd) (ag_onOk hr fun x => ?_)
  obtain ⟨ob, c⟩ := x
  cases ob <;> exact ag_here hr

theorem ag_arrayLoop {dec : Calls → Nat → Val → HR} {dec' : Nat → Val → DR} (hd : ∀ h c v, Ag P h (dec h c v) (dec' c v)) {skip : Nat → Res Nat}
    {b : Bytes} {f : Nat} {h : Calls} {c : Nat} {vs : List Val} :
    Ag P h (arrayLoopH dec skip b f h c vs) (arrayLoop dec' skip b f c vs) := by
  induction f generalizing h c vs with
  | zero => exact ag_here hr
  | succ f ih =>
    unfold arrayLoopH arrayLoop
    refine ag_ite (ag_here hr) (ag_onOk hr fun x => ag_ite (ag_here hr) ?_)
    dsimp only
    cases vs[x.1]? with
    | none => exact ag_onOk hr fun _ => ag_ite (ag_here hr) (ag_onOk hr fun _ => ag_ite (ag_here hr) ih)
    | some v0 =>
      have := hd h x.2 v0
      obtain ⟨h1, h2⟩ := this
      dsimp only
      rw [← h1]
      revert h2
      rcases dec h x.2 v0 with ⟨h', v, r⟩
      intro h2
      have key : Ag P h' (onOkH h' (.arr (vs.set x.1 v)) r fun c =>
          if !hasByte b c then (h', .arr (vs.set x.1 v), .err (.unexpectedEnd "array" c)) else
          onOkH h' (.arr (vs.set x.1 v)) (idx b c) fun x' =>
          if x' = cRBrace then (h', .arr (vs.set x.1 v), .ok (c + 1)) else arrayLoopH dec skip b f h' c (vs.set x.1 v)) _ :=
        ag_onOk hr fun _ => ag_ite (ag_here hr) (ag_onOk hr fun _ => ag_ite (ag_here hr) ih)
      exact ⟨key.1, ht _ _ _ h2 key.2⟩

theorem ag_array {dec : Calls → Nat → Nat → Val → HR} {dec' : Nat → Nat → Val → DR} (hd : ∀ h c d v, Ag P h (dec h c d v) (dec' c d v)) {z : Val} {n : Nat}
    {b : Bytes} {h : Calls} {c depth : Nat} {rv : Val} : Ag P h (arrayDecodeH dec z n b h c depth rv) (arrayDecode dec' z n b c depth rv) := by
  unfold arrayDecodeH arrayDecode
  refine ag_ite (ag_here hr) (ag_ite (ag_here hr) (ag_onOk hr fun x => ag_ite (ag_onOk hr fun _ => ag_here hr) (ag_ite ?_ (ag_here hr))))
  refine ag_ite (ag_here hr) (ag_onOk hr fun x => ag_ite (ag_here hr) (ag_ite (ag_here hr) (ag_onOk hr fun x => ag_ite (ag_onOk hr fun _ => ag_here hr) ?_)))
  refine ag_onOk hr fun x => ag_ite (ag_here hr) (ag_onOk hr fun y => ag_ite (ag_here hr) ?_)
  exact ag_arrayLoop hr ht fun h c v => hd h c _ v

theorem ag_mapLoop {kd vd : Calls → Nat → HR} {kd' vd' : Nat → DR} (hk : ∀ h c, Ag P h (kd h c) (kd' c)) (hv : ∀ h c, Ag P h (vd h c) (vd' c))
    {b : Bytes} {f : Nat} {h : Calls} {c : Nat} {es : List (Val × Val)} :
    Ag P h (mapLoopH kd vd b f h c es) (mapLoop kd' vd' b f c es) := by
  induction f generalizing h c es with
  | zero => exact ag_here hr
  | succ f ih =>
    unfold mapLoopH mapLoop
    refine ag_ite (ag_here hr) ?_
    obtain ⟨e1, e2⟩ := hk h c
    rw [← e1]
    revert e2
    rcases kd h c with ⟨h', v', s'⟩
    intro e2
    refine ag_trans ht e2 ?_
    refine ag_onOk hr fun c1 => ag_ite (ag_here hr) ?_
    obtain ⟨e1, e2⟩ := hv h' c1
    rw [← e1]
    revert e2
    rcases vd h' c1 with ⟨h'', v'', s''⟩
    intro e2
    refine ag_trans ht e2 ?_
    exact ag_onOk hr fun _ => ag_ite (ag_here hr) (ag_ite (ag_here hr) (ag_onOk hr fun _ => ag_ite (ag_here hr) ih))

theorem ag_map {kd vd : Calls → Nat → Nat → HR} {kd' vd' : Nat → Nat → DR} (hk : ∀ h c d, Ag P h (kd h c d) (kd' c d))
    (hv : ∀ h c d, Ag P h (vd h c d) (vd' c d)) {b : Bytes} {h : Calls} {c depth : Nat} {rv : Val} :
    Ag P h (mapDecodeH kd vd b h c depth rv) (mapDecode kd' vd' b c depth rv) := by
  unfold mapDecodeH mapDecode
  refine ag_ite (ag_here hr) (ag_ite (ag_here hr) (ag_onOk hr fun x => ag_ite (ag_onOk hr fun _ => ag_here hr) ?_))
  refine ag_onOk hr fun x => ag_onOk hr fun y => ag_ite (ag_here hr) (ag_onOk hr fun z => ag_ite (ag_here hr) ?_)
  dsimp only
  cases mapEntries rv with
  | none => exact ag_here hr
  | some es => exact ag_ite (ag_here hr) (ag_onOk hr fun _ => ag_ite (ag_here hr) (ag_mapLoop hr ht (fun h c => hk h c _) fun h c => hv h c _))

theorem ag_any {W : World} {ad : Calls → Nat → Nat → HR} {ad' : Nat → Nat → DR} (ha : ∀ h c d, Ag P h (ad h c d) (ad' c d))
    {b : Bytes} {h : Calls} {c depth : Nat} {rv : Val} : Ag P h (anyDecodeH W ad b h c depth rv) (anyDecode W ad' b c depth rv) := by
  unfold anyDecodeH anyDecode
  refine ag_onOk hr fun x => ag_ite ?_ (ag_ite ?_ (ag_ite ?_ (ag_ite (ag_onOk hr fun _ => ag_here hr) (ag_ite ?_ (ag_ite (ag_onOk hr fun _ => ag_here hr)
    (ag_ite (ag_onOk hr fun _ => ag_here hr) (ag_here hr)))))))
  · obtain ⟨e1, e2⟩ := ag_map hr ht (kd := fun h c _ => (h, stringDecode b c (.str []))) (fun _ _ _ => ag_lift hr) ha (b := b) (h := h) (c := c) (depth := depth) (rv := .mapNil)
    rw [← e1]
    revert e2
    rcases mapDecodeH (fun h c _ => (h, stringDecode b c (.str []))) ad b h c depth .mapNil with ⟨h', v', s'⟩
    intro e2
    refine ag_trans ht e2 ?_
    exact ag_onOk hr fun _ => ag_here hr
  · obtain ⟨e1, e2⟩ := ag_map hr ht (kd := fun h c _ => (h, anyKeyDecode b c)) (fun _ _ _ => ag_lift hr) ha (b := b) (h := h) (c := c) (depth := depth) (rv := .mapNil)
    rw [← e1]
    revert e2
    rcases mapDecodeH (fun h c _ => (h, anyKeyDecode b c)) ad b h c depth .mapNil with ⟨h', v', s'⟩
    intro e2
    refine ag_trans ht e2 ?_
    exact ag_onOk hr fun _ => ag_here hr
  · exact ag_onOk hr fun _ => ag_here hr
  · exact ag_onOk hr fun _ => ag_here hr

theorem ag_structLoop {sets : List FieldSet} {dec : FieldSet → Calls → Nat → Val → HR} {dec' : FieldSet → Nat → Val → DR}
    (hd : ∀ s h c v, Ag P h (dec s h c v) (dec' s c v)) {skip : Nat → Res Nat} {b : Bytes} {f : Nat} {h : Calls} {c : Nat} {vs : List Val} :
    Ag P h (structLoopH sets dec skip b f h c vs) (structLoop sets dec' skip b f c vs) := by
  induction f generalizing h c vs with
  | zero => exact ag_here hr
  | succ f ih =>
    unfold structLoopH structLoop
    refine ag_ite (ag_here hr) (ag_onOk hr fun x => ag_ite (ag_here hr) ?_)
    obtain ⟨fld, c1⟩ := x
    dsimp only
    cases fld with
    | none => exact ag_onOk hr fun _ => ag_ite (ag_here hr) (ag_onOk hr fun _ => ag_ite (ag_here hr) ih)
    | some s =>
      dsimp only
      cases vs[s.idx]? with
      | none => exact ag_here hr
      | some v0 =>
        have := hd s h c1 v0
        obtain ⟨h1, h2⟩ := this
        dsimp only
        rw [← h1]
        revert h2
        rcases dec s h c1 v0 with ⟨h', v, r⟩
        intro h2
        have key : Ag P h' (onOkH h' (.struct (vs.set s.idx v)) r fun c =>
            if !hasByte b c then (h', .struct (vs.set s.idx v), .err (.unexpectedEnd "object" c)) else
            onOkH h' (.struct (vs.set s.idx v)) (idx b c) fun x' =>
            if x' = cRBrace then (h', .struct (vs.set s.idx v), .ok (c + 1)) else structLoopH sets dec skip b f h' c (vs.set s.idx v)) _ :=
          ag_onOk hr fun _ => ag_ite (ag_here hr) (ag_onOk hr fun _ => ag_ite (ag_here hr) ih)
        exact ⟨key.1, ht _ _ _ h2 key.2⟩

theorem ag_struct {sets : List FieldSet} {dec : FieldSet → Calls → Nat → Nat → Val → HR} {dec' : FieldSet → Nat → Nat → Val → DR}
    (hd : ∀ s h c d v, Ag P h (dec s h c d v) (dec' s c d v)) {b : Bytes} {h : Calls} {c depth : Nat} {rv : Val} :
    Ag P h (structDecodeH sets dec b h c depth rv) (structDecode sets dec' b c depth rv) := by
  unfold structDecodeH structDecode
  refine ag_ite (ag_here hr) (ag_ite (ag_here hr) (ag_onOk hr fun x => ag_ite (ag_onOk hr fun _ => ag_here hr) ?_))
  refine ag_onOk hr fun x => ag_ite (ag_here hr) (ag_onOk hr fun y => ag_ite (ag_here hr) (ag_onOk hr fun z => ag_ite (ag_here hr)
    (ag_onOk hr fun z => ag_ite (ag_here hr) (ag_ite (ag_here hr) (ag_onOk hr fun w => ag_ite (ag_here hr) ?_)))))
  cases rv
  case struct vs => exact ag_structLoop hr ht fun s h c v => hd s h c _ v
  all_goals exact ag_here hr

theorem ag_field {W : World} {rec : Ty → Calls → Nat → Nat → Val → HR} {rec' : Ty → Nat → Nat → Val → DR}
    (hd : ∀ t h c d v, Ag P h (rec t h c d v) (rec' t c d v)) {s : FieldSet} {b : Bytes} {h : Calls} {c depth : Nat} {rv : Val} :
    Ag P h (fieldDecodeH W rec b s h c depth rv) (fieldDecode W rec' b s c depth rv) := by
  unfold fieldDecodeH fieldDecode
  refine ag_ite ?_ (hd _ _ _ _ _)
  cases W.resolve s.ty
  case ptr e =>
    refine ag_ite (ag_ptr hr ht ?_) (ag_here hr)
    exact fun _ _ _ _ => ag_lift hr
  all_goals exact ag_ite (ag_lift hr) (ag_here hr)

end

/-- No calls were made. -/
abbrev NoneMade : Calls → Calls → Prop := fun x y => y = x

/-- Decoding into an `any` makes no calls. -/
theorem decodeH_any {W : World} {M : Hooks} {b : Bytes} {f : Nat} {h : Calls} {c depth : Nat} {rv : Val} :
    decodeH W M b f .any h c depth rv = (h, decodeF W b f .any c depth rv) := by
  have key : ∀ f h c depth rv, Ag NoneMade h (decodeH W M b f .any h c depth rv) (decodeF W b f .any c depth rv) := by
    intro f
    induction f with
    | zero => intros; exact ag_here (fun _ => rfl)
    | succ f ih =>
      intro h c depth rv
      have h1 : W.unmOf .any = none := rfl
      have h2 : W.resolve .any = .any := rfl
      unfold decodeH decodeF decodeNonPtrH decodeNonPtr
      simp only [h1, h2]
      refine ag_any (P := NoneMade) (fun _ => rfl) (fun _ _ _ (h1 : _ = _) (h2 : _ = _) => h2.trans h1) ?_
      exact fun h c d => ih h c d _
  have := key f h c depth rv
  exact Prod.ext this.2 this.1

section
variable {W : World} {M : Hooks} (hM : Plainly W M)
include hM

/-- Any calls before, any afterwards. -/
abbrev AnyCalls : Calls → Calls → Prop := fun _ _ => True

theorem ag_unm {id : Nat} {b : Bytes} {h : Calls} {c depth : Nat} {rv : Val} :
    Ag AnyCalls h (unmarshalDecodeH W M id b h c depth rv) (unmarshalDecode W id b c depth rv) := by
  refine ⟨?_, trivial⟩
  unfold unmarshalDecodeH unmarshalDecode
  simp only [hM.1]
  cases skipValue b c depth with
  | ok e =>
    simp only [onOkH, onOk]
    cases sub b c e with
    | ok src =>
      dsimp only
      repeat' split
      all_goals first | rfl | simp_all
    | _ => rfl
  | _ => rfl

theorem ag_iface {b : Bytes} {h : Calls} {c depth : Nat} {rv : Val} :
    Ag AnyCalls h (ifaceDecodeH W M b h c depth rv) (ifaceDecode W b c depth rv) := by
  refine ⟨?_, trivial⟩
  unfold ifaceDecodeH ifaceDecode
  have leaf : (onOkH h rv (idx b c) fun x => if x = cN then onOkH h rv (validateNull b c) fun _ => (h, .ifaceNil, .ok (c + 2))
      else (h, rv, .err (.typeError "interface" c))).2 = (onOk rv (idx b c) fun x => if x = cN then onOk rv (validateNull b c) fun _ => (.ifaceNil, .ok (c + 2))
      else (rv, .err (.typeError "interface" c))) :=
    (ag_onOk (P := AnyCalls) (fun _ => trivial) fun _ => ag_ite (ag_onOk (P := AnyCalls) (fun _ => trivial) fun _ => ag_here fun _ => trivial)
      (ag_here fun _ => trivial)).1
  cases rv
  case iface t v =>
    by_cases hd : W.dynUnm t = true
    · simp only [hd, if_true]
      unfold dynDecodeH dynDecode
      simp only [hM.2]
      cases skipValue b c depth with
      | ok e =>
        simp only [onOkH, onOk]
        cases sub b c e with
        | ok src =>
          dsimp only
          repeat' split
          all_goals first | rfl | simp_all
        | _ => rfl
      | _ => rfl
    · simp only [hd]
      exact leaf
  all_goals exact leaf

theorem ag_key {ad : Calls → Nat → Nat → HR} {ad' : Nat → Nat → DR} (ha : ∀ h c d, Ag AnyCalls h (ad h c d) (ad' c d))
    {k : Ty} {b : Bytes} {h : Calls} {c depth : Nat} : Ag AnyCalls h (keyDecodeH W M ad b k h c depth) (keyDecode W ad' b k c depth) := by
  unfold keyDecodeH keyDecode
  have hr : ∀ h, AnyCalls h h := fun _ => trivial
  have ht : ∀ a b c, AnyCalls a b → AnyCalls b c → AnyCalls a c := fun _ _ _ _ _ => trivial
  have hp : ∀ {h : Calls} {c : Nat} {S : HR} {s : DR}, S.2 = s → Ag AnyCalls h (ptrKeyDecodeH S b h c) (ptrKeyDecode s b c) := by
    rintro h c S s rfl
    refine ⟨?_, trivial⟩
    unfold ptrKeyDecodeH ptrKeyDecode
    simp only [onOkH, onOk]
    repeat' split
    all_goals first | rfl | simp_all
  cases W.unmOf k with
  | some id => exact ag_unm hM
  | none =>
    dsimp only
    cases W.resolve k
    case any => exact ag_any hr ht ha
    case iface => exact ag_iface hM
    case ptr e =>
      dsimp only
      cases W.unmOf e with
      | some id => exact ag_lift hr
      | none =>
        dsimp only
        cases W.resolve e
        case any => exact hp (ag_any hr ht ha).1
        case iface => exact hp (ag_any hr ht ha).1
        all_goals first | exact hp rfl | exact ag_lift hr
    all_goals exact ag_lift hr

theorem ag_nonPtr {rec : Ty → Calls → Nat → Nat → Val → HR} {rec' : Ty → Nat → Nat → Val → DR}
    (hd : ∀ t h c d v, Ag AnyCalls h (rec t h c d v) (rec' t c d v)) {t : Ty} {b : Bytes} {h : Calls} {c depth : Nat} {rv : Val} :
    Ag AnyCalls h (decodeNonPtrH W M rec b t h c depth rv) (decodeNonPtr W rec' b t c depth rv) := by
  unfold decodeNonPtrH decodeNonPtr
  have hr : ∀ h, AnyCalls h h := fun _ => trivial
  have ht : ∀ a b c, AnyCalls a b → AnyCalls b c → AnyCalls a c := fun _ _ _ _ _ => trivial
  cases W.unmOf t with
  | some id => exact ag_unm hM
  | none =>
    dsimp only
    cases W.resolve t
    case slice e => exact ag_ite (ag_bytes hr ht (hd e)) (ag_slice hr ht (hd e))
    case array n e => exact ag_array hr ht (hd e)
    case map k v =>
      have h1 : ∀ h c d, Ag AnyCalls h (rec .any h c d .ifaceNil) (rec' .any c d .ifaceNil) := fun h c d => hd _ h c d _
      have h2 : ∀ h c d, Ag AnyCalls h (rec v h c d (W.zero v)) (rec' v c d (W.zero v)) := fun h c d => hd _ h c d _
      exact ag_map hr ht (kd := keyDecodeH W M (fun h c d => rec .any h c d .ifaceNil) b k) (vd := fun h c d => rec v h c d (W.zero v))
        (kd' := keyDecode W (fun c d => rec' .any c d .ifaceNil) b k) (vd' := fun c d => rec' v c d (W.zero v))
        (fun h c d => ag_key hM h1) h2
    case struct id =>
      refine ag_struct hr ht ?_
      exact fun s h c d v => ag_field hr ht hd
    case any =>
      refine ag_any hr ht ?_
      exact fun h c d => hd _ h c d _
    case iface => exact ag_iface hM
    all_goals exact ag_lift hr

theorem decodeH_same {b : Bytes} {f : Nat} {t : Ty} {h : Calls} {c depth : Nat} {rv : Val} :
    (decodeH W M b f t h c depth rv).2 = decodeF W b f t c depth rv := by
  have key : ∀ f t h c depth rv, Ag AnyCalls h (decodeH W M b f t h c depth rv) (decodeF W b f t c depth rv) := by
    have hr : ∀ h, AnyCalls h h := fun _ => trivial
    have ht : ∀ a b c, AnyCalls a b → AnyCalls b c → AnyCalls a c := fun _ _ _ _ _ => trivial
    intro f
    induction f with
    | zero => intros; exact ag_here hr
    | succ f ih =>
      intro t h c depth rv
      unfold decodeH decodeF
      cases W.unmOf t with
      | some id => exact ag_nonPtr hM ih
      | none =>
        cases W.resolve t
        case ptr e =>
          dsimp only
          refine ag_ite (ag_here hr) (ag_ptr hr ht ?_)
          exact fun h c d v => ag_nonPtr hM ih
        all_goals exact ag_nonPtr hM ih
  exact (key f t h c depth rv).1

theorem unmarshalH_same {fuel : Nat} {h : Calls} {data : Bytes} {t : Ty} {v : Val} :
    (some (unmarshalH W M fuel h data t v).2.1, (unmarshalH W M fuel h data t v).2.2) = unmarshal W fuel data (.ptr t v) := by
  unfold unmarshalH unmarshal unmarshalInto
  by_cases h0 : data.length = 0
  · simp [h0]
  · simp only [h0, if_false]
    cases compileD W fuel [] t with
    | ok x =>
      have := decodeH_same hM (b := data) (f := data.length + 1) (t := t) (h := h) (c := 0) (depth := 0) (rv := v)
      rcases hd : decodeH W M data (data.length + 1) t h 0 0 v with ⟨h', v', r⟩
      rw [hd] at this
      simp only [onOk]
      rw [← this]
    | _ => rfl

end

end Verif

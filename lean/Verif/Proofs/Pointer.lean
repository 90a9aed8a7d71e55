import Verif.Proofs.Restack
import Verif.Proofs.Position
/-
Pointers and the values they point to.
-/
namespace Verif
open Spec

variable {W : World} {h : Heap}

theorem struct_not_ptr {e : Ty} (hs : W.isStruct e = true) : W.isPtr e = false := by
  unfold World.isStruct at hs; unfold World.isPtr; split at hs <;> simp_all

/-- A variable that is not written by a method, not as bytes and not a pointer is written by its kind. -/
theorem kind_of_typed {ok : Ty → Prop} {G : Stack → Nat → Bool → Prop} {st : Stack} {p : Path} {t : Ty} {v : GV} {tx : Bytes}
    (hm : W.marOf t = false) (hp : W.isPtr t = false) (hb : t ≠ .slice (.uint .u8)) (he : EncG W h ok G .typed st p t v tx) :
    EncG W h ok G .kind st p t v tx := by
  cases he with
  | marshaler a => rw [hm] at a; cases a
  | bytesNil => exact absurd rfl hb
  | bytes => exact absurd rfl hb
  | plain _ _ _ x => exact x
  | ptrNil _ a => simp [World.isPtr, a] at hp
  | ptrStruct _ a => simp [World.isPtr, a] at hp
  | ptrKind _ a => simp [World.isPtr, a] at hp
  | ptrTyped _ a => simp [World.isPtr, a] at hp
  | ptrIface _ a => simp [World.isPtr, a] at hp

theorem iface_not_ptr {e : Ty} (hs : W.isIface e = true) : W.isPtr e = false := by
  rcases isIface_cases hs with h | ⟨i, h⟩ <;> simp [World.isPtr, h]

theorem direct_not_ptr {e : Ty} (hs : directKind W e = true) : W.isPtr e = false := by
  unfold directKind at hs; unfold World.isPtr; split at hs <;> simp_all

theorem direct_not_bytes {e : Ty} (hs : directKind W e = true) : e ≠ .slice (.uint .u8) := by rintro rfl; cases hs

/-- Types of pointers and of what they point to are supported together, except for pointers to pointers. -/
theorem supported_ptr {t e : Ty} (hr : W.resolve t = .ptr e) (hm : W.marOf t = false) (hme : W.marOf e = false) :
    Supported W t ↔ Supported W e ∧ W.isPtr e = false := by
  have hne : t ≠ .slice (.uint .u8) := by rintro rfl; simp [World.resolve] at hr
  have key : ∀ f, compileE W (f + 1) [] t = compileEPtr W (compileE W f) [] e := fun f => by
    simp only [compileE, hm, hne, hr, Bool.false_eq_true, if_false]
  constructor
  · rintro ⟨cf, s, hs⟩
    obtain ⟨f, rfl⟩ : ∃ f, cf = f + 1 := by cases cf with | zero => cases hs | succ f => exact ⟨f, rfl⟩
    rw [key] at hs
    have : W.isPtr e = false := by
      cases hp : W.isPtr e with
      | false => rfl
      | true => obtain ⟨e', he'⟩ := isPtr_cases hp; simp [compileEPtr, he'] at hs
    refine ⟨?_, this⟩
    by_cases hb : e = .slice (.uint .u8)
    · subst hb; exact ⟨1, [], rfl⟩
    cases he : W.resolve e with
    | ptr => simp [World.isPtr, he] at this
    | struct id => exact ⟨f + 1, s, by simpa only [compileE, hme, hb, he, compileEPtr, Bool.false_eq_true, if_false] using hs⟩
    | map => exact ⟨f + 1, s, by simpa only [compileE, hme, hb, he, compileEPtr, Bool.false_eq_true, if_false] using hs⟩
    | uint k =>
      simp only [compileEPtr, he] at hs
      split at hs
      · exact ⟨f, s, hs⟩
      · exact ⟨1, [], by simp only [compileE, hme, hb, he, Bool.false_eq_true, if_false]; simp_all⟩
    | slice => exact ⟨f, s, by simpa only [compileEPtr, he] using hs⟩
    | array => exact ⟨f, s, by simpa only [compileEPtr, he] using hs⟩
    | other => exact ⟨f, s, by simpa only [compileEPtr, he] using hs⟩
    | named => exact ⟨f, s, by simpa only [compileEPtr, he] using hs⟩
    | _ => exact ⟨1, [], by simp only [compileE, hme, hb, he, Bool.false_eq_true, if_false]⟩
  · rintro ⟨⟨f, s, hs⟩, hp⟩
    obtain ⟨g, rfl⟩ : ∃ g, f = g + 1 := by cases f with | zero => cases hs | succ f => exact ⟨f, rfl⟩
    cases he : W.resolve e with
    | ptr => simp [World.isPtr, he] at hp
    | struct id =>
      refine ⟨g + 1, s, ?_⟩
      rw [key]
      have hb : e ≠ .slice (.uint .u8) := by rintro rfl; simp [World.resolve] at he
      simpa only [compileE, hme, hb, he, compileEPtr, Bool.false_eq_true, if_false] using hs
    | map =>
      refine ⟨g + 1, s, ?_⟩
      rw [key]
      have hb : e ≠ .slice (.uint .u8) := by rintro rfl; simp [World.resolve] at he
      simpa only [compileE, hme, hb, he, compileEPtr, Bool.false_eq_true, if_false] using hs
    | uint k =>
      have hb : e ≠ .slice (.uint .u8) := by rintro rfl; simp [World.resolve] at he
      simp only [compileE, hme, hb, he, Bool.false_eq_true, if_false] at hs
      split at hs
      · cases hs
      · rename_i hk; exact ⟨2, [], by rw [key]; simp only [compileEPtr, he, hk, if_false]⟩
    | slice => exact ⟨g + 2, s, by rw [key]; simpa only [compileEPtr, he] using hs⟩
    | array => exact ⟨g + 2, s, by rw [key]; simpa only [compileEPtr, he] using hs⟩
    | other => exact ⟨g + 2, s, by rw [key]; simpa only [compileEPtr, he] using hs⟩
    | named => exact ⟨g + 2, s, by rw [key]; simpa only [compileEPtr, he] using hs⟩
    | _ => exact ⟨1, [], by rw [key]; simp only [compileEPtr, he]⟩

theorem held_of_kind {ok : Ty → Prop} {G : Stack → Nat → Bool → Prop} {st : Stack} {p : Path} {t : Ty} {v : GV} {tx : Bytes}
    (hi : W.isIface t = true) (he : EncG W h ok G .kind st p t v tx) : EncG W h ok G .held st p t v tx := by
  have hn : W.resolve t = .any ∨ ∃ i, W.resolve t = .iface i := isIface_cases hi
  cases he with
  | scalar a => cases a <;> simp_all
  | struct a => simp_all
  | array a => simp_all
  | sliceNil a => simp_all
  | slice a => simp_all
  | mapNil a => simp_all
  | map a => simp_all
  | iface _ x => exact x

/-- Into the pointer. -/
theorem pointee_of_ptr {t e : Ty} {a : Nat} {p : Path} {tx : Bytes} (hr : W.resolve t = .ptr e) (hm : W.marOf t = false) (hme : W.marOf e = false)
    (he : EncC W h .typed [] p t (.ptr a) tx) : EncC W h .typed [] p e (h.deref e a) tx := by
  cases he with
  | marshaler a => rw [hm] at a; cases a
  | plain _ _ b => simp [World.isPtr, hr] at b
  | ptrStruct _ b c _ x =>
    rw [hr] at b; cases b
    exact .plain hme (by rintro rfl; cases c) (struct_not_ptr c) (encC_inside (st := []) x)
  | ptrKind _ b c x => rw [hr] at b; cases b; exact .plain hme (direct_not_bytes c) (direct_not_ptr c) x
  | ptrTyped _ b _ _ _ _ x => rw [hr] at b; cases b; exact x
  | ptrIface _ b c x =>
    rw [hr] at b; cases b
    refine .plain hme (by rintro rfl; cases c) (iface_not_ptr c) (.iface c ?_)
    exact held_deref x fun o => deref_ptr hr

/-- Out to the pointer. -/
theorem ptr_of_pointee {t e : Ty} {a : Nat} {p : Path} {tx : Bytes} (hr : W.resolve t = .ptr e) (hm : W.marOf t = false) (hme : W.marOf e = false)
    (hp : W.isPtr e = false) (hst : W.isStruct e = false) (he : EncC W h .typed [] p e (h.deref e a) tx) : EncC W h .typed [] p t (.ptr a) tx := by
  cases hd : directKind W e with
  | true => exact .ptrKind hm hr hd (kind_of_typed hme hp (direct_not_bytes hd) he)
  | false =>
    cases hi : W.isIface e with
    | false => exact .ptrTyped hm hr hp hi hst hd he
    | true =>
      have hk := kind_of_typed hme hp (by rintro rfl; cases hi) he
      refine .ptrIface hm hr hi (held_deref ?_ fun o hd => .ptr hr hd)
      exact held_of_kind hi hk

end Verif

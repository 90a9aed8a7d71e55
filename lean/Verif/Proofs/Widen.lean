import Verif.Spec.Widen
import Verif.Proofs.Docs
import Verif.Proofs.DecFacts
import Verif.Proofs.RoundTree
/-
Documents for a type are documents for wider types.
-/
namespace Verif
open Spec

theorem Spec.Suits.strict {C : Change} {d : Doc} (h : Suits C d) (hC : C.drops) : ∀ {n}, Lax n d → Strict n d := by
  induction h with
  | null => exact fun _ => .null
  | bool => exact fun _ => .bool
  | int => intro n h; cases h with | int h => exact .int h
  | float => intro n h; cases h with | float h1 h2 => exact .float h1 h2
  | str => intro n h; cases h with | str h => exact .str h
  | arr h1 _ _ _ _ _ ih1 ih2 =>
    intro n h
    cases h with
    | arr h2 h3 h4 => exact .arr (h1 hC) (fun k v hm => ih1 k v hm (h3 k v hm)) fun k v hm => ih2 k v hm (h4 k v hm)
  | obj h1 _ _ _ ih1 ih2 =>
    intro n h
    cases h with
    | obj h2 h3 h4 h5 => exact .obj h2 (h1 hC) (fun k v hm => ih1 k v hm (h4 k v hm)) fun k v hm => ih2 k v hm (h5 k v hm)

/-! ### One level of types -/

section step
variable {W : World} {C : Change} {R : Ty → Ty → Prop} {t t' : Ty}

theorem step_ptr {e : Ty} (h : WidenStep W C R t t') (hp : Plain W t (.ptr e)) : ∃ e', Plain W t' (.ptr e') ∧ W.isPtr e' = false ∧ R e e' := by
  obtain ⟨h1, h2⟩ := hp
  cases h <;> simp_all [Plain]

theorem step_slice {e : Ty} (h : WidenStep W C R t t') (hp : Plain W t (.slice e)) :
    ∃ e', Plain W t' (.slice e') ∧ W.isByte e' = W.isByte e ∧ (esize W e' ≤ esize W e ∨ esize W e' ≤ C.grows) ∧ R e e' := by
  obtain ⟨h1, h2⟩ := hp
  cases h <;> simp_all [Plain]

theorem step_array {n : Nat} {e : Ty} (h : WidenStep W C R t t') (hp : Plain W t (.array n e)) : ∃ e', Plain W t' (.array n e') ∧ R e e' := by
  obtain ⟨h1, h2⟩ := hp
  cases h <;> simp_all [Plain]

theorem step_map {k v : Ty} (h : WidenStep W C R t t') (hp : Plain W t (.map k v)) : ∃ k' v', Plain W t' (.map k' v') ∧ KeyWiden W k k' ∧ R v v' := by
  obtain ⟨h1, h2⟩ := hp
  cases h <;> simp_all [Plain]
  exact ⟨_, _, ⟨rfl, rfl⟩, ‹_›, ‹_›⟩

theorem step_struct {id : Nat} (h : WidenStep W C R t t') (hp : Plain W t (.struct id)) : ∃ id', Plain W t' (.struct id') ∧ FieldsWiden W C R id id' := by
  obtain ⟨h1, h2⟩ := hp
  cases h <;> simp_all [Plain]

theorem step_bool (h : WidenStep W C R t t') (hp : Plain W t .bool) : Plain W t' .bool := by
  obtain ⟨h1, h2⟩ := hp
  cases h <;> simp_all [Plain]

theorem step_str (h : WidenStep W C R t t') (hp : Plain W t .str) : Plain W t' .str := by
  obtain ⟨h1, h2⟩ := hp
  cases h <;> simp_all [Plain]

theorem step_f64 (h : WidenStep W C R t t') (hp : Plain W t .f64) : Plain W t' .f64 := by
  obtain ⟨h1, h2⟩ := hp
  cases h <;> simp_all [Plain]

theorem step_f32 (h : WidenStep W C R t t') (hp : Plain W t .f32) : Plain W t' .f32 ∨ Plain W t' .f64 := by
  obtain ⟨h1, h2⟩ := hp
  cases h <;> simp_all [Plain]

theorem step_int {k : IKind} (h : WidenStep W C R t t') (hp : Plain W t (.int k)) : ∃ k', Plain W t' (.int k') ∧ intMax k ≤ intMax k' := by
  obtain ⟨h1, h2⟩ := hp
  cases h <;> simp_all [Plain]

theorem step_uint {k : UKind} (h : WidenStep W C R t t') (hp : Plain W t (.uint k)) :
    (∃ k', Plain W t' (.uint k') ∧ uintMax k ≤ uintMax k') ∨ ∃ k', Plain W t' (.int k') ∧ (uintMax k : Int) ≤ intMax k' := by
  obtain ⟨h1, h2⟩ := hp
  cases h <;> simp_all [Plain]

theorem step_unm (h : WidenStep W C R t t') (hp : W.unmOf t ≠ none) : t' = t := by
  cases h <;> simp_all [Plain]

theorem step_any (h : WidenStep W C R t t') (hp : Plain W t .any) : t' = t := by
  obtain ⟨h1, h2⟩ := hp
  cases h <;> simp_all [Plain]

theorem step_iface {i : Nat} (h : WidenStep W C R t t') (hp : Plain W t (.iface i)) : t' = t := by
  obtain ⟨h1, h2⟩ := hp
  cases h <;> simp_all [Plain]

/-! ### One level of values -/

theorem wide_unm {v v' : Val} (h : Wide W t t' v v') (hp : W.unmOf t ≠ none) : v' = v := by
  cases h <;> simp_all [Plain]

theorem wide_iface {i : Nat} {v v' : Val} (h : Wide W t t' v v') (hp : Plain W t (.iface i)) : v' = v := by
  obtain ⟨h1, h2⟩ := hp
  cases h <;> simp_all [Plain]

theorem wide_ptr {e e' : Ty} {v v' : Val} (h : Wide W t t' v v') (hp : Plain W t (.ptr e)) (hp' : Plain W t' (.ptr e')) :
    (v = .ptrNil ∧ v' = .ptrNil) ∨ ∃ x x', v = .ptr x ∧ v' = .ptr x' ∧ Wide W e e' x x' := by
  obtain ⟨h1, h2⟩ := hp
  obtain ⟨h3, h4⟩ := hp'
  cases h <;> simp_all [Plain]

theorem wide_map {k e k' e' : Ty} {v v' : Val} (h : Wide W t t' v v') (hp : Plain W t (.map k e)) (hp' : Plain W t' (.map k' e')) :
    (v = .mapNil ∧ v' = .mapNil) ∨ ∃ es es', v = .map es ∧ v' = .map es' ∧ es'.length = es.length ∧
      (∀ (i : Nat) (p p' : Val × Val), es[i]? = some p → es'[i]? = some p' → KeyWide W k k' p.1 p'.1) ∧
      (∀ (i : Nat) (p p' : Val × Val), es[i]? = some p → es'[i]? = some p' → Wide W e e' p.2 p'.2) := by
  obtain ⟨h1, h2⟩ := hp
  obtain ⟨h3, h4⟩ := hp'
  cases h with
  | mapNil => exact .inl ⟨rfl, rfl⟩
  | map a b c d f =>
    have e1 := h2.symm.trans a.2
    have e2 := h4.symm.trans b.2
    cases e1; cases e2
    exact .inr ⟨_, _, rfl, rfl, c, d, f⟩
  | _ => simp_all [Plain]

theorem wide_struct {id id' : Nat} {v v' : Val} (h : Wide W t t' v v') (hp : Plain W t (.struct id)) (hp' : Plain W t' (.struct id')) :
    ∃ vs vs', v = .struct vs ∧ v' = .struct vs' ∧ vs.length = (W.fields id).length ∧ vs'.length = (W.fields id').length ∧
      ∀ (s : Bytes) (i i' : Nat) (f f' : Field) (x x' : Val), FieldFor W id s i f → FieldFor W id' s i' f' → vs[i]? = some x → vs'[i']? = some x' →
        Wide W f.ty f'.ty x x' := by
  obtain ⟨h1, h2⟩ := hp
  obtain ⟨h3, h4⟩ := hp'
  cases h with
  | struct a b c d f =>
    have e1 := h2.symm.trans a.2
    have e2 := h4.symm.trans b.2
    cases e1; cases e2
    exact ⟨_, _, rfl, rfl, c, d, f⟩
  | _ => simp_all [Plain]

end step

/-! ### Zero values -/

theorem zero_plain {W : World} (hz : ZeroOk W) {t k : Ty} (h : Plain W t k) : W.zero t = W.zero k := by rw [zero_resolve hz t, h.2]

theorem struct_zero_part {W : World} {id i : Nat} {f : Field} {v : Val} (hf : (W.fields id)[i]? = some f)
    (hv : ((W.fields id).map fun f => W.zero f.ty)[i]? = some v) : v = W.zero f.ty := by
  simp only [List.getElem?_map, hf, Option.map_some, Option.some.injEq] at hv
  exact hv.symm

theorem wide_zero {W : World} {C : Change} {R : Ty → Ty → Prop} (hz : ZeroOk W) (h0 : W.toF32 0 = 0) (hR : Widening W C R) :
    ∀ (n : Nat) (t t' : Ty), sizeOf (W.zero t) ≤ n → R t t' → Wide W t t' (W.zero t) (W.zero t') := by
  intro n
  induction n with
  | zero =>
    intro t t' hn
    cases hw : W.zero t <;> simp [hw] at hn
  | succ n ih =>
    intro t t' hn h
    cases hR t t' h with
    | unm h1 => exact .unm h1
    | any h1 => exact .any h1
    | iface h1 => exact .iface h1
    | bool h1 h2 => rw [zero_plain hz h1, zero_plain hz h2]; exact .bool h1 h2
    | int h1 h2 => rw [zero_plain hz h1, zero_plain hz h2]; exact .int h1 h2
    | uint h1 h2 => rw [zero_plain hz h1, zero_plain hz h2]; exact .uint h1 h2
    | uintInt h1 h2 => rw [zero_plain hz h1, zero_plain hz h2]; exact .uintInt (n := 0) h1 h2
    | f32 h1 h2 => rw [zero_plain hz h1, zero_plain hz h2]; exact .f32 h1 h2
    | f64 h1 h2 => rw [zero_plain hz h1, zero_plain hz h2]; exact .f64 h1 h2
    | float h1 h2 =>
      rw [zero_plain hz h1, zero_plain hz h2]
      have := Wide.float (x := 0) h1 h2
      rw [h0] at this
      exact this
    | str h1 h2 => rw [zero_plain hz h1, zero_plain hz h2]; exact .str h1 h2
    | ptr h1 h2 => rw [zero_plain hz h1, zero_plain hz h2]; exact .ptrNil h1 h2
    | slice h1 h2 => rw [zero_plain hz h1, zero_plain hz h2]; exact .sliceNil h1 h2
    | map h1 h2 => rw [zero_plain hz h1, zero_plain hz h2]; exact .mapNil h1 h2
    | @array _ m e e' h1 h2 h3 =>
      have hs := zero_plain hz h1
      rw [hs] at hn ⊢
      rw [zero_plain hz h2]
      refine .arr h1 h2 (by simp) ?_
      intro i v v' hv hv'
      have hm := List.mem_of_getElem? hv
      rw [List.mem_replicate] at hm
      obtain ⟨hm0, rfl⟩ := hm
      have hm' := List.mem_of_getElem? hv'
      rw [List.mem_replicate] at hm'
      obtain ⟨-, rfl⟩ := hm'
      refine ih e e' ?_ h3
      have : sizeOf (W.zero e) < sizeOf (List.replicate m (W.zero e)) := List.sizeOf_lt_of_mem (List.mem_of_getElem? hv)
      simp only [World.zero, Val.arr.sizeOf_spec] at hn
      omega
    | @struct _ id id' h1 h2 h3 =>
      have hs : W.zero t = .struct ((W.fields id).map fun f => W.zero f.ty) := by rw [zero_plain hz h1]; exact hz.struct id
      have hs' : W.zero t' = .struct ((W.fields id').map fun f => W.zero f.ty) := by rw [zero_plain hz h2]; exact hz.struct id'
      rw [hs] at hn ⊢
      rw [hs']
      refine .struct h1 h2 (by simp) (by simp) ?_
      intro s i i' f f' v v' hf hf' hv hv'
      rcases h3.kept s i f hf with ⟨-, hno⟩ | ⟨j, g, hg, hw⟩
      · exact absurd hf'.2.2.1 (hno _ _ hf'.1 hf'.2.1)
      · obtain ⟨rfl, rfl⟩ := fieldFor_unique hf' hg
        have hlt : sizeOf v < sizeOf ((W.fields id).map fun f => W.zero f.ty) := List.sizeOf_lt_of_mem (List.mem_of_getElem? hv)
        have e1 := struct_zero_part hf.1 hv
        have e2 := struct_zero_part hf'.1 hv'
        rw [e1, e2]
        rw [e1] at hlt
        refine ih _ _ ?_ hw.ty
        simp only [Val.struct.sizeOf_spec] at hn
        omega

/-! ### Keys and the option `string` -/

theorem digits_int {s : Bytes} (h : IsDigits s) : IntText s ((digitsVal s : Nat) : Int) := .pos h

theorem inRange_of_le {a : UKind} {b : IKind} {n : Nat} (h : InURange a n) (hl : (uintMax a : Int) ≤ intMax b) : InRange b n := by
  unfold InURange at h
  have : (0 : Int) ≤ intMax b := by cases b <;> decide
  exact ⟨by omega, by omega⟩

theorem inRange_mono {a b : IKind} {i : Int} (h : InRange a i) (hl : intMax a ≤ intMax b) : InRange b i := ⟨by have := h.1; omega, by have := h.2; omega⟩

theorem not_uint_int {W : World} {k k' : Ty} {a b : Ty} (h : Plain W k a) (h' : Plain W k' b) (hn : ∀ x y, a = .uint x → b ≠ .int y) :
    ¬ ∃ x y, W.resolve k = .uint x ∧ W.resolve k' = .int y := by
  rintro ⟨x, y, h1, h2⟩
  exact hn x y (h.2.symm.trans h1) (h'.2.symm.trans h2)

theorem key_widen {W : World} (hz : ZeroOk W) {k k' : Ty} {n : Nat} {d : Doc} {v : Val} (hk : KeyWiden W k k') (h : DecDoc W k n d (W.zero k) v) :
    ∃ v', DecDoc W k' n d (W.zero k') v' ∧ KeyWide W k k' v v' := by
  cases hk with
  | same =>
    refine ⟨v, h, .same ?_⟩
    rintro ⟨a, b, h1, h2⟩
    rw [h1] at h2
    cases h2
  | str h1 h2 =>
    rw [zero_plain hz h1] at h
    rw [zero_plain hz h2]
    refine ⟨v, ?_, .same (not_uint_int h1 h2 (by simp))⟩
    cases h <;> (try simp_all [Plain]; done)
    · exact .strNull h2
    · exact .str h2 ‹_›
  | bool h1 h2 =>
    rw [zero_plain hz h1] at h
    rw [zero_plain hz h2]
    refine ⟨v, ?_, .same (not_uint_int h1 h2 (by simp))⟩
    cases h <;> (try simp_all [Plain]; done)
    · exact .boolNull h2
    · exact .bool h2
  | int h1 h2 h3 =>
    rw [zero_plain hz h1] at h
    rw [zero_plain hz h2]
    refine ⟨v, ?_, .same (not_uint_int h1 h2 (by simp))⟩
    cases h <;> (try simp_all [Plain]; done)
    · exact .intNull h2
    · rename_i hx hr hp
      cases h1.2.symm.trans hp.2
      exact .int h2 hx (inRange_mono hr h3)
  | uint h1 h2 h3 =>
    rw [zero_plain hz h1] at h
    rw [zero_plain hz h2]
    refine ⟨v, ?_, .same (not_uint_int h1 h2 (by simp))⟩
    cases h <;> (try simp_all [Plain]; done)
    · exact .uintNull h2
    · rename_i hx hr hp
      cases h1.2.symm.trans hp.2
      exact .uint h2 hx (Nat.le_trans hr h3)
  | uintInt h1 h2 h3 =>
    rw [zero_plain hz h1] at h
    rw [zero_plain hz h2]
    cases h <;> (try simp_all [Plain]; done)
    · exact ⟨_, .intNull h2, .uintInt (n := 0) h1.2 h2.2⟩
    · rename_i hx hr hp
      cases h1.2.symm.trans hp.2
      exact ⟨_, .int h2 (digits_int hx) (inRange_of_le hr h3), .uintInt h1.2 h2.2⟩

theorem keyWide_goEq {W : World} {k k' : Ty} {a b a' b' : Val} (h : KeyWide W k k' a b) (h' : KeyWide W k k' a' b') : b.goEq b' = a.goEq a' := by
  cases h with
  | same hn =>
    cases h' with
    | same => rfl
    | uintInt h1 h2 => exact absurd ⟨_, _, h1, h2⟩ hn
  | uintInt h1 h2 =>
    cases h' with
    | same hn => exact absurd ⟨_, _, h1, h2⟩ hn
    | uintInt =>
      simp only [Val.goEq]
      rw [Bool.eq_iff_iff]
      simp
      omega

theorem keyWide_hashable {W : World} {k k' : Ty} {a b : Val} (h : KeyWide W k k' a b) (hh : Hashable a) : Hashable b := by
  cases h with
  | same => exact hh
  | uintInt => exact .int

theorem keyWiden_type {W : World} {k k' : Ty} (h : KeyWiden W k k') (hk : KeyType W k) : KeyType W k' := by
  cases h with
  | same => exact hk
  | str _ h2 => exact .inr (.inl h2.2)
  | bool _ h2 => exact .inr (.inr (.inl h2.2))
  | int _ h2 => exact .inr (.inr (.inr (.inl ⟨_, h2.2⟩)))
  | uint _ h2 => exact .inr (.inr (.inr (.inr (.inl ⟨_, h2.2⟩))))
  | uintInt _ h2 => exact .inr (.inr (.inr (.inl ⟨_, h2.2⟩)))

/-- Entries of maps that correspond. -/
def PairsWide (W : World) (k k' e e' : Ty) (es es' : List (Val × Val)) : Prop :=
  es'.length = es.length ∧ (∀ (i : Nat) (p p' : Val × Val), es[i]? = some p → es'[i]? = some p' → KeyWide W k k' p.1 p'.1) ∧
    ∀ (i : Nat) (p p' : Val × Val), es[i]? = some p → es'[i]? = some p' → Wide W e e' p.2 p'.2

theorem pairsWide_cons {W : World} {k k' e e' : Ty} {p p' : Val × Val} {es es' : List (Val × Val)} :
    PairsWide W k k' e e' (p :: es) (p' :: es') ↔ KeyWide W k k' p.1 p'.1 ∧ Wide W e e' p.2 p'.2 ∧ PairsWide W k k' e e' es es' := by
  constructor
  · rintro ⟨h1, h2, h3⟩
    refine ⟨h2 0 _ _ rfl rfl, h3 0 _ _ rfl rfl, by simpa using h1, fun i q q' hq hq' => h2 (i + 1) q q' hq hq', fun i q q' hq hq' => h3 (i + 1) q q' hq hq'⟩
  · rintro ⟨h1, h2, h3, h4, h5⟩
    refine ⟨by simp [h3], ?_, ?_⟩
    · intro i q q' hq hq'
      cases i with
      | zero => cases hq; cases hq'; exact h1
      | succ i => exact h4 i q q' hq hq'
    · intro i q q' hq hq'
      cases i with
      | zero => cases hq; cases hq'; exact h2
      | succ i => exact h5 i q q' hq hq'

theorem pairsWide_nil {W : World} {k k' e e' : Ty} : PairsWide W k k' e e' [] [] := ⟨rfl, fun _ _ _ h => by simp at h, fun _ _ _ h => by simp at h⟩

theorem pairsWide_insert {W : World} {k k' e e' : Ty} {a a' b b' : Val} (ha : KeyWide W k k' a a') (hb : Wide W e e' b b') :
    ∀ {es es' : List (Val × Val)}, PairsWide W k k' e e' es es' → PairsWide W k k' e e' (mapInsert a b es) (mapInsert a' b' es') := by
  intro es
  induction es with
  | nil =>
    intro es' h
    cases es' with
    | nil => exact pairsWide_cons.2 ⟨ha, hb, pairsWide_nil⟩
    | cons p es' => simp [PairsWide] at h
  | cons p es ih =>
    intro es' h
    cases es' with
    | nil => simp [PairsWide] at h
    | cons p' es' =>
      obtain ⟨h1, h2, h3⟩ := pairsWide_cons.1 h
      obtain ⟨x, y⟩ := p
      obtain ⟨x', y'⟩ := p'
      unfold mapInsert
      rw [keyWide_goEq h1 ha]
      split
      · exact pairsWide_cons.2 ⟨ha, hb, h3⟩
      · exact pairsWide_cons.2 ⟨h1, h2, ih h3⟩

theorem scalarText_widen {W : World} {C : Change} {R : Ty → Ty → Prop} {t t' : Ty} {s : Bytes} {v : Val} (hw : WidenStep W C R t t')
    (h : ScalarText W t s v) : ∃ v', ScalarText W t' s v' ∧ Wide W t t' v v' := by
  cases h with
  | bool hp hb =>
    have := step_bool hw hp
    exact ⟨_, .bool this hb, .bool hp this⟩
  | int hp hi hr =>
    obtain ⟨k', h1, h2⟩ := step_int hw hp
    exact ⟨_, .int h1 hi (inRange_mono hr h2), .int hp h1⟩
  | uint hp hi hr =>
    rcases step_uint hw hp with ⟨k', h1, h2⟩ | ⟨k', h1, h2⟩
    · exact ⟨_, .uint h1 hi (Nat.le_trans hr h2), .uint hp h1⟩
    · exact ⟨_, .int h1 (digits_int hi) (inRange_of_le hr h2), .uintInt hp h1⟩
  | f32 hp hx hf =>
    rcases step_f32 hw hp with h1 | h1
    · exact ⟨_, .f32 h1 hx hf, .f32 hp h1⟩
    · exact ⟨_, .f64 h1 hx, .float hp h1⟩
  | f64 hp hx =>
    have h1 := step_f64 hw hp
    exact ⟨_, .f64 h1 hx, .f64 hp h1⟩

theorem wrapped_widen {W : World} {C : Change} {R : Ty → Ty → Prop} {t t' : Ty} {d : Doc} {b b' v : Val} (hw : WidenStep W C R t t')
    (hs : IsScalar W t') (hb : Wide W t t' b b') (h : Wrapped W t d b v) : ∃ v', Wrapped W t' d b' v' ∧ Wide W t t' v v' := by
  cases h with
  | null => exact ⟨b', .null hs, hb⟩
  | str hl ht =>
    obtain ⟨v', h1, h2⟩ := scalarText_widen hw ht
    exact ⟨v', .str hl h1, h2⟩

/-! ### Lists of values -/

/-- Lists that correspond element by element. -/
def ListWide (W : World) (e e' : Ty) (vs vs' : List Val) : Prop :=
  vs'.length = vs.length ∧ ∀ (i : Nat) (v v' : Val), vs[i]? = some v → vs'[i]? = some v' → Wide W e e' v v'

theorem listWide_set {W : World} {e e' : Ty} {vs vs' : List Val} {i : Nat} {v v' : Val} (h : ListWide W e e' vs vs') (hv : Wide W e e' v v') :
    ListWide W e e' (vs.set i v) (vs'.set i v') := by
  refine ⟨by simp [h.1], fun j x x' hx hx' => ?_⟩
  rw [List.getElem?_set] at hx hx'
  by_cases hij : i = j
  · subst hij
    simp only [if_true] at hx hx'
    split at hx <;> simp at hx
    split at hx' <;> simp at hx'
    subst hx hx'
    exact hv
  · simp only [hij, if_false] at hx hx'
    exact h.2 j x x' hx hx'

theorem listWide_get {W : World} {e e' : Ty} {vs vs' : List Val} {i : Nat} {v : Val} (h : ListWide W e e' vs vs') (hv : vs[i]? = some v) :
    ∃ v', vs'[i]? = some v' ∧ Wide W e e' v v' := by
  have hlt : i < vs'.length := by rw [h.1]; exact (List.getElem?_eq_some_iff.1 hv).1
  exact ⟨vs'[i], List.getElem?_eq_getElem hlt, h.2 i _ _ hv (List.getElem?_eq_getElem hlt)⟩

theorem listWide_pad {W : World} {e e' : Ty} {vs vs' : List Val} {i : Nat} {z z' : Val} (h : ListWide W e e' vs vs') (hz : Wide W e e' z z') :
    ListWide W e e' (padTo z i vs) (padTo z' i vs') := by
  unfold padTo
  refine ⟨by simp [h.1], fun j x x' hx hx' => ?_⟩
  rw [List.getElem?_append] at hx hx'
  rw [h.1] at hx'
  split at hx
  · rename_i hlt
    rw [if_pos hlt] at hx'
    exact h.2 j x x' hx hx'
  · rename_i hlt
    rw [if_neg hlt] at hx'
    have h1 := List.mem_of_getElem? hx
    have h2 := List.mem_of_getElem? hx'
    rw [List.mem_replicate] at h1 h2
    rw [h1.2, h2.2]
    exact hz

/-- Values of fields that correspond. -/
def FieldsWide (W : World) (id id' : Nat) (vs vs' : List Val) : Prop :=
  vs.length = (W.fields id).length ∧ vs'.length = (W.fields id').length ∧
    ∀ (s : Bytes) (i i' : Nat) (f f' : Field) (x x' : Val), FieldFor W id s i f → FieldFor W id' s i' f' → vs[i]? = some x → vs'[i']? = some x' →
      Wide W f.ty f'.ty x x'

theorem fieldFor_index {W : World} {id : Nat} {s s' : Bytes} {i : Nat} {f g : Field} (h : FieldFor W id s i f) (h' : FieldFor W id s' i g) : s = s' := by
  have e := h.1.symm.trans h'.1
  cases e
  exact hasKey_unique h.2.2.1 h'.2.2.1

theorem fieldsWide_set {W : World} {id id' : Nat} {vs vs' : List Val} {s : Bytes} {i i' : Nat} {f f' : Field} {v v' : Val}
    (h : FieldsWide W id id' vs vs') (hf : FieldFor W id s i f) (hf' : FieldFor W id' s i' f') (hv : Wide W f.ty f'.ty v v') :
    FieldsWide W id id' (vs.set i v) (vs'.set i' v') := by
  refine ⟨by simp [h.1], by simp [h.2.1], fun s2 j j' g g' x x' hg hg' hx hx' => ?_⟩
  rw [List.getElem?_set] at hx hx'
  by_cases hij : i = j
  · subst hij
    have := fieldFor_index hf hg
    subst this
    obtain ⟨-, rfl⟩ := fieldFor_unique hf hg
    obtain ⟨rfl, rfl⟩ := fieldFor_unique hf' hg'
    simp only [if_true] at hx hx'
    split at hx <;> simp at hx
    split at hx' <;> simp at hx'
    subst hx hx'
    exact hv
  · have hij' : i' ≠ j' := by
      rintro rfl
      have := fieldFor_index hf' hg'
      subst this
      exact hij (fieldFor_unique hf hg).1
    simp only [hij, hij', if_false] at hx hx'
    exact h.2.2 s2 j j' g g' x x' hg hg' hx hx'

/-- The old value of the field may be anything if the field was dropped. -/
theorem fieldsWide_drop {W : World} {id id' : Nat} {vs vs' : List Val} {s : Bytes} {i : Nat} {f : Field} {v : Val}
    (h : FieldsWide W id id' vs vs') (hf : FieldFor W id s i f) (hno : NoField W id' s) : FieldsWide W id id' (vs.set i v) vs' := by
  refine ⟨by simp [h.1], h.2.1, fun s2 j j' g g' x x' hg hg' hx hx' => ?_⟩
  rw [List.getElem?_set] at hx
  by_cases hij : i = j
  · subst hij
    have := fieldFor_index hf hg
    subst this
    exact absurd hg'.2.2.1 (hno _ _ hg'.1 hg'.2.1)
  · simp only [hij, if_false] at hx
    exact h.2.2 s2 j j' g g' x x' hg hg' hx hx'

theorem fieldsWide_get {W : World} {id id' : Nat} {vs vs' : List Val} {s : Bytes} {i i' : Nat} {f f' : Field} {v : Val}
    (h : FieldsWide W id id' vs vs') (hf : FieldFor W id s i f) (hf' : FieldFor W id' s i' f') (hv : vs[i]? = some v) :
    ∃ v', vs'[i']? = some v' ∧ Wide W f.ty f'.ty v v' := by
  have hlt : i' < vs'.length := by rw [h.2.1]; exact (List.getElem?_eq_some_iff.1 hf'.1).1
  exact ⟨vs'[i'], List.getElem?_eq_getElem hlt, h.2.2 s i i' f f' _ _ hf hf' hv (List.getElem?_eq_getElem hlt)⟩

theorem ignored_not_scalar {W : World} {t : Ty} (h : StringIgnored W t) (hs : IsScalar W t) : False := by
  rcases hs with ⟨a, b⟩ | ⟨k, a, b⟩ | ⟨k, a, b⟩ | ⟨a, b⟩ | ⟨a, b⟩ <;> simp_all [StringIgnored]

theorem ignored_not_ptr {W : World} {t e : Ty} (h : StringIgnored W t) (hs : Plain W t (.ptr e)) : False := by
  obtain ⟨a, b⟩ := hs
  simp_all [StringIgnored]

/-- What a document must satisfy entry by entry. -/
structure SuitsAll (C : Change) (es : List (Doc × Doc)) : Prop where
  keys : ∀ k v s, (k, v) ∈ es → FieldKey k s → ¬ C.adds s
  key : ∀ k v, (k, v) ∈ es → Suits C k
  val : ∀ k v, (k, v) ∈ es → Suits C v

theorem SuitsAll.tail {C : Change} {p : Doc × Doc} {es : List (Doc × Doc)} (h : SuitsAll C (p :: es)) : SuitsAll C es :=
  ⟨fun k v s hm => h.keys k v s (List.mem_cons_of_mem _ hm), fun k v hm => h.key k v (List.mem_cons_of_mem _ hm),
    fun k v hm => h.val k v (List.mem_cons_of_mem _ hm)⟩

/-- The indices in the entries are small enough for slices that grew. -/
def Indices (C : Change) (es : List (Doc × Doc)) : Prop :=
  ∀ k v t i, (k, v) ∈ es → k = .int t → IntText t (i : Nat) → C.grows * (i + 1) ≤ 2 ^ 48

theorem suits_container {C : Change} {d : Doc} {cnt : Bytes} {es : List (Doc × Doc)} (h : Suits C d) (hc : Container d cnt es) : SuitsAll C es := by
  cases hc with
  | arr => cases h with | arr _ _ h1 _ h2 h3 => exact ⟨h1, h2, h3⟩
  | obj => cases h with | obj _ h1 h2 h3 => exact ⟨h1, h2, h3⟩

theorem slice_room {C : Change} {a b m : Nat} (h : a ≤ b ∨ a ≤ C.grows) (h1 : b * m ≤ 2 ^ 48) (h2 : C.grows * m ≤ 2 ^ 48) : a * m ≤ 2 ^ 48 := by
  rcases h with h | h
  · exact Nat.le_trans (Nat.mul_le_mul_right _ h) h1
  · exact Nat.le_trans (Nat.mul_le_mul_right _ h) h2

theorem decDoc_widen {W : World} {C : Change} {R : Ty → Ty → Prop} (hz : ZeroOk W) (h0 : W.toF32 0 = 0) (hR : Widening W C R)
    {t : Ty} {n : Nat} {d : Doc} {rv v : Val} (h : DecDoc W t n d rv v) :
    ∀ t' rv', R t t' → Wide W t t' rv rv' → Suits C d → ∃ v', DecDoc W t' n d rv' v' ∧ Wide W t t' v v' := by
  have zero : ∀ {t t'}, R t t' → Wide W t t' (W.zero t) (W.zero t') := fun h => wide_zero hz h0 hR _ _ _ (Nat.le_refl _) h
  refine DecDoc.rec (motive_1 := fun t n d rv v _ => ∀ t' rv', R t t' → Wide W t t' rv rv' → Suits C d → ∃ v', DecDoc W t' n d rv' v' ∧ Wide W t t' v v')
    (motive_2 := fun e n es vs vs' _ => ∀ e' ws, R e e' → (esize W e' ≤ esize W e ∨ esize W e' ≤ C.grows) → ListWide W e e' vs ws → SuitsAll C es →
      Indices C es → ∃ ws', DecElems W e' n es ws ws' ∧ ListWide W e e' vs' ws')
    (motive_3 := fun e n es vs vs' _ => ∀ e' ws, R e e' → ListWide W e e' vs ws → SuitsAll C es →
      ∃ ws', DecArr W e' n es ws ws' ∧ ListWide W e e' vs' ws')
    (motive_4 := fun km e n es m m' _ => ∀ k, km = .ofType k → ∀ k' e' ms, KeyWiden W k k' → R e e' → PairsWide W k k' e e' m ms → SuitsAll C es →
      ∃ ms', DecPairs W (.ofType k') e' n es ms ms' ∧ PairsWide W k k' e e' m' ms')
    (motive_5 := fun id n es vs vs' _ => ∀ id' ws, FieldsWiden W C R id id' → FieldsWide W id id' vs ws → SuitsAll C es →
      ∃ ws', DecFields W id' n es ws ws' ∧ FieldsWide W id id' vs' ws')
    ?_ ?_ ?_ ?_ ?_ ?_ ?_ ?_ ?_ ?_ ?_ ?_ ?_ ?_ ?_ ?_ ?_ ?_ ?_ ?_ ?_ ?_ ?_ ?_ ?_ ?_ ?_ ?_ ?_ ?_ ?_ ?_ ?_ ?_ ?_ ?_ ?_ ?_ ?_ ?_ ?_ ?_ ?_ ?_ ?_ ?_ ?_ ?_ ?_ ?_ ?_ ?_ ?_ ?_ ?_ h
  · intro _ _ _ _ hu
    intro t' rv' hr hw hs
    have := step_unm (hR _ _ hr) (by simp [hu])
    subst this
    exact ⟨_, .unmNull hu, .unm (by simp [hu])⟩
  · intro _ _ _ _ _ _ hu hd hst hm
    intro t' rv' hr hw hs
    have := step_unm (hR _ _ hr) (by simp [hu])
    subst this
    exact ⟨_, .unm hu hd hst hm, .unm (by simp [hu])⟩
  · intro _ _ _ _ hp hn
    intro t' rv' hr hw hs
    obtain ⟨e', h1, h2, h3⟩ := step_ptr (hR _ _ hr) hp
    exact ⟨_, .ptrNull h1 h2, .ptrNil hp h1⟩
  · intro _ _ _ _ _ hp hn hd _ ih
    intro t' rv' hr hw hs
    obtain ⟨e', h1, h2, h3⟩ := step_ptr (hR _ _ hr) hp
    rcases wide_ptr hw hp h1 with ⟨-, rfl⟩ | ⟨_, _, h4, -⟩
    · obtain ⟨v', h5, h6⟩ := ih e' (W.zero e') h3 (zero h3) hs
      exact ⟨_, .ptrNew h1 h2 hd h5, .ptr hp h1 h6⟩
    · cases h4
  · intro _ _ _ _ _ _ hp hn hd _ ih
    intro t' rv' hr hw hs
    obtain ⟨e', h1, h2, h3⟩ := step_ptr (hR _ _ hr) hp
    rcases wide_ptr hw hp h1 with ⟨h4, -⟩ | ⟨_, x', h4, rfl, h5⟩
    · cases h4
    · cases h4
      obtain ⟨v', h6, h7⟩ := ih e' x' h3 h5 hs
      exact ⟨_, .ptrOld h1 h2 hd h6, .ptr hp h1 h7⟩
  · intro _ _ _ hp
    intro t' rv' hr hw hs
    exact ⟨_, .boolNull (step_bool (hR _ _ hr) hp), hw⟩
  · intro _ _ _ _ hp
    intro t' rv' hr hw hs
    have := step_bool (hR _ _ hr) hp
    exact ⟨_, .bool this, .bool hp this⟩
  · intro _ _ _ _ hp
    intro t' rv' hr hw hs
    obtain ⟨k', h1, -⟩ := step_int (hR _ _ hr) hp
    exact ⟨_, .intNull h1, hw⟩
  · intro _ _ _ _ _ _ hp hi hr'
    intro t' rv' hr hw hs
    obtain ⟨k', h1, h2⟩ := step_int (hR _ _ hr) hp
    exact ⟨_, .int h1 hi (inRange_mono hr' h2), .int hp h1⟩
  · intro _ _ _ _ hp
    intro t' rv' hr hw hs
    rcases step_uint (hR _ _ hr) hp with ⟨k', h1, -⟩ | ⟨k', h1, -⟩
    · exact ⟨_, .uintNull h1, hw⟩
    · exact ⟨_, .intNull h1, hw⟩
  · intro _ _ _ _ _ hp hi hr'
    intro t' rv' hr hw hs
    rcases step_uint (hR _ _ hr) hp with ⟨k', h1, h2⟩ | ⟨k', h1, h2⟩
    · exact ⟨_, .uint h1 hi (Nat.le_trans hr' h2), .uint hp h1⟩
    · exact ⟨_, .int h1 (digits_int hi) (inRange_of_le hr' h2), .uintInt hp h1⟩
  · intro _ _ _ hp
    intro t' rv' hr hw hs
    rcases step_f32 (hR _ _ hr) hp with h1 | h1
    · exact ⟨_, .f32Null h1, hw⟩
    · exact ⟨_, .f64Null h1, hw⟩
  · intro _ _ _ _ _ hp hn h59 hx hf
    intro t' rv' hr hw hs
    rcases step_f32 (hR _ _ hr) hp with h1 | h1
    · exact ⟨_, .f32 h1 hn h59 hx hf, .f32 hp h1⟩
    · exact ⟨_, .f64 h1 hn h59 hx, .float hp h1⟩
  · intro _ _ _ hp
    intro t' rv' hr hw hs
    exact ⟨_, .f64Null (step_f64 (hR _ _ hr) hp), hw⟩
  · intro _ _ _ _ _ hp hn h59 hx
    intro t' rv' hr hw hs
    have h1 := step_f64 (hR _ _ hr) hp
    exact ⟨_, .f64 h1 hn h59 hx, .f64 hp h1⟩
  · intro _ _ _ hp
    intro t' rv' hr hw hs
    exact ⟨_, .strNull (step_str (hR _ _ hr) hp), hw⟩
  · intro _ _ _ _ _ hp hl
    intro t' rv' hr hw hs
    have h1 := step_str (hR _ _ hr) hp
    exact ⟨_, .str h1 hl, .str hp h1⟩
  · intro _ _ _ _ hp hb
    intro t' rv' hr hw hs
    obtain ⟨e', h1, h2, -, -⟩ := step_slice (hR _ _ hr) hp
    exact ⟨_, .bytesNull h1 (h2.trans hb), hw⟩
  · intro _ _ _ _ _ _ hp hb hl
    intro t' rv' hr hw hs
    obtain ⟨e', h1, h2, -, h3⟩ := step_slice (hR _ _ hr) hp
    refine ⟨_, .bytes h1 (h2.trans hb) hl, .slice hp h1 rfl ?_⟩
    intro i v v' hv hv'
    rw [hv] at hv'
    cases hv'
    have hb' := h2.trans hb
    cases hR _ _ h3 with
    | unm h => exact .unm h
    | uint a b => exact .uint a b
    | _ => simp_all [Plain, World.isByte]
  · intro _ _ _ _ hp hb
    intro t' rv' hr hw hs
    obtain ⟨e', h1, h2, -, -⟩ := step_slice (hR _ _ hr) hp
    exact ⟨_, .sliceNull h1 (h2.trans hb), .sliceNil hp h1⟩
  · intro _ _ _ _ hp
    intro t' rv' hr hw hs
    obtain ⟨e', h1, h2, -, -⟩ := step_slice (hR _ _ hr) hp
    exact ⟨_, .sliceEmpty h1, .sliceNil hp h1⟩
  · intro _ _ _ _ _ _ _ _ hp hl hh hm hne _ ih
    intro t' rv' hr hw hs
    obtain ⟨e', h1, h2, h3, h4⟩ := step_slice (hR _ _ hr) hp
    have hsc := suits_container hs .arr
    cases hs with
    | arr _ hg _ hi _ _ =>
      obtain ⟨ws', h5, h6⟩ := ih e' [] h4 h3 ⟨rfl, fun _ _ _ h => by simp at h⟩ hsc hi
      rw [hl.2.1] at hg
      exact ⟨_, .slice h1 hl hh (slice_room h3 hm hg) hne h5, .slice hp h1 h6.1 h6.2⟩
  · intro _ _ _ _ _ hp
    intro t' rv' hr hw hs
    obtain ⟨e', h1, -⟩ := step_array (hR _ _ hr) hp
    exact ⟨_, .arrayNull h1, hw⟩
  · intro _ _ _ _ _ hp
    intro t' rv' hr hw hs
    obtain ⟨e', h1, h2⟩ := step_array (hR _ _ hr) hp
    refine ⟨_, .arrayEmpty h1, .arr hp h1 (by simp) ?_⟩
    intro i v v' hv hv'
    have h3 := List.mem_of_getElem? hv
    have h4 := List.mem_of_getElem? hv'
    rw [List.mem_replicate] at h3 h4
    rw [h3.2, h4.2]
    exact zero h2
  · intro _ _ _ _ _ _ _ _ _ hp hl hh hne _ ih
    intro t' rv' hr hw hs
    obtain ⟨e', h1, h2⟩ := step_array (hR _ _ hr) hp
    obtain ⟨ws', h5, h6⟩ := ih e' (List.replicate _ (W.zero e')) h2 (by
      refine ⟨by simp; rfl, ?_⟩
      intro i v v' hv hv'
      have h3 := List.mem_of_getElem? hv
      have h4 := List.mem_of_getElem? hv'
      rw [List.mem_replicate] at h3 h4
      rw [h3.2, h4.2]
      exact zero h2) (suits_container hs .arr)
    exact ⟨_, .array h1 hl hh hne h5, .arr hp h1 h6.1 h6.2⟩
  · intro _ _ _ _ _ hp
    intro t' rv' hr hw hs
    obtain ⟨k', v', h1, -, -⟩ := step_map (hR _ _ hr) hp
    exact ⟨_, .mapNull h1, .mapNil hp h1⟩
  · intro _ _ _ _ _ _ _ _ _ _ _ hp hc hl hb _ ih
    intro t' rv' hr hw hs
    obtain ⟨k', v', h1, h2, h3⟩ := step_map (hR _ _ hr) hp
    have hsc := suits_container hs hc
    rcases wide_map hw hp h1 with ⟨rfl, rfl⟩ | ⟨es, es', rfl, rfl, h4⟩
    · cases hb
      obtain ⟨ms', h5, h6⟩ := ih _ rfl k' v' [] h2 h3 pairsWide_nil hsc
      exact ⟨_, .map h1 hc hl .nil h5, .map hp h1 h6.1 h6.2.1 h6.2.2⟩
    · cases hb
      obtain ⟨ms', h5, h6⟩ := ih _ rfl k' v' es' h2 h3 h4 hsc
      exact ⟨_, .map h1 hc hl .map h5, .map hp h1 h6.1 h6.2.1 h6.2.2⟩
  · intro _ _ _ _ hp
    intro t' rv' hr hw hs
    obtain ⟨id', h1, -⟩ := step_struct (hR _ _ hr) hp
    exact ⟨_, .structNull h1, hw⟩
  · intro _ _ _ _ _ _ hp hc hd
    intro t' rv' hr hw hs
    obtain ⟨id', h1, -⟩ := step_struct (hR _ _ hr) hp
    exact ⟨_, .structEmpty h1 hc hd, hw⟩
  · intro _ _ _ _ _ _ _ _ hp hc hd hne _ ih
    intro t' rv' hr hw hs
    obtain ⟨id', h1, h2⟩ := step_struct (hR _ _ hr) hp
    obtain ⟨vs, vs', h3, rfl, h4⟩ := wide_struct hw hp h1
    cases h3
    obtain ⟨ws', h5, h6⟩ := ih id' vs' h2 h4 (suits_container hs hc)
    exact ⟨_, .struct h1 hc hd hne h5, .struct hp h1 h6.1 h6.2.1 h6.2.2⟩
  · intro _ _ _ hp
    intro t' rv' hr hw hs
    have := step_any (hR _ _ hr) hp
    subst this
    exact ⟨_, .anyNull hp, .any hp⟩
  · intro _ _ _ _ hp
    intro t' rv' hr hw hs
    have := step_any (hR _ _ hr) hp
    subst this
    exact ⟨_, .anyBool hp, .any hp⟩
  · intro _ _ _ _ _ hp h1 h2
    intro t' rv' hr hw hs
    have := step_any (hR _ _ hr) hp
    subst this
    exact ⟨_, .anyInt hp h1 h2, .any hp⟩
  · intro _ _ _ _ _ hp h1 h2 h3
    intro t' rv' hr hw hs
    have := step_any (hR _ _ hr) hp
    subst this
    exact ⟨_, .anyFloat hp h1 h2 h3, .any hp⟩
  · intro _ _ _ _ _ hp h1
    intro t' rv' hr hw hs
    have := step_any (hR _ _ hr) hp
    subst this
    exact ⟨_, .anyStr hp h1, .any hp⟩
  · intro _ _ _ _ _ _ _ hp h1 h2 _
    intro t' rv' hr hw hs
    have := step_any (hR _ _ hr) hp
    subst this
    exact ⟨_, .anyArr hp h1 h2, .any hp⟩
  · intro _ _ _ _ _ _ _ _ _ hp h1 h2 h3 _
    intro t' rv' hr hw hs
    have := step_any (hR _ _ hr) hp
    subst this
    exact ⟨_, .anyObj hp h1 h2 h3, .any hp⟩
  · intro _ _ _ _ hp
    intro t' rv' hr hw hs
    have := step_iface (hR _ _ hr) hp
    subst this
    exact ⟨_, .ifaceNull hp, .iface hp⟩
  · intro _ _ _ _ _ _ _ hp h1 h2 h3 h4
    intro t' rv' hr hw hs
    have := step_iface (hR _ _ hr) hp
    subst this
    have := wide_iface hw hp
    subst this
    exact ⟨_, .ifaceDyn hp h1 h2 h3 h4, .iface hp⟩
  · intro _ _ _ e' ws hr hg hw hs hi
    exact ⟨ws, .nil, hw⟩
  · intro e n txt i d es vs v0 v vs' ht hi hsz h0' _ _ ih1 ih2 e' ws hr hg hw hs hix
    obtain ⟨w0, h1, h2⟩ := listWide_get (listWide_pad (i := i) hw (zero hr)) h0'
    obtain ⟨w, h3, h4⟩ := ih1 e' w0 hr h2 (hs.val _ _ List.mem_cons_self)
    obtain ⟨ws', h5, h6⟩ := ih2 e' _ hr hg (listWide_set (i := i) (listWide_pad (i := i) hw (zero hr)) h4) hs.tail
      fun k v t i hm => hix k v t i (List.mem_cons_of_mem _ hm)
    refine ⟨ws', .cons ht hi ?_ h1 h3 h5, h6⟩
    intro hle
    rw [hw.1] at hle
    obtain ⟨h7, h8⟩ := hsz hle
    exact ⟨h7, slice_room hg h8 (hix _ _ _ _ List.mem_cons_self rfl ht)⟩
  · intro _ _ _ e' ws hr hw hs
    exact ⟨ws, .nil, hw⟩
  · intro e n txt i d es vs v0 v vs' ht hi h0' _ _ ih1 ih2 e' ws hr hw hs
    obtain ⟨w0, h1, h2⟩ := listWide_get hw h0'
    obtain ⟨w, h3, h4⟩ := ih1 e' w0 hr h2 (hs.val _ _ List.mem_cons_self)
    obtain ⟨ws', h5, h6⟩ := ih2 e' _ hr (listWide_set (i := i) hw h4) hs.tail
    exact ⟨ws', .store ht hi h1 h3 h5, h6⟩
  · intro e n txt i d es vs vs' ht hi hle hst _ ih e' ws hr hw hs
    obtain ⟨ws', h5, h6⟩ := ih e' ws hr hw hs.tail
    exact ⟨ws', .skip ht hi (by rw [hw.1]; exact hle) hst h5, h6⟩
  · intro _ _ _ _ k hk k' e' ms hkw hr hw hs
    exact ⟨ms, .nil, hw⟩
  · intro k v n kd d es kv x m m' hkt hkd _ hh _ _ ih1 ih2 k0 hk0 k' e' ms hkw hr hw hs
    cases hk0
    obtain ⟨kv', h1, h2⟩ := key_widen hz hkw hkd
    obtain ⟨x', h3, h4⟩ := ih1 e' _ hr (zero hr) (hs.val _ _ List.mem_cons_self)
    obtain ⟨ms', h5, h6⟩ := ih2 _ rfl k' e' _ hkw hr (pairsWide_insert h2 h4 hw) hs.tail
    exact ⟨ms', .key (keyWiden_type hkw hkt) h1 h3 (keyWide_hashable h2 hh) h5, h6⟩
  · intro k p v n d es x m m' hp hu hkt _ _ ih1 ih2 k0 hk0 k' e' ms hkw hr hw hs
    cases hk0
    have : k' = k := by
      obtain ⟨h1, h2⟩ := hp
      cases hkw <;> simp_all [Plain]
    subst this
    obtain ⟨x', h3, h4⟩ := ih1 e' _ hr (zero hr) (hs.val _ _ List.mem_cons_self)
    have hne : ¬ ∃ a b, W.resolve k' = .uint a ∧ W.resolve k' = .int b := by
      rintro ⟨a, b, h1, h2⟩
      rw [h1] at h2
      cases h2
    obtain ⟨ms', h5, h6⟩ := ih2 _ rfl k' e' _ hkw hr (pairsWide_insert (.same hne) h4 hw) hs.tail
    exact ⟨ms', .ptrKey hp hu hkt h3 h5, h6⟩
  · intro _ _ _ _ _ _ _ _ _ _ _ _ _ _ _ k hk
    cases hk
  · intro _ _ _ _ _ _ _ _ _ _ _ _ _ _ k hk
    cases hk
  · intro _ _ _ id' ws hf hw hs
    exact ⟨ws, .nil, hw⟩
  · intro id n kd s d es vs vs' hk hn hst _ ih id' ws hf hw hs
    obtain ⟨ws', h5, h6⟩ := ih id' ws hf hw hs.tail
    rcases hf.added s hn with h1 | h1
    · exact ⟨ws', .skip hk h1 hst h5, h6⟩
    · exact absurd h1 (hs.keys _ _ s List.mem_cons_self hk)
  · intro id n kd s i f d es vs v0 v vs' hk hf ho h0' hd _ ih1 ih2 id' ws hfs hw hs
    rcases hfs.kept s i f hf with ⟨hdr, hno⟩ | ⟨i', f', hf', hfw⟩
    · obtain ⟨ws', h5, h6⟩ := ih2 id' ws hfs (fieldsWide_drop hw hf hno) hs.tail
      exact ⟨ws', .skip hk hno ((hs.val _ _ List.mem_cons_self).strict hdr (decDoc_lax hd)) h5, h6⟩
    · obtain ⟨w0, h1, h2⟩ := fieldsWide_get hw hf hf' h0'
      obtain ⟨w, h3, h4⟩ := ih1 _ w0 hfw.ty h2 (hs.val _ _ List.mem_cons_self)
      obtain ⟨ws', h5, h6⟩ := ih2 id' _ hfs (fieldsWide_set hw hf hf' h4) hs.tail
      refine ⟨ws', .plain hk hf' ?_ h1 h3 h5, h6⟩
      rcases hfw.option with ⟨-, h⟩ | ⟨h7, -, h8⟩
      · exact h
      · rcases ho with ho | ho
        · exact absurd h7 ho
        · rcases h8 with ⟨h8, -⟩ | ⟨e, e', h8, -⟩
          · exact (ignored_not_scalar ho h8).elim
          · exact (ignored_not_ptr ho h8).elim
  · intro id n kd s i f d es vs v0 v vs' hk hf hst hsc h0' hd _ ih id' ws hfs hw hs
    rcases hfs.kept s i f hf with ⟨hdr, hno⟩ | ⟨i', f', hf', hfw⟩
    · obtain ⟨ws', h5, h6⟩ := ih id' ws hfs (fieldsWide_drop hw hf hno) hs.tail
      exact ⟨ws', .skip hk hno ((hs.val _ _ List.mem_cons_self).strict hdr (lax_wrapped hd)) h5, h6⟩
    · obtain ⟨w0, h1, h2⟩ := fieldsWide_get hw hf hf' h0'
      rcases hfw.option with ⟨h, -⟩ | ⟨-, h7, h8⟩
      · rcases h with h | h
        · exact absurd hst h
        · exact (ignored_not_scalar h hsc).elim
      · rcases h8 with ⟨-, h8⟩ | ⟨e, e', h8, -⟩
        · obtain ⟨w, h3, h4⟩ := wrapped_widen (hR _ _ hfw.ty) h8 h2 hd
          obtain ⟨ws', h5, h6⟩ := ih id' _ hfs (fieldsWide_set hw hf hf' h4) hs.tail
          exact ⟨ws', .wrapped hk hf' h7 h8 h1 h3 h5, h6⟩
        · obtain ⟨a, b⟩ := h8
          rcases hsc with ⟨_, c⟩ | ⟨_, _, c⟩ | ⟨_, _, c⟩ | ⟨_, c⟩ | ⟨_, c⟩ <;> simp_all
  · intro id n kd s i f e es vs v0 vs' hk hf hst hp hsc h0' _ ih id' ws hfs hw hs
    rcases hfs.kept s i f hf with ⟨hdr, hno⟩ | ⟨i', f', hf', hfw⟩
    · obtain ⟨ws', h5, h6⟩ := ih id' ws hfs (fieldsWide_drop hw hf hno) hs.tail
      exact ⟨ws', .skip hk hno .null h5, h6⟩
    · obtain ⟨w0, h1, h2⟩ := fieldsWide_get hw hf hf' h0'
      rcases hfw.option with ⟨h, -⟩ | ⟨-, h7, h8⟩
      · rcases h with h | h
        · exact absurd hst h
        · exact (ignored_not_ptr h hp).elim
      · rcases h8 with ⟨h8, -⟩ | ⟨e1, e', h8, h9, -, h10, -⟩
        · obtain ⟨a, b⟩ := hp
          rcases h8 with ⟨_, c⟩ | ⟨_, _, c⟩ | ⟨_, _, c⟩ | ⟨_, c⟩ | ⟨_, c⟩ <;> simp_all
        · obtain ⟨ws', h5, h6⟩ := ih id' _ hfs (fieldsWide_set hw hf hf' (.ptrNil hp h9)) hs.tail
          exact ⟨ws', .wrappedPtrNull hk hf' h7 h9 h10 h1 h5, h6⟩
  · intro id n kd s i f e d es vs v0 b v vs' hk hf hst hp hsc h0' hb hdn hd _ ih id' ws hfs hw hs
    rcases hfs.kept s i f hf with ⟨hdr, hno⟩ | ⟨i', f', hf', hfw⟩
    · obtain ⟨ws', h5, h6⟩ := ih id' ws hfs (fieldsWide_drop hw hf hno) hs.tail
      exact ⟨ws', .skip hk hno ((hs.val _ _ List.mem_cons_self).strict hdr (lax_wrapped hd)) h5, h6⟩
    · obtain ⟨w0, h1, h2⟩ := fieldsWide_get hw hf hf' h0'
      rcases hfw.option with ⟨h, -⟩ | ⟨-, h7, h8⟩
      · rcases h with h | h
        · exact absurd hst h
        · exact (ignored_not_ptr h hp).elim
      · rcases h8 with ⟨h8, -⟩ | ⟨e1, e', h8, h9, -, h10, h11⟩
        · obtain ⟨a, b⟩ := hp
          rcases h8 with ⟨_, c⟩ | ⟨_, _, c⟩ | ⟨_, _, c⟩ | ⟨_, c⟩ | ⟨_, c⟩ <;> simp_all
        · cases hp.2.symm.trans h8.2
          obtain ⟨b', hb', hbw⟩ : ∃ b', ((w0 = .ptrNil ∧ b' = W.zero e') ∨ w0 = .ptr b') ∧ Wide W e e' b b' := by
            rcases wide_ptr h2 hp h9 with ⟨rfl, rfl⟩ | ⟨x, x', rfl, rfl, h12⟩
            · rcases hb with ⟨-, rfl⟩ | hb
              · exact ⟨_, .inl ⟨rfl, rfl⟩, zero h11⟩
              · cases hb
            · rcases hb with ⟨hb, -⟩ | hb
              · cases hb
              · cases hb
                exact ⟨x', .inr rfl, h12⟩
          obtain ⟨w, h3, h4⟩ := wrapped_widen (hR _ _ h11) h10 hbw hd
          obtain ⟨ws', h5, h6⟩ := ih id' _ hfs (fieldsWide_set hw hf hf' (.ptr hp h9 h4)) hs.tail
          exact ⟨ws', .wrappedPtr hk hf' h7 h9 h10 h1 hb' hdn h3 h5, h6⟩

theorem suits_none {C : Change} (h1 : ¬ C.drops) (h2 : ∀ s, ¬ C.adds s) (h3 : C.grows = 0) {m : Nat} {d : Doc} (h : Lax m d) : Suits C d := by
  induction h with
  | null => exact .null
  | bool => exact .bool
  | int => exact .int
  | float => exact .float
  | str => exact .str
  | arr _ _ _ ih1 ih2 =>
    exact .arr (fun h => absurd h h1) (by simp [h3]) (fun _ _ s _ _ => h2 s) (fun _ _ _ _ _ _ _ => by simp [h3]) ih1 ih2
  | obj _ _ _ _ ih1 ih2 => exact .obj (fun h => absurd h h1) (fun _ _ s _ _ => h2 s) ih1 ih2

end Verif

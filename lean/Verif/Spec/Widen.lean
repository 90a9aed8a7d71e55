import Verif.Spec.Back
/-
Changing the type of a destination to a wider one: which changes are meant, and how the decoded values correspond.
-/
namespace Verif.Spec
open Verif

/-- What a change of types asks of documents: whether fields were dropped, the keys of added fields, and the size of the largest element of a slice
whose elements grew. -/
structure Change where
  drops : Prop
  adds : Bytes → Prop
  grows : Nat

/-- The document copes with the change: its counts are exact if fields were dropped (values of unknown keys are checked), no key in it is that of an
added field, and no length or index in it is too large for slices of the larger elements. -/
inductive Suits (C : Change) : Doc → Prop
  | null : Suits C .null
  | bool {b} : Suits C (.bool b)
  | int {t} : Suits C (.int t)
  | float {t} : Suits C (.float t)
  | str {len s} : Suits C (.str len s)
  | arr {cnt es} : (C.drops → LenText cnt es.length) → C.grows * digitsVal cnt ≤ 2 ^ 48 →
      (∀ k v s, (k, v) ∈ es → FieldKey k s → ¬ C.adds s) → (∀ k v t i, (k, v) ∈ es → k = .int t → IntText t (i : Nat) → C.grows * (i + 1) ≤ 2 ^ 48) →
      (∀ k v, (k, v) ∈ es → Suits C k) → (∀ k v, (k, v) ∈ es → Suits C v) → Suits C (.arr cnt es)
  | obj {clen cls cnt es} : (C.drops → LenText cnt es.length) →
      (∀ k v s, (k, v) ∈ es → FieldKey k s → ¬ C.adds s) →
      (∀ k v, (k, v) ∈ es → Suits C k) → (∀ k v, (k, v) ∈ es → Suits C v) → Suits C (.obj clen cls cnt es)

/-- Wider map keys: the same type, or the same kind with at least the same range. -/
inductive KeyWiden (W : World) : Ty → Ty → Prop
  | same {k} : KeyWiden W k k
  | str {k k'} : Plain W k .str → Plain W k' .str → KeyWiden W k k'
  | bool {k k'} : Plain W k .bool → Plain W k' .bool → KeyWiden W k k'
  | int {k k' a b} : Plain W k (.int a) → Plain W k' (.int b) → intMax a ≤ intMax b → KeyWiden W k k'
  | uint {k k' a b} : Plain W k (.uint a) → Plain W k' (.uint b) → uintMax a ≤ uintMax b → KeyWiden W k k'
  | uintInt {k k' a b} : Plain W k (.uint a) → Plain W k' (.int b) → (uintMax a : Int) ≤ intMax b → KeyWiden W k k'

/-- The option `string` has no effect on the field. -/
def PlainField (W : World) (f : Field) : Prop := ¬ HasString W f ∨ StringIgnored W f.ty

/-- The type of a field becomes wider, the option `string` stays. -/
structure FieldWiden (W : World) (R : Ty → Ty → Prop) (f f' : Field) : Prop where
  ty : R f.ty f'.ty
  option : (PlainField W f ∧ PlainField W f') ∨ (HasString W f ∧ HasString W f' ∧
    ((IsScalar W f.ty ∧ IsScalar W f'.ty) ∨ ∃ e e', Plain W f.ty (.ptr e) ∧ Plain W f'.ty (.ptr e') ∧ IsScalar W e ∧ IsScalar W e' ∧ R e e'))

/-- The fields of a struct become wider, in any order; some may be dropped or added. -/
structure FieldsWiden (W : World) (C : Change) (R : Ty → Ty → Prop) (id id' : Nat) : Prop where
  kept : ∀ s i f, FieldFor W id s i f → (C.drops ∧ NoField W id' s) ∨ ∃ i' f', FieldFor W id' s i' f' ∧ FieldWiden W R f f'
  added : ∀ s, NoField W id s → NoField W id' s ∨ C.adds s

/-- One level of widening; the parts are related by `R`. -/
inductive WidenStep (W : World) (C : Change) (R : Ty → Ty → Prop) : Ty → Ty → Prop
  | unm {t} : W.unmOf t ≠ none → WidenStep W C R t t
  | any {t} : Plain W t .any → WidenStep W C R t t
  | iface {t i} : Plain W t (.iface i) → WidenStep W C R t t
  | bool {t t'} : Plain W t .bool → Plain W t' .bool → WidenStep W C R t t'
  | int {t t' k k'} : Plain W t (.int k) → Plain W t' (.int k') → intMax k ≤ intMax k' → WidenStep W C R t t'
  | uint {t t' k k'} : Plain W t (.uint k) → Plain W t' (.uint k') → uintMax k ≤ uintMax k' → WidenStep W C R t t'
  | uintInt {t t' k k'} : Plain W t (.uint k) → Plain W t' (.int k') → (uintMax k : Int) ≤ intMax k' → WidenStep W C R t t'
  | f32 {t t'} : Plain W t .f32 → Plain W t' .f32 → WidenStep W C R t t'
  | f64 {t t'} : Plain W t .f64 → Plain W t' .f64 → WidenStep W C R t t'
  | float {t t'} : Plain W t .f32 → Plain W t' .f64 → WidenStep W C R t t'
  | str {t t'} : Plain W t .str → Plain W t' .str → WidenStep W C R t t'
  | ptr {t t' e e'} : Plain W t (.ptr e) → Plain W t' (.ptr e') → W.isPtr e' = false → R e e' → WidenStep W C R t t'
  | slice {t t' e e'} : Plain W t (.slice e) → Plain W t' (.slice e') → W.isByte e' = W.isByte e → (esize W e' ≤ esize W e ∨ esize W e' ≤ C.grows) →
      R e e' → WidenStep W C R t t'
  | array {t t' n e e'} : Plain W t (.array n e) → Plain W t' (.array n e') → R e e' → WidenStep W C R t t'
  | map {t t' k k' v v'} : Plain W t (.map k v) → Plain W t' (.map k' v') → KeyWiden W k k' → R v v' → WidenStep W C R t t'
  | struct {t t' id id'} : Plain W t (.struct id) → Plain W t' (.struct id') → FieldsWiden W C R id id' → WidenStep W C R t t'

/-- `R` relates types to wider ones, through all levels; recursive types may be related too. -/
def Widening (W : World) (C : Change) (R : Ty → Ty → Prop) : Prop := ∀ t t', R t t' → WidenStep W C R t t'

/-- The key of a map and its counterpart for the wider type: an unsigned number may have become a signed one. -/
inductive KeyWide (W : World) (k k' : Ty) : Val → Val → Prop
  | same {v} : (¬ ∃ a b, W.resolve k = .uint a ∧ W.resolve k' = .int b) → KeyWide W k k' v v
  | uintInt {a b n} : W.resolve k = .uint a → W.resolve k' = .int b → KeyWide W k k' (.uint n) (.int (n : Nat))

/-- `Wide W t t' v v'`: the value `v` of type `t` and the value `v'` of the wider type `t'` are the same up to the types. A float32 corresponds to
every float64 that rounds to it. Of structs only the fields that both types have under the same key are compared. -/
inductive Wide (W : World) : Ty → Ty → Val → Val → Prop
  | unm {t v} : W.unmOf t ≠ none → Wide W t t v v
  | any {t v} : Plain W t .any → Wide W t t v v
  | iface {t i v} : Plain W t (.iface i) → Wide W t t v v
  | bool {t t' v} : Plain W t .bool → Plain W t' .bool → Wide W t t' v v
  | int {t t' k k' v} : Plain W t (.int k) → Plain W t' (.int k') → Wide W t t' v v
  | uint {t t' k k' v} : Plain W t (.uint k) → Plain W t' (.uint k') → Wide W t t' v v
  | uintInt {t t' k k' n} : Plain W t (.uint k) → Plain W t' (.int k') → Wide W t t' (.uint n) (.int (n : Nat))
  | f32 {t t' v} : Plain W t .f32 → Plain W t' .f32 → Wide W t t' v v
  | f64 {t t' v} : Plain W t .f64 → Plain W t' .f64 → Wide W t t' v v
  | float {t t' x} : Plain W t .f32 → Plain W t' .f64 → Wide W t t' (.f32 (W.toF32 x)) (.f64 x)
  | str {t t' v} : Plain W t .str → Plain W t' .str → Wide W t t' v v
  | ptrNil {t t' e e'} : Plain W t (.ptr e) → Plain W t' (.ptr e') → Wide W t t' .ptrNil .ptrNil
  | ptr {t t' e e' v v'} : Plain W t (.ptr e) → Plain W t' (.ptr e') → Wide W e e' v v' → Wide W t t' (.ptr v) (.ptr v')
  | sliceNil {t t' e e'} : Plain W t (.slice e) → Plain W t' (.slice e') → Wide W t t' .sliceNil .sliceNil
  | slice {t t' e e' vs vs'} : Plain W t (.slice e) → Plain W t' (.slice e') → vs'.length = vs.length →
      (∀ (i : Nat) (v v' : Val), vs[i]? = some v → vs'[i]? = some v' → Wide W e e' v v') → Wide W t t' (.slice vs) (.slice vs')
  | arr {t t' n e e' vs vs'} : Plain W t (.array n e) → Plain W t' (.array n e') → vs'.length = vs.length →
      (∀ (i : Nat) (v v' : Val), vs[i]? = some v → vs'[i]? = some v' → Wide W e e' v v') → Wide W t t' (.arr vs) (.arr vs')
  | mapNil {t t' k k' e e'} : Plain W t (.map k e) → Plain W t' (.map k' e') → Wide W t t' .mapNil .mapNil
  | map {t t' k k' e e' es es'} : Plain W t (.map k e) → Plain W t' (.map k' e') → es'.length = es.length →
      (∀ (i : Nat) (p p' : Val × Val), es[i]? = some p → es'[i]? = some p' → KeyWide W k k' p.1 p'.1) →
      (∀ (i : Nat) (p p' : Val × Val), es[i]? = some p → es'[i]? = some p' → Wide W e e' p.2 p'.2) → Wide W t t' (.map es) (.map es')
  | struct {t t' id id' vs vs'} : Plain W t (.struct id) → Plain W t' (.struct id') → vs.length = (W.fields id).length →
      vs'.length = (W.fields id').length →
      (∀ (s : Bytes) (i i' : Nat) (f f' : Field) (v v' : Val), FieldFor W id s i f → FieldFor W id' s i' f' → vs[i]? = some v → vs'[i']? = some v' →
        Wide W f.ty f'.ty v v') → Wide W t t' (.struct vs) (.struct vs')

end Verif.Spec

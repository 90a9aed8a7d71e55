import Verif.Spec.Back
/-
Specification vocabulary for preparing a type: the components of a type, and types whose recursion passes through
structs.
-/
namespace Verif.Spec
open Verif

/-- `t'` is a component of `t` that has to be prepared before values of type `t` can be decoded. -/
inductive Component (W : World) : Ty → Ty → Prop
  | ptr {t e} : Plain W t (.ptr e) → Component W t e
  | slice {t e} : Plain W t (.slice e) → Component W t e
  | array {t n e} : Plain W t (.array n e) → Component W t e
  | mapKey {t k v} : Plain W t (.map k v) → Component W t k
  | mapVal {t k v} : Plain W t (.map k v) → Component W t v
  | field {t id f} : Plain W t (.struct id) → f ∈ W.fields id → Component W t f.ty

/-- `t'` can be reached from `t` by going to components. -/
inductive Reach (W : World) : Ty → Ty → Prop
  | refl {t} : Reach W t t
  | step {t t' t''} : Reach W t t' → Component W t' t'' → Reach W t t''

/-- The types reachable from `t` are finitely many as far as structs are concerned, and every infinite descent passes
through a struct: `rank` decreases from a type that is not a struct to its components. -/
def StructGuarded (W : World) (t : Ty) : Prop :=
  ∃ (S : List Ty) (rank : Ty → Nat),
    (∀ t' id, Reach W t t' → Plain W t' (.struct id) → t' ∈ S) ∧
    (∀ t' t'', Reach W t t' → Component W t' t'' → (¬ ∃ id, Plain W t' (.struct id)) → rank t'' < rank t')

/-- `t'` is a component of `t` that may have to be prepared before values of type `t` can be encoded. -/
inductive EncComponent (W : World) : Ty → Ty → Prop
  | ptr {t e} : W.resolve t = .ptr e → EncComponent W t e
  | slice {t e} : W.resolve t = .slice e → EncComponent W t e
  | array {t n e} : W.resolve t = .array n e → EncComponent W t e
  | mapVal {t k v} : W.resolve t = .map k v → EncComponent W t v
  | field {t id f} : W.resolve t = .struct id → f ∈ W.fields id → EncComponent W t f.ty

/-- `t'` can be reached from `t` by going to components. -/
inductive EncReach (W : World) : Ty → Ty → Prop
  | refl {t} : EncReach W t t
  | step {t t' t''} : EncReach W t t' → EncComponent W t' t'' → EncReach W t t''

/-- Structs, slices and maps. -/
def Collected (W : World) (t : Ty) : Prop :=
  (∃ id, W.resolve t = .struct id) ∨ (∃ e, W.resolve t = .slice e) ∨ ∃ k v, W.resolve t = .map k v

/-- The structs, slices and maps reachable from `t` are finitely many (true of every Go type), and no array contains itself: `rank`
never increases from a type to its components and decreases from an array to its elements. -/
def ArrayGuarded (W : World) (t : Ty) : Prop :=
  ∃ (S : List Ty) (rank : Ty → Nat),
    (∀ t', EncReach W t t' → Collected W t' → t' ∈ S) ∧
    (∀ t' t'', EncReach W t t' → EncComponent W t' t'' → rank t'' ≤ rank t') ∧
    (∀ t' n e, EncReach W t t' → W.resolve t' = .array n e → rank e < rank t')

/-- `t'` is looked at when a type `t` without MarshalPHP and UnmarshalPHP methods is prepared both ways. Of a field that is a pointer, `Marshal`
only looks at what it points to. -/
inductive BothLook (W : World) : Ty → Ty → Prop
  | ptr {t e} : W.resolve t = .ptr e → BothLook W t e
  | slice {t e} : W.resolve t = .slice e → BothLook W t e
  | array {t n e} : W.resolve t = .array n e → BothLook W t e
  | mapVal {t k v} : W.resolve t = .map k v → BothLook W t v
  | field {t id f} : W.resolve t = .struct id → f ∈ W.fields id → Visible f → (∀ e, W.resolve f.ty ≠ .ptr e) → BothLook W t f.ty
  | fieldPtr {t id f e} : W.resolve t = .struct id → f ∈ W.fields id → Visible f → W.resolve f.ty = .ptr e → BothLook W t e

/-- The types in `t` that are not hidden inside a type with methods of its own. -/
inductive InView (W : World) : Ty → Ty → Prop
  | refl {t} : InView W t t
  | step {t t' t''} : InView W t t' → W.marOf t' = false → W.unmOf t' = none → BothLook W t' t'' → InView W t t''

/-- A type that `Unmarshal` takes without looking into it: one with UnmarshalPHP, a pointer to one, or an interface. -/
def ReadAsIs (W : World) (t : Ty) : Prop :=
  W.unmOf t ≠ none ∨ (∃ e, W.resolve t = .ptr e ∧ (∀ x, W.resolve e ≠ .ptr x) ∧ W.unmOf e ≠ none) ∨ W.resolve t = .any ∨ ∃ k, W.resolve t = .iface k

/-- The rules for structs that only `Unmarshal` has: no key `-`, no embedded pointers to structs, no two fields with the same key, and the
option `string` only where it can be ignored or on scalars and pointers to scalars. -/
structure DecoderRules (W : World) (id : Nat) : Prop where
  dash : ∀ f ∈ W.fields id, Visible f → ¬ HasKey W f [45]
  embedded : ∀ f ∈ W.fields id, Visible f → f.anon = true → ∀ e, W.resolve f.ty = .ptr e → ∀ id', W.resolve e ≠ .struct id'
  keys : ∀ (i j : Nat) (f g : Field) (k : Bytes), (W.fields id)[i]? = some f → (W.fields id)[j]? = some g → Visible f → Visible g →
    HasKey W f k → HasKey W g k → i = j
  str : ∀ f ∈ W.fields id, Visible f → HasString W f → StringIgnored W f.ty ∨ IsScalar W f.ty ∨ ∃ e, Plain W f.ty (.ptr e) ∧ IsScalar W e

end Verif.Spec

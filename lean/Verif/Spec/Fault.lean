import Verif.Model.TypeErr
import Verif.Spec.Compile
/-
Faults of types: why `Marshal` and `Unmarshal` refuse them.
-/
namespace Verif.Spec
open Verif

/-- `Marshal` looks into types without MarshalPHP, and not into `[]byte`. -/
def LookedInto (W : World) (t : Ty) : Prop := W.marOf t = false ∧ t ≠ .slice (.uint .u8)

/-- `Marshal` writes the field: it is exported and its key is not `-`. -/
def WrittenField (W : World) (f : Field) : Prop := f.exported = true ∧ ¬ HasKey W f [45]

/-- The types that `Marshal` looks into for a value of type `t`: the type itself, what elements, map values, pointers and fields without the option `string`
lead to. Behind a pointer, methods of structs and maps do not count (which matters for declared pointer types only). -/
inductive EncOpens (W : World) (t : Ty) : Ty → Prop
  | self : LookedInto W t → EncOpens W t t
  | slice {u e} : EncOpens W t u → W.resolve u = .slice e → LookedInto W e → EncOpens W t e
  | array {u n e} : EncOpens W t u → W.resolve u = .array n e → LookedInto W e → EncOpens W t e
  | mapVal {u k v} : EncOpens W t u → W.resolve u = .map k v → LookedInto W v → EncOpens W t v
  | ptr {u e} : EncOpens W t u → W.resolve u = .ptr e → LookedInto W e → EncOpens W t e
  | ptrStruct {u e id} : EncOpens W t u → W.resolve u = .ptr e → W.resolve e = .struct id → EncOpens W t e
  | ptrMap {u e k v} : EncOpens W t u → W.resolve u = .ptr e → W.resolve e = .map k v → EncOpens W t e
  | field {u id f} : EncOpens W t u → W.resolve u = .struct id → f ∈ W.fields id → WrittenField W f → ¬ HasString W f →
      (∀ e, W.resolve f.ty ≠ .ptr e) → LookedInto W f.ty → EncOpens W t f.ty
  | fieldPtr {u id f e} : EncOpens W t u → W.resolve u = .struct id → f ∈ W.fields id → WrittenField W f → ¬ HasString W f →
      W.resolve f.ty = .ptr e → LookedInto W e → EncOpens W t e

/-- Strings and integers but uintptr. -/
def EncKeyKind (W : World) (t : Ty) : Prop :=
  W.resolve t = .str ∨ (∃ k, W.resolve t = .int k) ∨ ∃ k, W.resolve t = .uint k ∧ k ≠ .uptr

/-- The kinds that the option `string` is for when writing. -/
def EncStringKind (W : World) (t : Ty) : Prop :=
  EncKeyKind W t ∨ W.resolve t = .bool ∨ W.resolve t = .f32 ∨ W.resolve t = .f64 ∨ W.resolve t = .any ∨ ∃ i, W.resolve t = .iface i

/-- What is wrong with a type by itself, for `Marshal`: kinds that have no serialized form, keys other than strings and integers, pointers to pointers,
embedded structs, the option `string` where it makes no sense. -/
inductive EncFault (W : World) (u : Ty) : TypeErr → Prop
  | kind : W.resolve u = .uint .uptr ∨ W.resolve u = .other ∨ (∃ n, W.resolve u = .named n) → EncFault W u (.encType u)
  | key {k v} : W.resolve u = .map k v → ¬ EncKeyKind W k → EncFault W u (.encKey k)
  | ptr {e x} : W.resolve u = .ptr e → W.resolve e = .ptr x → EncFault W u (.encPtr e)
  | fieldPtr {id f e x} : W.resolve u = .struct id → f ∈ W.fields id → WrittenField W f → W.resolve f.ty = .ptr e → W.resolve e = .ptr x →
      EncFault W u (.encPtrField f.ty)
  | embedded {id f id'} : W.resolve u = .struct id → f ∈ W.fields id → WrittenField W f → f.anon = true → W.resolve f.ty = .struct id' →
      EncFault W u (.encAnon f.ty)
  | string {id f} : W.resolve u = .struct id → f ∈ W.fields id → WrittenField W f → HasString W f → (∀ e, W.resolve f.ty ≠ .ptr e) →
      ¬ EncStringKind W f.ty → EncFault W u (.encString f.ty)
  | stringPtr {id f e} : W.resolve u = .struct id → f ∈ W.fields id → WrittenField W f → HasString W f → W.resolve f.ty = .ptr e →
      ¬ EncStringKind W e → EncFault W u (.encString e)

/-- What is wrong with a type by itself, for `Unmarshal`: pointers to pointers, embedded structs and pointers to structs, the option `string` where it makes no
sense, two fields with the same key. -/
inductive DecFault (W : World) (u : Ty) : TypeErr → Prop
  | ptr {e x} : Plain W u (.ptr e) → W.resolve e = .ptr x → DecFault W u (.decPtr e)
  | embedded {id f id'} : Plain W u (.struct id) → f ∈ W.fields id → Visible f → f.anon = true →
      (W.resolve f.ty = .struct id' ∨ ∃ e, W.resolve f.ty = .ptr e ∧ W.resolve e = .struct id') → DecFault W u .decAnon
  | string {id f} : Plain W u (.struct id) → f ∈ W.fields id → Visible f → HasString W f → ¬ StringIgnored W f.ty → ¬ IsScalar W f.ty →
      (∀ e, W.resolve f.ty ≠ .ptr e) → DecFault W u (.decString f.ty)
  | stringPtr {id f e} : Plain W u (.struct id) → f ∈ W.fields id → Visible f → HasString W f → Plain W f.ty (.ptr e) → ¬ IsScalar W e →
      DecFault W u (.decString e)
  | keys {id : Nat} {i j : Nat} {f g : Field} {k : Bytes} : Plain W u (.struct id) → i < j → (W.fields id)[i]? = some f → (W.fields id)[j]? = some g → Visible f → Visible g →
      HasKey W f k → HasKey W g k → DecFault W u (.decKeys u k)

/-- The type that an error shows, if it shows one: of pointers to pointers the element. -/
def shownType : TypeErr → Option Ty
  | .encType t | .encKey t | .encPtr t | .encPtrField t | .encAnon t | .encString t | .decPtr t | .decString t | .decKeys t _ => some t
  | .decAnon => none

end Verif.Spec

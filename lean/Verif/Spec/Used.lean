import Verif.Spec.Overlay
import Verif.Spec.Encode
/-
Specification of documents that replace all that a variable holds, and of types whose values are written as such documents.
-/
namespace Verif.Spec
open Verif

/-- `Replaces W t d`: storing the document `d` into a variable of type `t` leaves nothing of what was there. Null does that to pointers,
interfaces, maps and slices (not byte slices); it leaves other variables as they are. The entries of a map stay. A struct is replaced if every
field has an entry, and these replace the fields. -/
inductive Replaces (W : World) : Ty → Doc → Prop
  | unm {t id d} : W.unmOf t = some id → Replaces W t d
  | ptrNull {t e} : Plain W t (.ptr e) → Replaces W t .null
  | ptr {t e d} : Plain W t (.ptr e) → Replaces W e d → Replaces W t d
  | scalar {t d} : IsScalar W t → d ≠ .null → Replaces W t d
  | str {t d} : Plain W t .str → d ≠ .null → Replaces W t d
  | slice {t e d} : Plain W t (.slice e) → (W.isByte e = true → d ≠ .null) → Replaces W t d
  | array {t l e d} : Plain W t (.array l e) → d ≠ .null → Replaces W t d
  | mapNull {t k e} : Plain W t (.map k e) → Replaces W t .null
  | any {t d} : Plain W t .any → Replaces W t d
  | ifaceNull {t i} : Plain W t (.iface i) → Replaces W t .null
  | struct {t id d cnt es} : Plain W t (.struct id) → Container d cnt es →
      (∀ (i : Nat) (f : Field), (W.fields id)[i]? = some f → ∃ kd dv s, (kd, dv) ∈ es ∧ FieldKey kd s ∧ FieldFor W id s i f) →
      (∀ kd dv s i f, (kd, dv) ∈ es → FieldKey kd s → FieldFor W id s i f → ¬ HasString W f ∨ StringIgnored W f.ty → Replaces W f.ty dv) →
      (∀ kd dv s i f, (kd, dv) ∈ es → FieldKey kd s → FieldFor W id s i f → HasString W f → IsScalar W f.ty → dv ≠ .null) → Replaces W t d

/-- The field carries the option `omitempty`. -/
def HasOmitempty (W : World) (f : Field) : Prop := ∃ key str, TagMeaning W f key True str

/-- What `Marshal` writes for a value of type `t` replaces all that a variable of that type holds: there are no maps and no interfaces with
methods, every field of a struct is always written, and byte slices have no declared type (if they are nil, they are written as null
otherwise). Types with UnmarshalPHP take care of themselves. -/
structure Whole (W : World) (t : Ty) : Prop where
  mar : W.unmOf t = none → (∀ e, Plain W t (.ptr e) → W.unmOf e = none) → W.marOf t = false
  map : ∀ k e, ¬ Plain W t (.map k e)
  iface : ∀ i, ¬ Plain W t (.iface i)
  bytes : ∀ e, Plain W t (.slice e) → W.isByte e = true → t = .slice (.uint .u8)
  field : ∀ id, Plain W t (.struct id) → ∀ f ∈ W.fields id, Visible f ∧ ¬ HasKey W f [45] ∧ ¬ HasOmitempty W f

end Verif.Spec

import Verif.Spec.Compile
/-
Which struct and field a value of the input belongs to, and what errors say about it.
-/
namespace Verif.Spec
open Verif

/-- The error without the names and the type that type errors carry. -/
def plainErr : Err → Err
  | .typeError w o _ => .typeError w o none
  | e => e

/-- The same outcome but for the names and types in type errors. -/
def SameRun {α β : Type} (x y : α × Res β) : Prop := x.1 = y.1 ∧ x.2.mapErr plainErr = y.2.mapErr plainErr

/-- A type that contains itself. -/
def Recursive (W : World) (t : Ty) : Prop := ∃ u, Component W t u ∧ Reach W u t

/-! ### Places in the input -/

/-- A value stands in `b` from `c` up to `c'`. -/
def ValueAt (b : Bytes) (c c' : Nat) : Prop := ∃ n d, Lax n d ∧ b.drop c = d.text ++ b.drop c' ∧ c' = c + d.text.length

/-- An array or object opens at `c`; its first entry, if it has one, stands at `c'`. -/
inductive HeadAt (b : Bytes) (c c' : Nat) : Prop
  | arr {cnt} : IsDigits cnt → b.drop c = [97, 58] ++ cnt ++ [58, 123] ++ b.drop c' → c' = c + cnt.length + 4 → HeadAt b c c'
  | obj {clen cls cnt} : LenText clen cls.length → IsDigits cnt →
      b.drop c = [79, 58] ++ clen ++ [58, 34] ++ cls ++ [34, 58] ++ cnt ++ [58, 123] ++ b.drop c' →
      c' = c + clen.length + cls.length + cnt.length + 8 → HeadAt b c c'

/-- An entry of the array or object at `c0`, after any number of complete ones. -/
inductive EntryAt (b : Bytes) (c0 : Nat) : Nat → Prop
  | first {c} : HeadAt b c0 c → EntryAt b c0 c
  | next {c c1 c2} : EntryAt b c0 c → ValueAt b c c1 → ValueAt b c1 c2 → EntryAt b c0 c2

/-- The key of an entry of the array or object at `c0`: not its end. -/
def KeyAt (b : Bytes) (c0 c : Nat) : Prop := EntryAt b c0 c ∧ b[c]? ≠ some 125

/-- An integer stands in `b` from `c` up to `c'`. -/
def IntegerAt (b : Bytes) (c c' : Nat) : Prop := ∃ txt i, IntText txt i ∧ b.drop c = (Doc.int txt).text ++ b.drop c' ∧ c' = c + (Doc.int txt).text.length

/-- `any`, or an interface with methods. -/
def IsIface (W : World) (t : Ty) : Prop := Plain W t .any ∨ ∃ i, Plain W t (.iface i)

/-- `Spot W b t0 t c n`: if `b` is read into a variable of type `t0`, what stands at `c` is to be read into a variable of type `t`, and `n` are the names of the
innermost struct that has a field for it and of that field (the struct's own keys are outside of its fields). -/
inductive Spot (W : World) (b : Bytes) (t0 : Ty) : Ty → Nat → Names → Prop
  | top : Spot W b t0 t0 0 ⟨[], []⟩
  | ptr {t c n e} : Spot W b t0 t c n → Plain W t (.ptr e) → Spot W b t0 e c n
  | slice {t c n e c1 c2} : Spot W b t0 t c n → Plain W t (.slice e) → EntryAt b c c1 → ValueAt b c1 c2 → Spot W b t0 e c2 n
  | array {t c n l e c1 c2} : Spot W b t0 t c n → Plain W t (.array l e) → EntryAt b c c1 → ValueAt b c1 c2 → Spot W b t0 e c2 n
  | mapKey {t c n k v c1} : Spot W b t0 t c n → Plain W t (.map k v) → KeyAt b c c1 → Spot W b t0 k c1 n
  | mapVal {t c n k v c1 c2} : Spot W b t0 t c n → Plain W t (.map k v) → EntryAt b c c1 → ValueAt b c1 c2 → Spot W b t0 v c2 n
  | anyKey {t c n c1} : Spot W b t0 t c n → IsIface W t → KeyAt b c c1 → Spot W b t0 .any c1 n
  | anyVal {t c n c1 c2} : Spot W b t0 t c n → IsIface W t → EntryAt b c c1 → ValueAt b c1 c2 → Spot W b t0 .any c2 n
  | structKey {t c n id c1} : Spot W b t0 t c n → Plain W t (.struct id) → KeyAt b c c1 → Spot W b t0 .str c1 n
  | field {t c n id c1 c2 kd key i f} : Spot W b t0 t c n → Plain W t (.struct id) → EntryAt b c c1 →
      FieldKey kd key → b.drop c1 = kd.text ++ b.drop c2 → c2 = c1 + kd.text.length → FieldFor W id key i f →
      Spot W b t0 f.ty c2 ⟨W.typeName t, f.name⟩

/-- At `c` stands the key of an entry of a struct whose type contains itself. -/
def RecursiveKey (W : World) (b : Bytes) (t0 : Ty) (c : Nat) : Prop :=
  ∃ t c0 n id, Spot W b t0 t c0 n ∧ Plain W t (.struct id) ∧ KeyAt b c0 c ∧ Recursive W t

/-- `ty` may be reported as the type of a variable of type `t`: the type itself, an unnamed one of the same kind, `string` for what is read from a string, `int64`
for an integer in an interface. -/
def ReportedType (W : World) (t ty : Ty) : Prop :=
  ty = t ∨ ty = W.resolve t ∨
  (ty = .str ∧ (W.resolve t = .str ∨ (∃ e, W.resolve t = .slice e ∧ W.isByte e = true) ∨ IsScalar W t ∨ IsIface W t)) ∨
  (ty = .int .i64 ∧ IsIface W t)

/-- The names `n'` are right for what stands at `c`, to be read into a variable of type `t`, in a place with names `n`: they are `n`. Two kinds of places may
have other names: unsigned integers may have none, and keys of structs that contain themselves may have any. -/
def RightNames (W : World) (b : Bytes) (t0 t : Ty) (c : Nat) (n n' : Names) : Prop :=
  n' = n ∨ (n' = ⟨[], []⟩ ∧ ∃ k, Plain W t (.uint k)) ∨ RecursiveKey W b t0 c

/-- A type error is about the variable for a place in the input: one of these.
* The place is that of its offset, or of the integer that ends there; it has the names of the place and the type of the variable.
* The `UnmarshalPHP` method of the variable's type returned it; it has got the names of the place.
* The method of a value found in an interface returned it; it is passed on as it is. -/
def NamesPlace (W : World) (b : Bytes) (t0 : Ty) (w : What) (o : Int) (x : Blame) : Prop :=
  ∃ t c n, Spot W b t0 t c n ∧
    ((RightNames W b t0 t c n x.names ∧ ∃ ty, x.type = some ty ∧ ReportedType W t ty ∧
        (o = c ∨ ∃ e : Nat, o = e ∧ IntegerAt b c e ∧ ∃ k k', W.resolve ty = .int k ∨ W.resolve ty = .uint k')) ∨
     (∃ id src y, W.unmOf t = some id ∧ W.unmarshal id src = .err (.typeError w o y) ∧ x.names = n ∧ x.type = y.bind (·.type)) ∨
     (IsIface W t ∧ ∃ dt v src v' y, W.unmarshalDyn dt v src = (v', .err (.typeError w o y)) ∧ x = y.getD ⟨⟨[], []⟩, none⟩))

end Verif.Spec

import Verif.Spec.Decode
import Verif.Model.Calls
/-
Which calls of `UnmarshalPHP` methods decoding a document into a type needs: read off from the type and the document alone.
-/
namespace Verif.Spec
open Verif

/-- The argument of a call. -/
def argOf : MethodCall → Bytes
  | .own _ arg => arg
  | .held _ _ arg => arg

/-- The declared type that the method belongs to, if the type of the destination says so. -/
def whose : MethodCall → Option Nat
  | .own id _ => some id
  | .held _ _ _ => none

/-- The call succeeds when it is made after the calls `h`. -/
def CallOk (M : Hooks) (h : Calls) : MethodCall → Prop
  | .own id arg => ∃ v, M.unm h id arg = .ok v
  | .held t v arg => ∃ w, M.dyn h t v arg = (w, .ok ())

/-- The calls succeed when they are made one after the other after the calls `h`. -/
def AllOk (M : Hooks) : Calls → Calls → Prop
  | _, [] => True
  | h, c :: cs => CallOk M h c ∧ AllOk M (h ++ [c]) cs

/-- The pieces occur in the text one after the other, without overlap. -/
inductive InOrder : List Bytes → Bytes → Prop
  | nil {r} : InOrder [] r
  | cons {g a as r} : InOrder as r → InOrder (a :: as) (g ++ a ++ r)

/-- The text of one well-formed value that is not null. -/
def ValueText (a : Bytes) : Prop := ∃ n d, Strict n d ∧ d ≠ .null ∧ a = d.text

/-- Scalar types, and the empty interface: nothing in them has a method that is called. -/
def NoCalls (W : World) (t : Ty) : Prop :=
  W.unmOf t = none ∧ (W.resolve t = .bool ∨ (∃ k, W.resolve t = .int k) ∨ (∃ k, W.resolve t = .uint k) ∨ W.resolve t = .f32 ∨
    W.resolve t = .f64 ∨ W.resolve t = .str ∨ W.resolve t = .any)

/-- Methods that do what the world says, whatever was called before. -/
def Plainly (W : World) (M : Hooks) : Prop :=
  (∀ h id src, M.unm h id src = W.unmarshal id src) ∧ ∀ h t v src, M.dyn h t v src = W.unmarshalDyn t v src

/-- Calls of the same methods with the same texts; of values held by interfaces, only the texts are compared. -/
def AlikeCalls (as bs : Calls) : Prop := as.map (fun c => (whose c, argOf c)) = bs.map (fun c => (whose c, argOf c))

mutual
/-- `Handed W t d cs`: storing document `d` in a destination of type `t` needs exactly the calls `cs`, in this order. -/
inductive Handed (W : World) : Ty → Doc → Calls → Prop
  /-- a null is never given to a method -/
  | null {t} : Handed W t .null []
  /-- a type with the method gets the whole text; nothing inside it is looked at -/
  | own {t id d n} : W.unmOf t = some id → d ≠ .null → Strict n d → Handed W t d [.own id d.text]
  /-- so does a value held by an interface with methods -/
  | held {t i d n dt dv} : Plain W t (.iface i) → d ≠ .null → Strict n d → W.dynUnm dt = true → Handed W t d [.held dt dv d.text]
  | ptr {t e d cs} : Plain W t (.ptr e) → Handed W e d cs → Handed W t d cs
  | scalar {t d} : NoCalls W t → Handed W t d []
  /-- bytes given as a string -/
  | bytes {t e l s} : Plain W t (.slice e) → Handed W t (.str l s) []
  | slice {t e cnt es cs} : Plain W t (.slice e) → HandedElems W e none es cs → Handed W t (.arr cnt es) cs
  | array {t n e cnt es cs} : Plain W t (.array n e) → HandedElems W e (some n) es cs → Handed W t (.arr cnt es) cs
  | map {t k v d cnt es cs} : Plain W t (.map k v) → Container d cnt es → HandedPairs W k v es cs → Handed W t d cs
  | struct {t id d cnt es cs} : Plain W t (.struct id) → Container d cnt es → HandedFields W id es cs → Handed W t d cs
/-- The elements of a slice (no limit) or an array (limit: its length). Elements beyond the limit are skipped. -/
inductive HandedElems (W : World) : Ty → Option Nat → List (Doc × Doc) → Calls → Prop
  | nil {e lim} : HandedElems W e lim [] []
  | elem {e lim txt i d es cs cs'} : IntText txt (i : Nat) → (∀ n, lim = some n → i < n) → Handed W e d cs → HandedElems W e lim es cs' →
      HandedElems W e lim ((.int txt, d) :: es) (cs ++ cs')
  | beyond {e n txt i d es cs} : IntText txt (i : Nat) → n ≤ i → HandedElems W e (some n) es cs →
      HandedElems W e (some n) ((.int txt, d) :: es) cs
/-- The entries of a map: first the key, then the value. -/
inductive HandedPairs (W : World) : Ty → Ty → List (Doc × Doc) → Calls → Prop
  | nil {k v} : HandedPairs W k v [] []
  | cons {k v kd d es cs cs' cs''} : Handed W k kd cs → Handed W v d cs' → HandedPairs W k v es cs'' →
      HandedPairs W k v ((kd, d) :: es) (cs ++ cs' ++ cs'')
/-- The fields of a struct: what has no field is skipped. -/
inductive HandedFields (W : World) : Nat → List (Doc × Doc) → Calls → Prop
  | nil {id} : HandedFields W id [] []
  | field {id kd key i f d es cs cs'} : FieldKey kd key → FieldFor W id key i f → Handed W f.ty d cs → HandedFields W id es cs' →
      HandedFields W id ((kd, d) :: es) (cs ++ cs')
  | skip {id kd key d es cs} : FieldKey kd key → NoField W id key → HandedFields W id es cs → HandedFields W id ((kd, d) :: es) cs
end

end Verif.Spec

import Verif.Model.Cache
import Verif.Model.Unmarshal
import Verif.Proofs.Marshal
/-
Specification of the caches of prepared types: the answers that a request may get, and who may touch which map.
-/
namespace Verif.Spec
open Verif

/-- What a request to the encoder's cache for `t` may be answered: the encoder of `t` itself, if `Marshal` supports the type, or
the error with which `Marshal` rejects all values of that type. -/
inductive EncAnswer (W : World) (t : Ty) : Answer → Prop
  | ok : Supported W t → EncAnswer W t (.ok t)
  | err {e} : (∀ h v, MarshalGives W h (some (t, v)) (.err e)) → EncAnswer W t (.error e)

/-- What a request to the decoder's cache for pointers to `t` may be answered: the decoder of `t` itself, if the type can be prepared,
or the error with which `Unmarshal` rejects all inputs for that type. -/
inductive DecAnswer (W : World) (t : Ty) : Answer → Prop
  | ok {n} : compileD W n [] t = .ok () → DecAnswer W t (.ok t)
  | err {e n} : (∀ fuel, n ≤ fuel → ∀ data, data ≠ [] → ∀ v, unmarshal W fuel data (.ptr t v) = (some v, .err e)) → DecAnswer W t (.error e)

/-- Goroutine `i` may still read the map at `a`. -/
inductive Reads (s : CState) (i a : Nat) : Prop
  | look {t} : .look t a ∈ s.go i → Reads s i a
  | compiling {t as} : .compiling t a as ∈ s.go i → Reads s i a
  | make {t c} : .make t a c ∈ s.go i → Reads s i a

/-- Goroutine `i` writes to the map at `b`, or is about to publish it. -/
inductive Builds (s : CState) (i b : Nat) : Prop
  | fill {t c ws} : .fill t c b ws ∈ s.go i → Builds s i b
  | publish {t c} : .publish t c b ∈ s.go i → Builds s i b

end Verif.Spec

import Verif.Proofs.Unquote
import Verif.Model.Mem
/-
The callers of `unquoteBytes`, which never fails.
-/
namespace Verif

theorem dynDecode_eq (W : World) (t : Ty) (v : Val) (buf : Bytes) (c depth : Nat) (rv : Val) : dynDecode W t v buf c depth rv =
    onOk rv (skipValue buf c depth) fun e =>
    onOk rv (sub buf c e) fun src =>
    if src = [cN, cSemi] then (.ifaceNil, .ok e) else
    match W.unmarshalDyn t v (unquoted src) with
    | (v', r) => onOk (.iface t v') r fun _ => (.iface t v', .ok e) := by
  unfold dynDecode
  congr 1; funext e; congr 1; funext src
  obtain ⟨o, ho, hu⟩ := unquoteBytes_total src
  rw [ho]
  simp only [onOk, hu]

theorem unmarshalDecode_eq (W : World) (id : Nat) (buf : Bytes) (c depth : Nat) (rv : Val) : unmarshalDecode W id buf c depth rv =
    onOk rv (skipValue buf c depth) fun e =>
    onOk rv (sub buf c e) fun src =>
    if src.head? = some 91 then (rv, .err (.typeError "array" c)) else
    if src.head? = some cLBrace then (rv, .err (.typeError "object" c)) else
    if src.head? = some cMinus ∨ (src.head?.any isDigit) = true then (rv, .err (.typeError "number" c)) else
    if src = [cN, cSemi] then (W.namedZero id, .ok e) else
    onOk rv ((W.unmarshal id (unquoted src)).mapErr (annotate c)) fun v => (v, .ok e) := by
  unfold unmarshalDecode
  congr 1; funext e; congr 1; funext src
  obtain ⟨o, ho, hu⟩ := unquoteBytes_total src
  rw [ho]
  simp only [onOk, hu]

theorem dynAt_eq (W : World) (U : Methods) (t : Ty) (v : HV) (buf : Bytes) (c depth : Nat) (l : Loc) (m : Mem) : dynAt W U t v buf c depth l m =
    onOkM m (skipValue buf c depth) fun e =>
    onOkM m (sub buf c e) fun src =>
    if src = [cN, cSemi] then (m.write l .ifaceNil, .ok e) else
    match U.held t v (unquoted src) m with
    | (m, r) => onOkM m r fun _ => (m, .ok e) := by
  unfold dynAt
  congr 1; funext e; congr 1; funext src
  obtain ⟨o, ho, hu⟩ := unquoteBytes_total src
  rw [ho]
  simp only [onOkM, hu]

theorem unmarshalerAt_eq (W : World) (U : Methods) (id : Nat) (buf : Bytes) (c depth : Nat) (l : Loc) (m : Mem) :
    unmarshalerAt W U id buf c depth l m =
    onOkM m (skipValue buf c depth) fun e =>
    onOkM m (sub buf c e) fun src =>
    if src.head? = some 91 then (m, .err (.typeError "array" c)) else
    if src.head? = some cLBrace then (m, .err (.typeError "object" c)) else
    if src.head? = some cMinus ∨ (src.head?.any isDigit) = true then (m, .err (.typeError "number" c)) else
    if src = [cN, cSemi] then (m.write l (flat (W.namedZero id)), .ok e) else
    match U.fresh id (unquoted src) m with
    | (m, r) => onOkM m (r.mapErr (annotate c)) fun v => (m.write l v, .ok e) := by
  unfold unmarshalerAt
  congr 1; funext e; congr 1; funext src
  obtain ⟨o, ho, hu⟩ := unquoteBytes_total src
  rw [ho]
  simp only [onOkM, hu]

end Verif

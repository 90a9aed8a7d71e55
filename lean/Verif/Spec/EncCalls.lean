import Verif.Spec.Encode
import Verif.Model.EncCalls
/-
The shape of the text that `Marshal` writes for a value: fixed text, and places where the text returned by a `MarshalPHP` method goes. The shape is read off from the value
alone; it does not depend on what the methods do.
-/
namespace Verif.Spec
open Verif

/-- A piece of the output: fixed text, or what the method called on that value returns. -/
inductive Piece where
  | text (s : Bytes)
  | call (t : Ty) (v : GV)

/-- The calls needed, in order. -/
def callsOf : List Piece → MarCalls
  | [] => []
  | .text _ :: ps => callsOf ps
  | .call t v :: ps => (t, v) :: callsOf ps

/-- `Fills M h ps out`: the calls succeed when they are made one after the other after the calls `h`, and the pieces together are `out`. -/
inductive Fills (M : MarHooks) : MarCalls → List Piece → Bytes → Prop
  | nil {h} : Fills M h [] []
  | text {h s ps out} : Fills M h ps out → Fills M h (.text s :: ps) (s ++ out)
  | call {h t v raw ps out} : M h t v = .ok raw → Fills M (h ++ [(t, v)]) ps out → Fills M h (.call t v :: ps) (raw ++ out)

/-- Two failures alike. -/
inductive SameFail {α β : Type} : Res α → Res β → Prop
  | err {e} : SameFail (.err e) (.err e)
  | panic {p} : SameFail (.panic p) (.panic p)
  | diverge : SameFail .diverge .diverge

/-- `Stops M h cs r`: the failure `r` after making the calls `cs`, all of which succeeded, except that the last one may have failed in just this way. -/
inductive Stops {α : Type} (M : MarHooks) : MarCalls → MarCalls → Res α → Prop
  | here {h r} : (∀ a, r ≠ .ok a) → Stops M h [] r
  | failed {h t v r} : SameFail (M h t v) r → Stops M h [(t, v)] r
  | next {h t v raw cs r} : M h t v = .ok raw → Stops M (h ++ [(t, v)]) cs r → Stops M h ((t, v) :: cs) r

/-- `FailedAt M h cs r`: the last of the calls `cs` failed, and `r` is its failure. -/
def FailedAt {α : Type} (M : MarHooks) (h cs : MarCalls) (r : Res α) : Prop := ∃ cs0 t v, cs = cs0 ++ [(t, v)] ∧ SameFail (M (h ++ cs0) t v) r

/-- Pieces of a PHP array with `n` entries: keys `kd i` (documents) and values `px i`, from index `i` on. -/
def bodyPieces (kd : Nat → Doc) (px : Nat → List Piece) : Nat → Nat → List Piece
  | _, 0 => []
  | i, n + 1 => .text (kd i).text :: (px i ++ bodyPieces kd px (i + 1) n)

/-- Pieces of a PHP array. -/
def arrPieces (n : Nat) (kd : Nat → Doc) (px : Nat → List Piece) : List Piece :=
  .text ([97, 58] ++ natText n ++ [58, 123]) :: (bodyPieces kd px 0 n ++ [.text [125]])

/-- The value that the method of a variable is called on: what it holds, if it is of an interface type. A nil interface has no method, a nil pointer none with a value
receiver. -/
inductive CalledOn (W : World) : Ty → GV → Ty → GV → Prop
  | value {t v} : (∀ dt dv, v ≠ .iface dt dv) → v ≠ .ifaceNil → (∀ id, t = .ptr (.named id) → (W.named id).mar = .value → v ≠ .ptrNil) → CalledOn W t v t v
  | iface {t dt dv} : (∀ id, dt = .ptr (.named id) → (W.named id).mar = .value → dv ≠ .ptrNil) → CalledOn W t (.iface dt dv) dt dv

/-- `Shape W h m p t v ps`: the pieces of the text for value `v` of type `t`, reached in mode `m` at path `p`. These are the rules of `EncG`, without the
conditions on recursion and on types (a value that is refused may have a shape), and with calls in place of what methods return. -/
inductive Shape (W : World) (h : Heap) : Mode → Path → Ty → GV → List Piece → Prop
  -- variables
  | marshaler {p t v t' v'} : HasMarshal W t → CalledOn W t v t' v' → Shape W h .typed p t v [.call t' v']
  | bytesNil {p} : Shape W h .typed p (.slice (.uint .u8)) .sliceNil [.text (strDoc []).text]
  | bytes {p a n s} : bytesOf (h.elems (.uint .u8) a n) = some s →
      Shape W h .typed p (.slice (.uint .u8)) (.slice a n) [.text (strDoc s).text]
  | plain {p t v ps} : ¬ HasMarshal W t → t ≠ .slice (.uint .u8) → W.isPtr t = false →
      Shape W h .kind p t v ps → Shape W h .typed p t v ps
  | ptrNil {p t e} : ¬ HasMarshal W t → W.resolve t = .ptr e → W.isPtr e = false →
      W.isIface e = false → Shape W h .typed p t .ptrNil [.text Doc.null.text]
  | ptrKind {p t e a ps} : ¬ HasMarshal W t → W.resolve t = .ptr e → W.isStruct e = true ∨ directKind W e = true →
      Shape W h .kind p e (h.deref e a) ps → Shape W h .typed p t (.ptr a) ps
  | ptrTyped {p t e a ps} : ¬ HasMarshal W t → W.resolve t = .ptr e → W.isPtr e = false → W.isIface e = false →
      W.isStruct e = false → directKind W e = false →
      Shape W h .typed p e (h.deref e a) ps → Shape W h .typed p t (.ptr a) ps
  | ptrIface {p t e v ps} : ¬ HasMarshal W t → W.resolve t = .ptr e → W.isIface e = true →
      Shape W h .held p t v ps → Shape W h .typed p t v ps
  -- by kind
  | scalar {p t v d} : ScalarDoc W t v d → Shape W h .kind p t v [.text d.text]
  | struct {p t id vs ws px} : W.resolve t = .struct id → Written W 0 (W.fields id) vs ws →
      (∀ (j : Nat) (w : WField), ws[j]? = some w → Shape W h (.field w.str) (w.idx :: p) w.ty w.val (px j)) →
      Shape W h .kind p t (.struct vs) (arrPieces ws.length (fun j => strDoc ((ws[j]?.map (·.key)).getD [])) px)
  | array {p t n e vs px} : W.resolve t = .array n e → vs.length = n →
      (∀ (i : Nat) (v : GV), vs[i]? = some v → Shape W h .typed (i :: p) e v (px i)) →
      Shape W h .kind p t (.arr vs) (arrPieces vs.length idxDoc px)
  | sliceNil {p t e} : W.resolve t = .slice e → Shape W h .kind p t .sliceNil [.text Doc.null.text]
  | slice {p t e a n vs px} : W.resolve t = .slice e → h.elems e a n = vs →
      (∀ (i : Nat) (v : GV), vs[i]? = some v → Shape W h .typed (i :: p) e v (px i)) →
      Shape W h .kind p t (.slice a n) (arrPieces vs.length idxDoc px)
  | mapNil {p t k e} : W.resolve t = .map k e → Shape W h .kind p t .mapNil [.text Doc.null.text]
  | map {p t k e a es kd px} : W.resolve t = .map k e → h.iter k e p a = es →
      (∀ (i : Nat) (x y : GV), es[i]? = some (x, y) → KeyDoc W k x (kd i)) →
      (∀ (i : Nat) (x y : GV), es[i]? = some (x, y) → Shape W h .typed (i :: p) e y (px i)) →
      Shape W h .kind p t (.map a) (arrPieces es.length kd px)
  | iface {p t v ps} : W.isIface t = true → Shape W h .held p t v ps → Shape W h .kind p t v ps
  -- held in an interface
  | heldNil {p t v} : Deref W h t v none → Shape W h .held p t v [.text Doc.null.text]
  | heldScalar {p t v t' v' d} : Deref W h t v (some (t', v')) → ScalarDoc W t' v' d → Shape W h .held p t v [.text d.text]
  | heldTyped {p t v t' v' ps} : Deref W h t v (some (t', v')) → W.isStruct t' = true ∨ (∃ e, W.resolve t' = .slice e ∧ W.isIface e = false) →
      Shape W h .typed p t' v' ps → Shape W h .held p t v ps
  | heldSliceNil {p t v t' e} : Deref W h t v (some (t', .sliceNil)) → W.resolve t' = .slice e → W.isIface e = true →
      Shape W h .held p t v [.text Doc.null.text]
  | heldSlice {p t v t' e a n vs px} : Deref W h t v (some (t', .slice a n)) → W.resolve t' = .slice e → W.isIface e = true →
      h.elems e a n = vs → (∀ (i : Nat) (v : GV), vs[i]? = some v → Shape W h .held (i :: p) e v (px i)) →
      Shape W h .held p t v (arrPieces vs.length idxDoc px)
  | heldMapNil {p t v t' k e} : Deref W h t v (some (t', .mapNil)) → W.resolve t' = .map k e → Shape W h .held p t v [.text Doc.null.text]
  | heldMap {p t v t' k e a es kd px} : Deref W h t v (some (t', .map a)) → W.resolve t' = .map k e → h.iter k e p a = es →
      (∀ (i : Nat) (x y : GV), es[i]? = some (x, y) → KeyDoc W k x (kd i)) →
      (∀ (i : Nat) (x y : GV), es[i]? = some (x, y) → Shape W h (if W.isIface e then .held else .typed) (i :: p) e y (px i)) →
      Shape W h .held p t v (arrPieces es.length kd px)
  -- struct fields
  | fieldPlain {p t v ps} : W.isPtr t = false → Shape W h .typed p t v ps → Shape W h (.field false) p t v ps
  | fieldPtrNil {p t e str} : W.resolve t = .ptr e → Shape W h (.field str) p t .ptrNil [.text Doc.null.text]
  | fieldPtr {p t e a ps} : W.resolve t = .ptr e → Shape W h .typed p e (h.deref e a) ps → Shape W h (.field false) p t (.ptr a) ps
  | fieldStr {p t v d} : W.isPtr t = false → StrFieldDoc W h t v d → Shape W h (.field true) p t v [.text d.text]
  | fieldStrPtr {p t e a d} : W.resolve t = .ptr e → StrFieldDoc W h e (h.deref e a) d → Shape W h (.field true) p t (.ptr a) [.text d.text]

/-- Methods that return what the memory says, whatever was called before. -/
def NoState (h : Heap) (M : MarHooks) : Prop := ∀ cs t v, M cs t v = h.marshal t v

end Verif.Spec

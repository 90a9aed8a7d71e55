import Verif.Spec.Back
import Verif.Spec.Encode
/-
Specification of two rewritings of serialized texts, as relations between documents. One spells all numbers the usual way.
The other is what PHP makes of a text: `unserialize` followed by `serialize`. Nothing here comes from /repo.
-/
namespace Verif.Spec
open Verif

mutual
/-- `Respelled W d d'`: `d'` is `d` with the usual numerals for all integers, lengths and counts, that is without leading zeros and
without `-0`. A float may be written as any other text that stands for the same number. -/
inductive Respelled (W : World) : Doc → Doc → Prop
  | null : Respelled W .null .null
  | bool {b} : Respelled W (.bool b) (.bool b)
  | int {t i} : IntText t i → Respelled W (.int t) (.int (intText i))
  | float {t t'} : t' ≠ [] → 59 ∉ t' → (∀ x, FloatText W t x → FloatText W t' x) → Respelled W (.float t) (.float t')
  | str {len s} : IsDigits len → Respelled W (.str len s) (.str (natText (digitsVal len)) s)
  | arr {cnt es es'} : IsDigits cnt → RespelledPairs W es es' → Respelled W (.arr cnt es) (.arr (natText (digitsVal cnt)) es')
  | obj {clen cls cnt es es'} : IsDigits clen → IsDigits cnt → RespelledPairs W es es' →
      Respelled W (.obj clen cls cnt es) (.obj (natText (digitsVal clen)) cls (natText (digitsVal cnt)) es')
/-- The same for the entries of a container. -/
inductive RespelledPairs (W : World) : List (Doc × Doc) → List (Doc × Doc) → Prop
  | nil : RespelledPairs W [] []
  | cons {k k' v v' es es'} : Respelled W k k' → Respelled W v v' → RespelledPairs W es es' →
      RespelledPairs W ((k, v) :: es) ((k', v') :: es')
end

/-- The UnmarshalPHP methods met in values of type `t` do not tell the two spellings of a document apart. (So it is if there are none,
or if they call `Unmarshal` themselves.) -/
structure Blind (W : World) (t : Ty) : Prop where
  unm : ∀ t' id, Uses W t t' → W.unmOf t' = some id → ∀ d d', Respelled W d d' → W.unmarshal id d'.text = W.unmarshal id d.text
  dyn : ∀ t' i, Uses W t t' → Plain W t' (.iface i) →
    ∀ dt v d d', Respelled W d d' → W.unmarshalDyn dt v d'.text = W.unmarshalDyn dt v d.text

/-- PHP takes this string for an integer when it is used as a key of an array: it is the usual numeral of an integer of 64 bits. -/
def NumberKey (s : Bytes) : Prop := ∃ i, InRange .i64 i ∧ s = intText i

/-- A key of an array, before and after a trip through PHP. -/
inductive TripKey : Doc → Doc → Prop
  | int {t i} : IntText t i → InRange .i64 i → TripKey (.int t) (.int (intText i))
  | str {len s} : LenText len s.length → ¬ NumberKey s → TripKey (.str len s) (.str (natText s.length) s)
  | number {len i} : LenText len (intText i).length → InRange .i64 i → TripKey (.str len (intText i)) (.int (intText i))

mutual
/-- `Trip W d d'`: PHP (of 64 bits) reads the text of `d` without complaint and writes `d'`: `serialize(unserialize($d)) === $d'`.
Integers are integers of 64 bits, floats are written as a text for the same number, keys of arrays are integers or strings, and
strings that are numerals of integers become integers. No two keys of an array may become the same; PHP would keep the last.
Objects are left out, `Marshal` does not write them. -/
inductive Trip (W : World) : Doc → Doc → Prop
  | null : Trip W .null .null
  | bool {b} : Trip W (.bool b) (.bool b)
  | int {t i} : IntText t i → InRange .i64 i → Trip W (.int t) (.int (intText i))
  | float {t t'} : t' ≠ [] → 59 ∉ t' → (∀ x, FloatText W t x → FloatText W t' x) → Trip W (.float t) (.float t')
  | str {len s} : LenText len s.length → Trip W (.str len s) (.str (natText s.length) s)
  | arr {cnt es es'} : LenText cnt es.length → TripPairs W es es' → es'.Pairwise (fun x y => x.1 ≠ y.1) →
      Trip W (.arr cnt es) (.arr (natText es.length) es')
/-- The same for the entries of an array. -/
inductive TripPairs (W : World) : List (Doc × Doc) → List (Doc × Doc) → Prop
  | nil : TripPairs W [] []
  | cons {k k' v v' es es'} : TripKey k k' → Trip W v v' → TripPairs W es es' → TripPairs W ((k, v) :: es) ((k', v') :: es')
end

mutual
/-- No string that PHP takes for an integer is a key of an array in the document. -/
def NoNumberKeys : Doc → Prop
  | .arr _ es => NoNumberPairs es
  | .obj _ _ _ es => NoNumberPairs es
  | _ => True
/-- The same for the entries of a container. -/
def NoNumberPairs : List (Doc × Doc) → Prop
  | [] => True
  | (k, v) :: es => (∀ len s, k = .str len s → ¬ NumberKey s) ∧ NoNumberKeys v ∧ NoNumberPairs es
end

/-- What is asked of a value of type `t` itself, not of its parts: the keys of a map, and those of the fields of a struct, are not strings
that PHP takes for integers. -/
def WordKeys (W : World) (h : Heap) (t : Ty) : GV → Prop
  | .map a => ∀ k e p x, W.resolve t = .map k e → x ∈ h.iter k e p a → ∀ s, x.1 = .str s → ¬ NumberKey s
  | .struct _ => ∀ id f key, W.resolve t = .struct id → f ∈ W.fields id → HasKey W f key → ¬ NumberKey key
  | _ => True

/-- What PHP asks of a value of type `t` itself, not of its parts: integers are integers of 64 bits, no two keys of a map are the same, and
no two fields of a struct that are written have the same key. -/
def PhpFit (W : World) (h : Heap) (t : Ty) : GV → Prop
  | .int i => InRange .i64 i
  | .uint n => n < 2 ^ 63
  | .map a => ∀ k e p, W.resolve t = .map k e → (h.iter k e p a).Pairwise (fun x y => x.1 ≠ y.1) ∧
      ∀ x ∈ h.iter k e p a, (∀ i, x.1 = .int i → InRange .i64 i) ∧ ∀ n, x.1 = .uint n → n < 2 ^ 63
  | .struct _ => ∀ (id i j : Nat) (f g : Field) (key : Bytes), W.resolve t = .struct id → (W.fields id)[i]? = some f → (W.fields id)[j]? = some g →
      f.exported = true → g.exported = true → HasKey W f key → HasKey W g key → key ≠ [45] → i = j
  | _ => True

end Verif.Spec

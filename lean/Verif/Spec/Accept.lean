import Verif.Spec.Compile
/-
Which documents a type takes, said place by place: the variables that parts of a document are read into, and what one variable asks of its part. No values
of variables and no order of reading.
-/
namespace Verif.Spec
open Verif

/-- A document that is read into a variable of type `t`, where `n` more containers may be nested, has a part that is read into a variable of type `t'`. -/
inductive DocStep (W : World) : Ty → Nat → Doc → Ty → Nat → Doc → Prop
  | ptr {t n e d} : Plain W t (.ptr e) → d ≠ .null → DocStep W t n d e n d
  | slice {t n e cnt es k d} : Plain W t (.slice e) → (k, d) ∈ es → DocStep W t (n + 1) (.arr cnt es) e n d
  -- entries beyond the end of an array are not read into anything
  | array {t n l e cnt es txt i d} : Plain W t (.array l e) → (.int txt, d) ∈ es → IntText txt (i : Nat) → i < l → DocStep W t (n + 1) (.arr cnt es) e n d
  | mapKey {t n k e d cnt es kd x} : Plain W t (.map k e) → KeyType W k → Container d cnt es → (kd, x) ∈ es → DocStep W t (n + 1) d k n kd
  | mapVal {t n k e d cnt es kd x} : Plain W t (.map k e) → Container d cnt es → (kd, x) ∈ es → DocStep W t (n + 1) d e n x
  -- fields with an effective option `string` are left to `HereOk`
  | field {t n id d cnt es kd x s i f} : Plain W t (.struct id) → Container d cnt es → (kd, x) ∈ es → FieldKey kd s → FieldFor W id s i f →
      (¬ HasString W f ∨ StringIgnored W f.ty) → DocStep W t (n + 1) d f.ty n x
  | any {t n d cnt es kd x} : Plain W t .any → Container d cnt es → (kd, x) ∈ es → DocStep W t (n + 1) d .any n x

/-- Any number of such steps. -/
inductive DocAt (W : World) : Ty → Nat → Doc → Ty → Nat → Doc → Prop
  | here {t n d} : DocAt W t n d t n d
  | step {t n d t1 n1 d1 t2 n2 d2} : DocStep W t n d t1 n1 d1 → DocAt W t1 n1 d1 t2 n2 d2 → DocAt W t n d t2 n2 d2

/-- The document may be a key of a map with keys of type `k`, if it can be read into a variable of type `k`. -/
inductive KeyOk (W : World) (k : Ty) : Doc → Prop
  | unmNull {id} : W.unmOf k = some id → Hashable (W.namedZero id) → KeyOk W k .null
  | unm {id kd} : W.unmOf k = some id → kd ≠ .null → (∀ v, W.unmarshal id kd.text = .ok v → Hashable v) → KeyOk W k kd
  | str {kd} : Plain W k .str → KeyOk W k kd
  | bool {kd} : Plain W k .bool → KeyOk W k kd
  | int {i kd} : Plain W k (.int i) → KeyOk W k kd
  | uint {i kd} : Plain W k (.uint i) → KeyOk W k kd
  | any {kd} : Plain W k .any → (∀ cnt es, ¬ Container kd cnt es) → KeyOk W k kd
  -- maps keyed by pointers take null only
  | ptr {p} : Plain W k (.ptr p) → W.unmOf p = none → KeyType W p → KeyOk W k .null

/-- What a field of type `t` with the option `string` takes: null, and strings that spell a value. -/
inductive QuotedOk (W : World) (t : Ty) : Doc → Prop
  | null : IsScalar W t → QuotedOk W t .null
  | str {len s v} : IsScalar W t → LenText len s.length → ScalarText W t s v → QuotedOk W t (.str len s)
  | ptrNull {e} : Plain W t (.ptr e) → IsScalar W e → QuotedOk W t .null
  | ptrStr {e len s v} : Plain W t (.ptr e) → IsScalar W e → LenText len s.length → ScalarText W e s v → QuotedOk W t (.str len s)

/-- What a variable of type `t` asks of the document read into it, apart from what its parts ask. -/
inductive HereOk (W : World) : Ty → Nat → Doc → Prop
  | unmNull {t n id} : W.unmOf t = some id → HereOk W t n .null
  | unm {t n id d v} : W.unmOf t = some id → d ≠ .null → Strict n d → W.unmarshal id d.text = .ok v → HereOk W t n d
  | ptr {t n e d} : Plain W t (.ptr e) → W.isPtr e = false → HereOk W t n d
  | scalarNull {t n} : IsScalar W t → HereOk W t n .null
  | bool {t n b} : Plain W t .bool → HereOk W t n (.bool b)
  | int {t n k txt i} : Plain W t (.int k) → IntText txt i → InRange k i → HereOk W t n (.int txt)
  | uint {t n k txt} : Plain W t (.uint k) → IsDigits txt → InURange k (digitsVal txt) → HereOk W t n (.int txt)
  | f32 {t n txt x} : Plain W t .f32 → txt ≠ [] → 59 ∉ txt → FloatText W txt x → Fits32 x → HereOk W t n (.float txt)
  | f64 {t n txt x} : Plain W t .f64 → txt ≠ [] → 59 ∉ txt → FloatText W txt x → HereOk W t n (.float txt)
  | strNull {t n} : Plain W t .str → HereOk W t n .null
  | str {t n len s} : Plain W t .str → LenText len s.length → HereOk W t n (.str len s)
  | bytesNull {t n e} : Plain W t (.slice e) → W.isByte e = true → HereOk W t n .null
  | bytes {t n e len s} : Plain W t (.slice e) → W.isByte e = true → LenText len s.length → HereOk W t n (.str len s)
  | sliceNull {t n e} : Plain W t (.slice e) → W.isByte e = false → HereOk W t (n + 1) .null
  | sliceEmpty {t n e} : Plain W t (.slice e) → HereOk W t (n + 1) (.arr [48] [])
  | slice {t n e cnt m es} : Plain W t (.slice e) → LenText cnt m → cnt.head? ≠ some 48 → esize W e * m ≤ 2 ^ 48 → es ≠ [] →
      (∀ k d, (k, d) ∈ es → ∃ txt i, k = .int txt ∧ IntText txt (i : Nat) ∧ i + 1 < 2 ^ 63 ∧ esize W e * (i + 1) ≤ 2 ^ 48) → HereOk W t (n + 1) (.arr cnt es)
  | arrayNull {t n l e} : Plain W t (.array l e) → HereOk W t (n + 1) .null
  | arrayEmpty {t n l e} : Plain W t (.array l e) → HereOk W t (n + 1) (.arr [48] [])
  | array {t n l e cnt m es} : Plain W t (.array l e) → LenText cnt m → cnt.head? ≠ some 48 → es ≠ [] →
      (∀ k d, (k, d) ∈ es → ∃ txt i, k = .int txt ∧ IntText txt (i : Nat) ∧ i < 2 ^ 63 ∧ (l ≤ i → Strict n d)) → HereOk W t (n + 1) (.arr cnt es)
  | mapNull {t n k e} : Plain W t (.map k e) → HereOk W t (n + 1) .null
  | map {t n k e d cnt m es} : Plain W t (.map k e) → Container d cnt es → LenText cnt m → (∀ kd x, (kd, x) ∈ es → KeyOk W k kd) → HereOk W t (n + 1) d
  | structNull {t n id} : Plain W t (.struct id) → HereOk W t (n + 1) .null
  | struct {t n id d cnt es} : Plain W t (.struct id) → Container d cnt es → IsDigits cnt →
      (∀ kd x, (kd, x) ∈ es → ∃ s, FieldKey kd s ∧ ((NoField W id s ∧ Strict n x) ∨
        ∃ i f, FieldFor W id s i f ∧ ((¬ HasString W f ∨ StringIgnored W f.ty) ∨ (HasString W f ∧ QuotedOk W f.ty x)))) → HereOk W t (n + 1) d
  | anyNull {t n} : Plain W t .any → HereOk W t n .null
  | anyBool {t n b} : Plain W t .any → HereOk W t n (.bool b)
  | anyInt {t n txt i} : Plain W t .any → IntText txt i → InRange .i64 i → HereOk W t n (.int txt)
  | anyFloat {t n txt x} : Plain W t .any → txt ≠ [] → 59 ∉ txt → FloatText W txt x → HereOk W t n (.float txt)
  | anyStr {t n len s} : Plain W t .any → LenText len s.length → HereOk W t n (.str len s)
  | anyArr {t n cnt m es} : Plain W t .any → LenText cnt m →
      (∀ kd x, (kd, x) ∈ es → (∃ txt i, kd = .int txt ∧ IntText txt i ∧ InRange .i64 i) ∨ ∃ len s, kd = .str len s ∧ LenText len s.length) →
      HereOk W t (n + 1) (.arr cnt es)
  | anyObj {t n clen cls cnt m es} : Plain W t .any → LenText clen cls.length → LenText cnt m → (∀ kd x, (kd, x) ∈ es → ∃ s, FieldKey kd s) →
      HereOk W t (n + 1) (.obj clen cls cnt es)

end Verif.Spec

import Verif.Model.Lex
import Verif.Model.Tags
import Verif.Model.Unquote
/-
Model of the decoders in /repo/internal/decoder. A decoder object built by compile.go for a type is represented by the
type itself: `decodeF` looks at the type at the moment the Go code would call the `Decode` method of the decoder that
`compile` built for it. Struct decoders are looked up by struct number, which matches the sharing of the decoder
object through `structTypeToDecoder` (compile.go:261-263).

Every decoder takes the current destination value `rv` and returns the destination after the call together with the
outcome, because Go decodes in place and the destination is visible to the caller after an error too.
-/
namespace Verif

/-- What a decoder leaves behind: the destination and the outcome (new cursor). -/
abbrev DR := Val × Res Nat

/-- Statement sequencing with the destination `rv` left behind when the step fails (Go error/panic propagation). -/
def onOk {α β : Type} (rv : Val) (r : Res α) (k : α → Val × Res β) : Val × Res β :=
  match r with
  | .ok a => k a
  | .err e => (rv, .err e)
  | .panic p => (rv, .panic p)
  | .diverge => (rv, .diverge)

/-! ### Scalars -/

/-- `intDecoder.decodeByte`, int.go:111-122, and the identical `uintDecoder.decodeBytes`, uint.go:39-50.
`none` is Go's nil slice (the value was null). -/
def intBytes (buf : Bytes) (c : Nat) : Res (Option Bytes × Nat) :=
  if !hasByte buf c then .err (.unexpectedEnd "integer" c) else
  idx buf c >>= fun b =>
  if b = cN then validateNull buf c >>= fun _ => .ok (none, c + 2)
  else readIntegerBytes buf c >>= fun (t, e) => .ok (some t, e)

/-- `intDecoder.processBytes`, int.go:137-150. -/
def processInt (k : IKind) (txt : Bytes) (c : Nat) (rv : Val) : DR :=
  match parseInt64 txt with
  | .ok i => if !k.fits i then (rv, .err (.overflow (.int i) (.int k))) else (.int i, .ok c)
  | .err _ => (rv, .err (.typeError (.number txt) c))
  | .panic p => (rv, .panic p)
  | .diverge => (rv, .diverge)

/-- `intDecoder.Decode`, int.go:124-135. -/
def intDecode (k : IKind) (buf : Bytes) (c : Nat) (rv : Val) : DR :=
  onOk rv (intBytes buf c) fun (ob, c) =>
  match ob with
  | none => (rv, .ok c)
  | some t => processInt k t c rv

/-- Digit loop of strconv.ParseUint in base 10 (used at uint.go:36): `none` for a character that is not a digit. -/
def parseUintLoop : Bytes → Nat → Option Nat
  | [], acc => some acc
  | c :: cs, acc => if isDigit c then parseUintLoop cs (10 * acc + (c - 48).toNat) else none

/-- `uintDecoder.parseUint`, uint.go:35-37: strconv.ParseUint(s, 10, 64), by its documentation. -/
def parseUint (txt : Bytes) : Option Nat :=
  if txt.isEmpty then none
  else match parseUintLoop txt 0 with
    | none => none
    | some n => if n < 2 ^ 64 then some n else none

/-- `uintDecoder.processBytes`, uint.go:65-78. -/
def processUint (k : UKind) (txt : Bytes) (c : Nat) (rv : Val) : DR :=
  match parseUint txt with
  | none => (rv, .err (.typeError (.number txt) c))
  | some n => if !k.fits n then (rv, .err (.overflow (.uint n) (.uint k))) else (.uint n, .ok c)

/-- `uintDecoder.Decode`, uint.go:52-63. -/
def uintDecode (k : UKind) (buf : Bytes) (c : Nat) (rv : Val) : DR :=
  onOk rv (intBytes buf c) fun (ob, c) =>
  match ob with
  | none => (rv, .ok c)
  | some t => processUint k t c rv

/-- IEEE bits of +Inf, -Inf and Go's math.NaN (float.go:57-61). -/
abbrev infBits : UInt64 := 0x7FF0000000000000
/-- bits of -Inf -/
abbrev negInfBits : UInt64 := 0xFFF0000000000000
/-- bits of math.NaN() -/
abbrev nanBits : UInt64 := 0x7FF8000000000001

/-- ASCII "INF", "-INF", "NAN" (float.go:56-61, encoder float.go). -/
def infTxt : Bytes := [73, 78, 70]
/-- "-INF" -/
def negInfTxt : Bytes := [45, 73, 78, 70]
/-- "NAN" -/
def nanTxt : Bytes := [78, 65, 78]

/-- The text-to-number switch of `floatDecoder.processBytes`, float.go:55-64. -/
def floatOfText (W : World) (txt : Bytes) : Option UInt64 :=
  if txt = infTxt then some infBits
  else if txt = negInfTxt then some negInfBits
  else if txt = nanTxt then some nanBits
  else W.parseF64 txt

/-- reflect.Value.OverflowFloat for Float32 on the bits of a float64 (used at float.go:69):
MaxFloat32 < |x| <= MaxFloat64. -/
def overflowF32 (x : UInt64) : Bool :=
  let a := x &&& 0x7FFFFFFFFFFFFFFF
  decide (a > 0x47EFFFFFE0000000) && decide (a ≤ 0x7FEFFFFFFFFFFFFF)

/-- `floatDecoder.processBytes`, float.go:52-76; `is32` is the kind of the destination. -/
def processFloat (W : World) (is32 : Bool) (txt : Bytes) (c : Nat) (rv : Val) : DR :=
  match floatOfText W txt with
  | none => (rv, .err (.syntaxErr (.strconv "ParseFloat" txt) c))
  | some x =>
    if is32 then if overflowF32 x then (rv, .err (.overflow (.float x) .f32)) else (.f32 (W.toF32 x), .ok c)
    else (.f64 x, .ok c)

/-- `floatDecoder.decodeByte`, float.go:20-37. -/
def floatBytes (buf : Bytes) (c : Nat) : Res (Option Bytes × Nat) :=
  if !hasByte buf c then .err (.unexpectedEnd "float" c) else
  idx buf c >>= fun b =>
  if b = cN then validateNull buf c >>= fun _ => .ok (none, c + 2)
  else if b = cd then readFloatBytes buf c >>= fun (t, e) => .ok (some t, e)
  else .err (.unexpected "float start with 'd' or 'N'" c b)

/-- `floatDecoder.Decode`, float.go:39-50. -/
def floatDecode (W : World) (is32 : Bool) (buf : Bytes) (c : Nat) (rv : Val) : DR :=
  onOk rv (floatBytes buf c) fun (ob, c) =>
  match ob with
  | none => (rv, .ok c)
  | some t => processFloat W is32 t c rv

/-- `boolDecoder.Decode`, bool.go:18-41. -/
def boolDecode (buf : Bytes) (c : Nat) (rv : Val) : DR :=
  if !hasByte buf c then (rv, .err (.unexpectedEnd "bool" c)) else
  onOk rv (idx buf c) fun b =>
  if b = cb then onOk rv (readBool buf c) fun v => (.bool v, .ok (c + 4))
  else if b = cN then onOk rv (validateNull buf c) fun _ => (rv, .ok (c + 2))
  else (rv, .err (.unexpectedEnd "bool" c))

/-- `stringDecoder.decodeByte`, string.go:44-74. -/
def stringBytes (buf : Bytes) (c : Nat) : Res (Option Bytes × Nat) :=
  if !hasByte buf c then .err (.unexpectedEnd "string" c) else
  idx buf c >>= fun b =>
  if b = cN then validateNull buf c >>= fun _ => .ok (none, c + 2)
  else if b = cb then .err (.typeError "bool" c)
  else if b = cd then .err (.typeError "float" c)
  else if b = cs then readString buf (c + 1) >>= fun (s, e) => .ok (some s, e)
  else if b = ci then .err (.typeError "number" c)
  else .err (.beginValue b c)

/-- `stringDecoder.Decode`, string.go:31-42. -/
def stringDecode (buf : Bytes) (c : Nat) (rv : Val) : DR :=
  onOk rv (stringBytes buf c) fun (ob, c) =>
  match ob with
  | none => (rv, .ok c)
  | some s => (.str s, .ok c)

/-! ### `,string` fields -/

/-- strconv.ParseBool (used at wrapped_string.go:79), by its documentation. -/
def parseBool (s : Bytes) : Option Bool :=
  if s = [49] ∨ s = [116] ∨ s = [84] ∨ s = [116, 114, 117, 101] ∨ s = [84, 82, 85, 69] ∨ s = [84, 114, 117, 101] then some true
  else if s = [48] ∨ s = [102] ∨ s = [70] ∨ s = [102, 97, 108, 115, 101] ∨ s = [70, 65, 76, 83, 69] ∨ s = [70, 97, 108, 115, 101] then
    some false
  else none

/-- The `DecodeString` methods, wrapped_string.go:78-136, selected by the kind of the field
(newWrappedStringDecoder, wrapped_string.go:25-34). Other kinds are rejected when the type is compiled. -/
def decodeString (W : World) (t : Ty) (s : Bytes) (c : Nat) (rv : Val) : Val × Res Nat :=
  match W.resolve t with
  | .bool => match parseBool s with
    | some v => (.bool v, .ok c)
    | none => (rv, .err (.syntaxErr (.strconv "ParseBool" s) c))
  | .f32 => processFloat W true s c rv
  | .f64 => processFloat W false s c rv
  | .uint k => processUint k s c rv
  | .int k => processInt k s c rv
  | _ => (rv, .err (.unsupported "string option"))

/-- `wrappedStringDecoder.Decode`, wrapped_string.go:51-67, for a scalar field type (`isPtrType` is false there).
The cursor given to DecodeString is only used in errors; the cursor returned is the one after the string. -/
def wrappedDecode (W : World) (t : Ty) (buf : Bytes) (c : Nat) (rv : Val) : DR :=
  onOk rv (stringBytes buf c) fun (ob, e) =>
  match ob with
  | none => (rv, .ok e)
  | some s =>
    match decodeString W t s c rv with
    | (rv', r) => onOk rv' r fun _ => (rv', .ok e)

/-! ### Pointers -/

/-- `ptrDecoder.Decode`, ptr.go:30-53; `inner` is the decoder of the element type, `zeroE` its zero value. -/
def ptrDecode (inner : Nat → Nat → Val → DR) (zeroE : Val) (buf : Bytes) (c depth : Nat) (rv : Val) : DR :=
  onOk rv (idx buf c) fun b =>
  if b = cN then onOk rv (validateNull buf c) fun _ => (.ptrNil, .ok (c + 2))
  else
    match rv with
    | .ptrNil => match inner c depth zeroE with | (v, r) => (.ptr v, r)
    | .ptr v0 => match inner c depth v0 with | (v, r) => (.ptr v, r)
    | _ => (rv, .panic .reflectKind)

/-! ### Slices, byte slices and arrays -/

/-- The element loop of `sliceDecoder.Decode`, slice.go:109-142. `slice` is the local variable, `rv` the destination.
When no new slice was allocated the destination already shares the storage of `slice` (line 131 ran before), so a
partly decoded element is visible in it. -/
def sliceLoop (dec : Nat → Val → DR) (zeroE : Val) (esize : Nat) (buf : Bytes) :
    Nat → Nat → List Val → Val → DR
  | 0, _, _, rv => (rv, .diverge)
  | f + 1, c, slice, rv =>
    if !hasByte buf c then (rv, .err (.unexpectedEnd "array" c)) else
    onOk rv (readInt buf c) fun (i, c) =>
    if !hasByte buf c then (rv, .err (.unexpectedEnd "array value" c)) else
    let grow := decide (i ≥ slice.length)
    if grow && !makeSliceOk esize (wrap64 (i + 1)) then (rv, .panic .makeSlice) else
    let slice := if grow then slice ++ List.replicate (i + 1 - slice.length) zeroE else slice
    match slice[i]? with
    | none => (rv, .panic .index)
    | some v0 =>
      match dec c v0 with
      | (v, r) =>
        let slice' := slice.set i v
        onOk (if grow then rv else .slice slice') r fun c =>
        let rv := .slice slice'
        if !hasByte buf c then (rv, .err (.unexpectedEnd "array" c)) else
        onOk rv (idx buf c) fun b =>
        if b = cRBrace then (rv, .ok (c + 1)) else
        sliceLoop dec zeroE esize buf f c slice' rv

/-- `sliceDecoder.Decode`, slice.go:51-148. `dec` is the element decoder, called at the incremented depth. -/
def sliceDecode (dec : Nat → Nat → Val → DR) (zeroE : Val) (esize : Nat) (buf : Bytes) (c depth : Nat) (rv : Val) : DR :=
  if !hasByte buf c then (rv, .err (.unexpectedEnd "slice" c)) else
  let depth := depth + 1
  if depth > maxDepth then (rv, .err (.maxDepth (byteAt buf c) c)) else
  onOk rv (idx buf c) fun b =>
  if b = cN then onOk rv (validateNull buf c) fun _ => (.sliceNil, .ok (c + 2))
  else if b = ca then
    let c := c + 1
    if !hasByte buf c then (rv, .err (.unexpectedEnd "array length" c)) else
    onOk rv (idx buf c) fun b =>
    if b ≠ cColon then (rv, .err (.unexpected "':' before array length" c b)) else
    let c := c + 1
    if !hasByte buf c then (rv, .err (.unexpectedEnd "array length" c)) else
    onOk rv (idx buf c) fun b =>
    if b = c0 then onOk rv (validateEmptyArray buf c) fun _ => (.sliceNil, .ok (c + 4))
    else
      onOk rv (readLengthInt buf (c - 1)) fun (arrLen, c) =>
      if !hasByte buf c then (rv, .err (.unexpectedEnd "array" c)) else
      onOk rv (idx buf c) fun b =>
      if b ≠ cLBrace then (rv, .err (.beginArray b c)) else
      if !makeSliceOk esize arrLen then (rv, .panic .makeSlice) else
      sliceLoop (fun c v => dec c depth v) zeroE esize buf (buf.length + 1) (c + 1) [] rv
  else if b = cMinus ∨ isDigit b then (rv, .err (.typeError "number" c))
  else (rv, .err (.unexpectedEnd "slice" c))

/-- `bytesDecoder.Decode` and `decodeBinary`, bytes.go:38-67. The element decoder used for `a:` input is the uint8 or
Unmarshaler decoder of the element type (bytes.go:17-26). -/
def bytesDecode (dec : Nat → Nat → Val → DR) (zeroE : Val) (buf : Bytes) (c depth : Nat) (rv : Val) : DR :=
  onOk rv (idx buf c) fun b =>
  if b = ca then sliceDecode dec zeroE 1 buf c depth rv
  else
    onOk rv (stringBytes buf c) fun (ob, c) =>
    match ob with
    | none => (rv, .ok c)
    | some s => (bytesVal s, .ok c)

/-- The element loop of `arrayDecoder.Decode`, array.go:82-123. -/
def arrayLoop (dec : Nat → Val → DR) (skip : Nat → Res Nat) (buf : Bytes) : Nat → Nat → List Val → DR
  | 0, _, vs => (.arr vs, .diverge)
  | f + 1, c, vs =>
    if !hasByte buf c then (.arr vs, .err (.unexpectedEnd "array" c)) else
    onOk (.arr vs) (readInt buf c) fun (i, c) =>
    if !hasByte buf c then (.arr vs, .err (.unexpectedEnd "array value" c)) else
    match (match vs[i]? with
      | some v0 => match dec c v0 with | (v, r) => (vs.set i v, r)
      | none => (vs, skip c)) with
    | (vs, r) =>
      onOk (.arr vs) r fun c =>
      if !hasByte buf c then (.arr vs, .err (.unexpectedEnd "array" c)) else
      onOk (.arr vs) (idx buf c) fun b =>
      if b = cRBrace then (.arr vs, .ok (c + 1)) else
      arrayLoop dec skip buf f c vs

/-- `arrayDecoder.Decode`, array.go:32-127; `n` is the array length. After line 57 the destination consists of `n`
zero elements, so `i < alen` is the same as `i` being a valid position of the list. -/
def arrayDecode (dec : Nat → Nat → Val → DR) (zeroE : Val) (n : Nat) (buf : Bytes) (c depth : Nat) (rv : Val) : DR :=
  if !hasByte buf c then (rv, .err (.unexpectedEnd "array" c)) else
  let depth := depth + 1
  if depth > maxDepth then (rv, .err (.maxDepth (byteAt buf c) c)) else
  onOk rv (idx buf c) fun b =>
  if b = cN then onOk rv (validateNull buf c) fun _ => (rv, .ok (c + 2))
  else if b = ca then
    let c := c + 1
    if !hasByte buf c then (rv, .err (.unexpectedEnd "array length" c)) else
    onOk rv (idx buf c) fun b =>
    if b ≠ cColon then (rv, .err (.unexpected "':' before array length" c b)) else
    let zeros := List.replicate n zeroE
    let rv := .arr zeros
    let c := c + 1
    if !hasByte buf c then (rv, .err (.unexpectedEnd "array length" c)) else
    onOk rv (idx buf c) fun b =>
    if b = c0 then onOk rv (validateEmptyArray buf c) fun _ => (rv, .ok (c + 4))
    else
      onOk rv (readLengthInt buf (c - 1)) fun (_, c) =>
      if !hasByte buf c then (rv, .err (.unexpectedEnd "array" c)) else
      onOk rv (idx buf c) fun b =>
      if b ≠ cLBrace then (rv, .err (.beginArray b c)) else
      arrayLoop (fun c v => dec c depth v) (fun c => skipValue buf c depth) buf (buf.length + 1) (c + 1) zeros
  else (rv, .err (.unexpectedEnd "array" c))

/-! ### Maps -/

/-- The entry loop of `mapDecoder.Decode`, map.go:87-118. -/
def mapLoop (keyDec : Nat → DR) (valDec : Nat → DR) (buf : Bytes) : Nat → Nat → List (Val × Val) → DR
  | 0, _, es => (.map es, .diverge)
  | f + 1, c, es =>
    if !hasByte buf c then (.map es, .err (.unexpectedEnd "map" c)) else
    match keyDec c with
    | (k, r) =>
      onOk (.map es) r fun c =>
      if !hasByte buf c then (.map es, .err (.unexpectedEnd "map value" c)) else
      match valDec c with
      | (v, r) =>
        onOk (.map es) r fun c =>
        if !k.hashable then (.map es, .panic .unhashable) else
        let es := mapInsert k v es
        if !hasByte buf c then (.map es, .err (.unexpectedEnd "map" c)) else
        onOk (.map es) (idx buf c) fun b =>
        if b = cRBrace then (.map es, .ok (c + 1)) else
        mapLoop keyDec valDec buf f c es

/-- The map that entries are added to, map.go:77-79: the present one, or a new one in place of a nil map. -/
def mapEntries : Val → Option (List (Val × Val))
  | .mapNil => some []
  | .map es => some es
  | _ => none

/-- `mapDecoder.Decode`, map.go:31-119. `keyDec` and `valDec` decode into fresh zero values at the given depth. -/
def mapDecode (keyDec valDec : Nat → Nat → DR) (buf : Bytes) (c depth : Nat) (rv : Val) : DR :=
  if !hasByte buf c then (rv, .err (.unexpectedEnd "map" c)) else
  let depth := depth + 1
  if depth > maxDepth then (rv, .err (.maxDepth (byteAt buf c) c)) else
  onOk rv (idx buf c) fun b =>
  if b = cN then onOk rv (validateNull buf c) fun _ => (.mapNil, .ok (c + 2))
  else
    onOk rv (if b = cO then skipClassName buf c >>= fun e => .ok (e + 1)
      else if b = ca then .ok (c + 1)
      else .err (.unexpectedStart "map" c b)) fun c =>
    onOk rv (readLength buf c) fun (_, c) =>
    if !hasByte buf c then (rv, .err (.unexpectedEnd "map" c)) else
    onOk rv (idx buf c) fun b =>
    if b ≠ cLBrace then (rv, .err (.unexpected "{ character for map value" c b)) else
    match mapEntries rv with
    | none => (rv, .panic .reflectKind)
    | some es =>
      let c := c + 1
      if !hasByte buf c then (.map es, .err (.unexpectedEnd "map" c)) else
      onOk (.map es) (idx buf c) fun b =>
      if b = cRBrace then (.map es, .ok (c + 1)) else
      mapLoop (fun c => keyDec c depth) (fun c => valDec c depth) buf (buf.length + 1) c es

/-! ### Interfaces -/

/-- `mapKeyDecoder.Decode`, interface.go:247-273 (keys of the map[any]any built for `any`). -/
def anyKeyDecode (buf : Bytes) (c : Nat) : DR :=
  onOk .ifaceNil (idx buf c) fun b =>
  if b = cs then
    match stringDecode buf c (.str []) with
    | (v, r) => onOk .ifaceNil r fun c => (.iface .str v, .ok c)
  else if b = ci then
    match intDecode .i64 buf c (.int 0) with
    | (v, r) => onOk .ifaceNil r fun c => (.iface (.int .i64) v, .ok c)
  else (.ifaceNil, .err (.unexpected "array key" c b))

/-- `interfaceDecoder.decodeEmptyInterface`, interface.go:173-240. `anyDec` decodes an element into a fresh `any`. -/
def anyDecode (W : World) (anyDec : Nat → Nat → DR) (buf : Bytes) (c depth : Nat) (rv : Val) : DR :=
  onOk rv (idx buf c) fun b =>
  if b = cO then
    match mapDecode (fun c _ => stringDecode buf c (.str [])) anyDec buf c depth .mapNil with
    | (v, r) => onOk rv r fun c => (.iface (.map .str .any) v, .ok c)
  else if b = ca then
    match mapDecode (fun c _ => anyKeyDecode buf c) anyDec buf c depth .mapNil with
    | (v, r) => onOk rv r fun c => (.iface (.map .any .any) v, .ok c)
  else if b = cd then
    match floatDecode W false buf c (.f64 0) with
    | (v, r) => onOk rv r fun c => (.iface .f64 v, .ok c)
  else if b = cs then
    onOk rv (readString buf (c + 1)) fun (s, e) => (.iface .str (.str s), .ok e)
  else if b = ci then
    match intDecode .i64 buf c (.int 0) with
    | (v, r) => onOk rv r fun c => (.iface (.int .i64) v, .ok c)
  else if b = cb then
    onOk rv (readBool buf c) fun v => (.iface .bool (.bool v), .ok (c + 4))
  else if b = cN then
    onOk rv (validateNull buf c) fun _ => (.ifaceNil, .ok (c + 2))
  else (rv, .err (.beginValue b c))

/-- `decodePHPUnmarshaler`, interface.go:104-122, for an interface holding value `v` of dynamic type `t`. -/
def dynDecode (W : World) (t : Ty) (v : Val) (buf : Bytes) (c depth : Nat) (rv : Val) : DR :=
  onOk rv (skipValue buf c depth) fun e =>
  onOk rv (sub buf c e) fun src =>
  if src = [cN, cSemi] then (.ifaceNil, .ok e) else
  onOk rv (unquoteBytes src) fun o =>
  let src := o.getD src
  match W.unmarshalDyn t v src with
  | (v', r) => onOk (.iface t v') r fun _ => (.iface t v', .ok e)

/-- `interfaceDecoder.Decode` for an interface type with methods, interface.go:136-148 (`CanInterface` holds because
unexported fields are never decoded into). -/
def ifaceDecode (W : World) (buf : Bytes) (c depth : Nat) (rv : Val) : DR :=
  match (match rv with | .iface t v => if W.dynUnm t then some (t, v) else none | _ => none) with
  | some (t, v) => dynDecode W t v buf c depth rv
  | none =>
    onOk rv (idx buf c) fun b =>
    if b = cN then onOk rv (validateNull buf c) fun _ => (.ifaceNil, .ok (c + 2))
    else (rv, .err (.typeError "interface" c))

/-! ### Unmarshaler types -/

/-- `annotateError`, unmarshal_php.go:31-39: the offset of a `SyntaxError` becomes that of the value. The names stored in an
`UnmarshalTypeError` are left out. -/
def annotate (c : Nat) : Err → Err
  | .syntaxErr m _ => .syntaxErr m c
  | .maxDepth b _ => .maxDepth b c
  | .unexpectedStart w _ b => .unexpectedStart w c b
  | .unexpectedEnd w _ => .unexpectedEnd w c
  | .unexpected w _ b => .unexpected w c b
  | .invalidChar b w _ => .invalidChar b w c
  | .beginValue b _ => .beginValue b c
  | .beginArray b _ => .beginArray b c
  | .trailing b _ => .trailing b c
  | e => e

/-- `unmarshalPHPDecoder.Decode`, unmarshal_php.go:45-95, for declared type `id`. -/
def unmarshalDecode (W : World) (id : Nat) (buf : Bytes) (c depth : Nat) (rv : Val) : DR :=
  onOk rv (skipValue buf c depth) fun e =>
  onOk rv (sub buf c e) fun src =>
  if src.head? = some 91 then (rv, .err (.typeError "array" c)) else
  if src.head? = some cLBrace then (rv, .err (.typeError "object" c)) else
  if src.head? = some cMinus ∨ (src.head?.any isDigit) = true then (rv, .err (.typeError "number" c)) else
  if src = [cN, cSemi] then (W.namedZero id, .ok e) else
  onOk rv (unquoteBytes src) fun o =>
  let src := o.getD src
  onOk rv ((W.unmarshal id src).mapErr (annotate c)) fun v => (v, .ok e)

/-! ### Structs -/

/-- `isStringTagSupportedType`, compile.go:112-130. -/
def stringTagOk (W : World) (t : Ty) : Bool :=
  match W.unmOf t with
  | some _ => false
  | none => match W.resolve t with
    | .map _ _ | .slice _ | .array _ _ | .struct _ | .any | .iface _ => false
    | _ => true

/-- `structFieldSet`, struct.go:9-14: the decoder is given by the field type and the `,string` flag. -/
structure FieldSet where
  key : Bytes
  idx : Nat
  ty : Ty
  str : Bool

/-- The field loop of `compileStruct`, compile.go:271-306: one entry per field that is not ignored. -/
def fieldSets (W : World) : Nat → List Field → List FieldSet
  | _, [] => []
  | i, f :: fs =>
    if isIgnored f then fieldSets W (i + 1) fs
    else
      let tag := structTag W f
      { key := tag.key, idx := i, ty := f.ty, str := tag.isString && stringTagOk W f.ty } :: fieldSets W (i + 1) fs

/-- `decodeKey`, struct.go:33-47: a null key is looked up as the empty string (a nil slice). -/
def decodeKey (sets : List FieldSet) (buf : Bytes) (c : Nat) : Res (Option FieldSet × Nat) :=
  stringBytes buf c >>= fun (ob, c) =>
  .ok (sets.find? (fun s => decide (s.key = ob.getD [])), c)

/-- The entry loop of `structDecoder.Decode`, struct.go:105-146. -/
def structLoop (sets : List FieldSet) (dec : FieldSet → Nat → Val → DR) (skip : Nat → Res Nat) (buf : Bytes) :
    Nat → Nat → List Val → DR
  | 0, _, vs => (.struct vs, .diverge)
  | f + 1, c, vs =>
    if !hasByte buf c then (.struct vs, .err (.unexpectedEnd "object" c)) else
    onOk (.struct vs) (decodeKey sets buf c) fun (fld, c) =>
    if !hasByte buf c then (.struct vs, .err (.unexpectedEnd "object value" c)) else
    match (match fld with
      | some s => match vs[s.idx]? with
        | some v0 => match dec s c v0 with | (v, r) => (vs.set s.idx v, r)
        | none => (vs, .panic .reflectKind)
      | none => (vs, skip c)) with
    | (vs, r) =>
      onOk (.struct vs) r fun c =>
      if !hasByte buf c then (.struct vs, .err (.unexpectedEnd "object" c)) else
      onOk (.struct vs) (idx buf c) fun b =>
      if b = cRBrace then (.struct vs, .ok (c + 1)) else
      structLoop sets dec skip buf f c vs

/-- `structDecoder.Decode`, struct.go:49-147. -/
def structDecode (sets : List FieldSet) (dec : FieldSet → Nat → Nat → Val → DR) (buf : Bytes) (c depth : Nat) (rv : Val) : DR :=
  if !hasByte buf c then (rv, .err (.unexpectedEnd "object" c)) else
  let depth := depth + 1
  if depth > maxDepth then (rv, .err (.maxDepth (byteAt buf c) c)) else
  onOk rv (idx buf c) fun b =>
  if b = cN then onOk rv (validateNull buf c) fun _ => (rv, .ok (c + 2))
  else
    onOk rv (if b = cO then skipClassName buf c >>= fun e => .ok (e + 1)
      else if b = ca then .ok (c + 1)
      else .err (.beginValue b c)) fun c =>
    if !hasByte buf c then (rv, .err (.unexpectedEnd "object length" c)) else
    onOk rv (idx buf c) fun b =>
    if b ≠ cColon then (rv, .err (.beginValue b c)) else
    onOk rv (skipLengthWithBothColon buf c) fun c =>
    if !hasByte buf c then (rv, .err (.unexpectedEnd "object" c)) else
    onOk rv (idx buf c) fun b =>
    if b ≠ cLBrace then (rv, .err (.beginArray b c)) else
    let c := c + 1
    if !hasByte buf c then (rv, .err (.unexpectedEnd "object" c)) else
    onOk rv (idx buf c) fun b =>
    if b = cRBrace then (rv, .ok (c + 1)) else
    match rv with
    | .struct vs =>
      structLoop sets (fun s c v => dec s c depth v) (fun c => skipValue buf c depth) buf (buf.length + 1) c vs
    | _ => (rv, .panic .reflectKind)

/-! ### Dispatch -/

/-- `invalidDecoder.Decode`, invalid.go:25-33. -/
def invalidDecode (c : Nat) (rv : Val) : DR := (rv, .err (.typeError "object" c))

/-- A scalar or interface decoder applied to a map key of pointer kind (compileMapKey, compile.go:144-155, strips
`ptrDecoder` without stripping the pointer from the key type): null leaves a nil pointer, any other successfully read
value makes reflect panic. `scratch` is the run of the inner decoder on a value of the right kind. -/
def ptrKeyDecode (scratch : DR) (buf : Bytes) (c : Nat) : DR :=
  onOk .ptrNil (idx buf c) fun b =>
  if b = cN then onOk .ptrNil (validateNull buf c) fun _ => (.ptrNil, .ok (c + 2))
  else onOk .ptrNil scratch.2 fun _ => (.ptrNil, .panic .reflectKind)

/-- Key decoders chosen by `compileMapKey`, compile.go:132-156, applied to a fresh zero key (map.go:91-92).
`anyDec` decodes into a fresh `any`. -/
def keyDecode (W : World) (anyDec : Nat → Nat → DR) (buf : Bytes) (k : Ty) (c depth : Nat) : DR :=
  match W.unmOf k with
  | some id => unmarshalDecode W id buf c depth (W.zero k)
  | none => match W.resolve k with
    | .str => stringDecode buf c (W.zero k)
    | .bool => boolDecode buf c (W.zero k)
    | .int kd => intDecode kd buf c (W.zero k)
    | .uint kd => uintDecode kd buf c (W.zero k)
    | .any => anyDecode W anyDec buf c depth (W.zero k)
    | .iface _ => ifaceDecode W buf c depth (W.zero k)
    | .ptr e => match W.unmOf e with
      | some _ => invalidDecode c (W.zero k)
      | none => match W.resolve e with
        | .str => ptrKeyDecode (stringDecode buf c (.str [])) buf c
        | .bool => ptrKeyDecode (boolDecode buf c (.bool false)) buf c
        | .int _ => ptrKeyDecode (intDecode .i64 buf c (.int 0)) buf c
        | .uint _ => ptrKeyDecode (uintDecode .u64 buf c (.uint 0)) buf c
        | .any | .iface _ => ptrKeyDecode (anyDecode W anyDec buf c depth .ifaceNil) buf c
        | _ => invalidDecode c (W.zero k)
    | _ => invalidDecode c (W.zero k)

/-- The types whose decoder `newWrappedStringDecoder` can wrap directly, wrapped_string.go:25-34: the decoder is a
bool, float, uint or int decoder. -/
def wrappable (W : World) (t : Ty) : Bool :=
  match W.unmOf t with
  | some _ => false
  | none => match W.resolve t with
    | .bool | .int _ | .uint _ | .f32 | .f64 => true
    | _ => false

/-- The decoder of a struct field: the decoder of its type, or the wrapped one when the `,string` option applies
(compile.go:290-295, wrapped_string.go:23-49; for a pointer field the pointer decoder is kept and its inner decoder is
wrapped). -/
def fieldDecode (W : World) (rec : Ty → Nat → Nat → Val → DR) (buf : Bytes) (s : FieldSet) (c depth : Nat) (rv : Val) : DR :=
  if s.str then
    match W.resolve s.ty with
    | .ptr e =>
      if wrappable W e then ptrDecode (fun c _ v => wrappedDecode W e buf c v) (W.zero e) buf c depth rv
      else (rv, .err (.unsupported "string option"))   -- rejected when the type is compiled
    | _ =>
      if wrappable W s.ty then wrappedDecode W s.ty buf c rv
      else (rv, .err (.unsupported "string option"))   -- rejected when the type is compiled
  else rec s.ty c depth rv

/-- The decoder chosen by `compile`, compile.go:55-110, for a type that is not a pointer. -/
def decodeNonPtr (W : World) (rec : Ty → Nat → Nat → Val → DR) (buf : Bytes) (t : Ty) (c depth : Nat) (rv : Val) : DR :=
  match W.unmOf t with
  | some id => unmarshalDecode W id buf c depth rv
  | none => match W.resolve t with
    | .bool => boolDecode buf c rv
    | .int k => intDecode k buf c rv
    | .uint k => uintDecode k buf c rv
    | .f32 => floatDecode W true buf c rv
    | .f64 => floatDecode W false buf c rv
    | .str => stringDecode buf c rv
    | .slice e =>
      if W.isByte e then bytesDecode (rec e) (W.zero e) buf c depth rv
      else sliceDecode (rec e) (W.zero e) (W.elemSize e) buf c depth rv
    | .array n e => arrayDecode (rec e) (W.zero e) n buf c depth rv
    | .map k v =>
      mapDecode (keyDecode W (fun c d => rec .any c d .ifaceNil) buf k) (fun c d => rec v c d (W.zero v)) buf c depth rv
    | .struct id => structDecode (fieldSets W 0 (W.fields id)) (fieldDecode W rec buf) buf c depth rv
    | .any => anyDecode W (fun c d => rec .any c d .ifaceNil) buf c depth rv
    | .iface _ => ifaceDecode W buf c depth rv
    | .other => invalidDecode c rv
    | .ptr _ => (rv, .err (.unsupported "pointer to pointer"))   -- rejected by newPtrDecoder, ptr.go:17-21
    | .named _ => (rv, .err (.unsupported "declared type"))      -- excluded by `World.NamedOk`

/-- `Decoder.Decode` of the decoder that `compile` (compile.go:55-110) builds for type `t`; fuel bounds the nesting of
calls. -/
def decodeF (W : World) (buf : Bytes) : Nat → Ty → Nat → Nat → Val → DR
  | 0, _, _, _, rv => (rv, .diverge)
  | f + 1, t, c, depth, rv =>
    match W.unmOf t, W.resolve t with
    | none, .ptr e =>
      if W.isPtr e then (rv, .err (.unsupported "pointer to pointer"))   -- rejected by newPtrDecoder, ptr.go:17-21
      else ptrDecode (decodeNonPtr W (decodeF W buf f) buf e) (W.zero e) buf c depth rv
    | _, _ => decodeNonPtr W (decodeF W buf f) buf t c depth rv

end Verif

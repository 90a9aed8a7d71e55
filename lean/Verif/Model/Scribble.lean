import Verif.Model.Alias
/-
The decoder when `UnmarshalPHP` methods write to the bytes they are passed. The argument is a part of the buffer that is being decoded, and its capacity reaches to
the end of it (unmarshal_php.go:52, interface.go:110). So the buffer is a variable here, and every function returns what is in it afterwards. In Model/Decode.lean
and Model/Alias.lean it is a constant. Byte slices that were decoded are parts of the buffer, as in Model/Alias.lean. `unquoteBytes` never makes a new argument in
practice (values do not begin with a quote), so what is written goes to the buffer. What a method does depends on its argument, not on the bytes between its length
and its capacity; what it writes may depend on them. Methods may store parts of their argument as in
Model/Alias.lean.
-/
namespace Verif

/-- What a decoder leaves behind: the buffer, the destination and the outcome. -/
abbrev SR := Bytes × DR

/-- What `UnmarshalPHP` methods write: the bytes put at the place of the argument and behind it. Arguments: the declared type (or the dynamic type and value in an
interface), the argument, and the bytes between its length and its capacity. -/
structure Hands where
  unm : Nat → Bytes → Bytes → Bytes
  dyn : Ty → Val → Bytes → Bytes → Bytes

/-- `bs` is written to `b` from `c` on, as far as `b` goes. -/
def poke (b : Bytes) (c : Nat) (bs : Bytes) : Bytes := b.take c ++ bs.take (b.length - c) ++ b.drop (c + bs.length)

/-- `onOk`, with the buffer. -/
def onOkS {α : Type} (b : Bytes) (rv : Val) (r : Res α) (k : α → SR) : SR :=
  match r with
  | .ok a => k a
  | .err e => (b, rv, .err e)
  | .panic p => (b, rv, .panic p)
  | .diverge => (b, rv, .diverge)

/-! ### Methods -/

/-- `unmarshalPHPDecoder.Decode`, unmarshal_php.go:45-95, for declared type `id`; `keep` says how what it stores lies in memory (`World.kept`). -/
def unmarshalDecodeS (W : World) (S : Hands) (id : Nat) (keep : Nat → Bytes → Val → Val) (b : Bytes) (c depth : Nat) (rv : Val) : SR :=
  onOkS b rv (skipValue b c depth) fun e =>
  onOkS b rv (sub b c e) fun src =>
  if src.head? = some 91 then (b, rv, .err (.typeError "array" c)) else
  if src.head? = some cLBrace then (b, rv, .err (.typeError "object" c)) else
  if src.head? = some cMinus ∨ (src.head?.any isDigit) = true then (b, rv, .err (.typeError "number" c)) else
  if src = [cN, cSemi] then (b, W.namedZero id, .ok e) else
  onOkS b rv (unquoteBytes src) fun o =>
  let src := o.getD src
  let b := poke b c (S.unm id src (b.drop e))
  onOkS b rv ((W.unmarshal id src).mapErr (annotate c)) fun v => (b, keep c src v, .ok e)

/-- `decodePHPUnmarshaler`, interface.go:104-122, for an interface holding value `v` of dynamic type `t`. -/
def dynDecodeS (W : World) (S : Hands) (t : Ty) (v : Val) (b : Bytes) (c depth : Nat) (rv : Val) : SR :=
  onOkS b rv (skipValue b c depth) fun e =>
  onOkS b rv (sub b c e) fun src =>
  if src = [cN, cSemi] then (b, .ifaceNil, .ok e) else
  onOkS b rv (unquoteBytes src) fun o =>
  let src := o.getD src
  let b := poke b c (S.dyn t v src (b.drop e))
  match W.unmarshalDyn t v src with
  | (v', r) => onOkS b (.iface t v') r fun _ => (b, .iface t v', .ok e)

/-- `interfaceDecoder.Decode` for an interface type with methods, interface.go:136-148. -/
def ifaceDecodeS (W : World) (S : Hands) (b : Bytes) (c depth : Nat) (rv : Val) : SR :=
  match (match rv with | .iface t v => if W.dynUnm t then some (t, v) else none | _ => none) with
  | some (t, v) => dynDecodeS W S t v b c depth rv
  | none =>
    onOkS b rv (idx b c) fun x =>
    if x = cN then onOkS b rv (validateNull b c) fun _ => (b, .ifaceNil, .ok (c + 2))
    else (b, rv, .err (.typeError "interface" c))

/-! ### Pointers and containers -/

/-- `ptrDecoder.Decode`, ptr.go:30-53. -/
def ptrDecodeS (inner : Bytes → Nat → Nat → Val → SR) (zeroE : Val) (b : Bytes) (c depth : Nat) (rv : Val) : SR :=
  onOkS b rv (idx b c) fun x =>
  if x = cN then onOkS b rv (validateNull b c) fun _ => (b, .ptrNil, .ok (c + 2))
  else
    match rv with
    | .ptrNil => match inner b c depth zeroE with | (b, v, r) => (b, .ptr v, r)
    | .ptr v0 => match inner b c depth v0 with | (b, v, r) => (b, .ptr v, r)
    | _ => (b, rv, .panic .reflectKind)

/-- The element loop of `sliceDecoder.Decode`, slice.go:109-142. -/
def sliceLoopS (dec : Bytes → Nat → Val → SR) (zeroE : Val) (esize : Nat) : Nat → Bytes → Nat → List Val → Val → SR
  | 0, b, _, _, rv => (b, rv, .diverge)
  | f + 1, b, c, slice, rv =>
    if !hasByte b c then (b, rv, .err (.unexpectedEnd "array" c)) else
    onOkS b rv (readInt b c) fun (i, c) =>
    if !hasByte b c then (b, rv, .err (.unexpectedEnd "array value" c)) else
    let grow := decide (i ≥ slice.length)
    if grow && !makeSliceOk esize (wrap64 (i + 1)) then (b, rv, .panic .makeSlice) else
    let slice := if grow then slice ++ List.replicate (i + 1 - slice.length) zeroE else slice
    match slice[i]? with
    | none => (b, rv, .panic .index)
    | some v0 =>
      match dec b c v0 with
      | (b, v, r) =>
        let slice' := slice.set i v
        onOkS b (if grow then rv else .slice slice') r fun c =>
        let rv := .slice slice'
        if !hasByte b c then (b, rv, .err (.unexpectedEnd "array" c)) else
        onOkS b rv (idx b c) fun x =>
        if x = cRBrace then (b, rv, .ok (c + 1)) else
        sliceLoopS dec zeroE esize f b c slice' rv

/-- `sliceDecoder.Decode`, slice.go:51-148. -/
def sliceDecodeS (dec : Bytes → Nat → Nat → Val → SR) (zeroE : Val) (esize : Nat) (b : Bytes) (c depth : Nat) (rv : Val) : SR :=
  if !hasByte b c then (b, rv, .err (.unexpectedEnd "slice" c)) else
  let depth := depth + 1
  if depth > maxDepth then (b, rv, .err (.maxDepth (byteAt b c) c)) else
  onOkS b rv (idx b c) fun x =>
  if x = cN then onOkS b rv (validateNull b c) fun _ => (b, .sliceNil, .ok (c + 2))
  else if x = ca then
    let c := c + 1
    if !hasByte b c then (b, rv, .err (.unexpectedEnd "array length" c)) else
    onOkS b rv (idx b c) fun x =>
    if x ≠ cColon then (b, rv, .err (.unexpected "':' before array length" c x)) else
    let c := c + 1
    if !hasByte b c then (b, rv, .err (.unexpectedEnd "array length" c)) else
    onOkS b rv (idx b c) fun x =>
    if x = c0 then onOkS b rv (validateEmptyArray b c) fun _ => (b, .sliceNil, .ok (c + 4))
    else
      onOkS b rv (readLengthInt b (c - 1)) fun (arrLen, c) =>
      if !hasByte b c then (b, rv, .err (.unexpectedEnd "array" c)) else
      onOkS b rv (idx b c) fun x =>
      if x ≠ cLBrace then (b, rv, .err (.beginArray x c)) else
      if !makeSliceOk esize arrLen then (b, rv, .panic .makeSlice) else
      sliceLoopS (fun b c v => dec b c depth v) zeroE esize (b.length + 1) b (c + 1) [] rv
  else if x = cMinus ∨ isDigit x then (b, rv, .err (.typeError "number" c))
  else (b, rv, .err (.unexpectedEnd "slice" c))

/-- `bytesDecoder.Decode` and `decodeBinary`, bytes.go:38-67; `obj` is the number of the buffer. -/
def bytesDecodeS (obj : Nat) (dec : Bytes → Nat → Nat → Val → SR) (zeroE : Val) (b : Bytes) (c depth : Nat) (rv : Val) : SR :=
  onOkS b rv (idx b c) fun x =>
  if x = ca then sliceDecodeS dec zeroE 1 b c depth rv
  else
    onOkS b rv (stringBytes b c) fun (ob, c) =>
    match ob with
    | none => (b, rv, .ok c)
    | some s => (b, .win obj (c - 2 - s.length) s.length, .ok c)

/-- The element loop of `arrayDecoder.Decode`, array.go:82-123. -/
def arrayLoopS (dec : Bytes → Nat → Val → SR) (skip : Bytes → Nat → Res Nat) : Nat → Bytes → Nat → List Val → SR
  | 0, b, _, vs => (b, .arr vs, .diverge)
  | f + 1, b, c, vs =>
    if !hasByte b c then (b, .arr vs, .err (.unexpectedEnd "array" c)) else
    onOkS b (.arr vs) (readInt b c) fun (i, c) =>
    if !hasByte b c then (b, .arr vs, .err (.unexpectedEnd "array value" c)) else
    match (match vs[i]? with
      | some v0 => match dec b c v0 with | (b, v, r) => (b, vs.set i v, r)
      | none => (b, vs, skip b c)) with
    | (b, vs, r) =>
      onOkS b (.arr vs) r fun c =>
      if !hasByte b c then (b, .arr vs, .err (.unexpectedEnd "array" c)) else
      onOkS b (.arr vs) (idx b c) fun x =>
      if x = cRBrace then (b, .arr vs, .ok (c + 1)) else
      arrayLoopS dec skip f b c vs

/-- `arrayDecoder.Decode`, array.go:32-127; `n` is the array length. -/
def arrayDecodeS (dec : Bytes → Nat → Nat → Val → SR) (zeroE : Val) (n : Nat) (b : Bytes) (c depth : Nat) (rv : Val) : SR :=
  if !hasByte b c then (b, rv, .err (.unexpectedEnd "array" c)) else
  let depth := depth + 1
  if depth > maxDepth then (b, rv, .err (.maxDepth (byteAt b c) c)) else
  onOkS b rv (idx b c) fun x =>
  if x = cN then onOkS b rv (validateNull b c) fun _ => (b, rv, .ok (c + 2))
  else if x = ca then
    let c := c + 1
    if !hasByte b c then (b, rv, .err (.unexpectedEnd "array length" c)) else
    onOkS b rv (idx b c) fun x =>
    if x ≠ cColon then (b, rv, .err (.unexpected "':' before array length" c x)) else
    let zeros := List.replicate n zeroE
    let rv := .arr zeros
    let c := c + 1
    if !hasByte b c then (b, rv, .err (.unexpectedEnd "array length" c)) else
    onOkS b rv (idx b c) fun x =>
    if x = c0 then onOkS b rv (validateEmptyArray b c) fun _ => (b, rv, .ok (c + 4))
    else
      onOkS b rv (readLengthInt b (c - 1)) fun (_, c) =>
      if !hasByte b c then (b, rv, .err (.unexpectedEnd "array" c)) else
      onOkS b rv (idx b c) fun x =>
      if x ≠ cLBrace then (b, rv, .err (.beginArray x c)) else
      arrayLoopS (fun b c v => dec b c depth v) (fun b c => skipValue b c depth) (b.length + 1) b (c + 1) zeros
  else (b, rv, .err (.unexpectedEnd "array" c))

/-- The entry loop of `mapDecoder.Decode`, map.go:87-118. -/
def mapLoopS (keyDec valDec : Bytes → Nat → SR) : Nat → Bytes → Nat → List (Val × Val) → SR
  | 0, b, _, es => (b, .map es, .diverge)
  | f + 1, b, c, es =>
    if !hasByte b c then (b, .map es, .err (.unexpectedEnd "map" c)) else
    match keyDec b c with
    | (b, k, r) =>
      onOkS b (.map es) r fun c =>
      if !hasByte b c then (b, .map es, .err (.unexpectedEnd "map value" c)) else
      match valDec b c with
      | (b, v, r) =>
        onOkS b (.map es) r fun c =>
        if !k.hashable then (b, .map es, .panic .unhashable) else
        let es := mapInsert k v es
        if !hasByte b c then (b, .map es, .err (.unexpectedEnd "map" c)) else
        onOkS b (.map es) (idx b c) fun x =>
        if x = cRBrace then (b, .map es, .ok (c + 1)) else
        mapLoopS keyDec valDec f b c es

/-- `mapDecoder.Decode`, map.go:31-119. -/
def mapDecodeS (keyDec valDec : Bytes → Nat → Nat → SR) (b : Bytes) (c depth : Nat) (rv : Val) : SR :=
  if !hasByte b c then (b, rv, .err (.unexpectedEnd "map" c)) else
  let depth := depth + 1
  if depth > maxDepth then (b, rv, .err (.maxDepth (byteAt b c) c)) else
  onOkS b rv (idx b c) fun x =>
  if x = cN then onOkS b rv (validateNull b c) fun _ => (b, .mapNil, .ok (c + 2))
  else
    onOkS b rv (if x = cO then skipClassName b c >>= fun e => .ok (e + 1)
      else if x = ca then .ok (c + 1)
      else .err (.unexpectedStart "map" c x)) fun c =>
    onOkS b rv (readLength b c) fun (_, c) =>
    if !hasByte b c then (b, rv, .err (.unexpectedEnd "map" c)) else
    onOkS b rv (idx b c) fun x =>
    if x ≠ cLBrace then (b, rv, .err (.unexpected "{ character for map value" c x)) else
    match mapEntries rv with
    | none => (b, rv, .panic .reflectKind)
    | some es =>
      let c := c + 1
      if !hasByte b c then (b, .map es, .err (.unexpectedEnd "map" c)) else
      onOkS b (.map es) (idx b c) fun x =>
      if x = cRBrace then (b, .map es, .ok (c + 1)) else
      mapLoopS (fun b c => keyDec b c depth) (fun b c => valDec b c depth) (b.length + 1) b c es

/-- `interfaceDecoder.decodeEmptyInterface`, interface.go:173-240. -/
def anyDecodeS (W : World) (anyDec : Bytes → Nat → Nat → SR) (b : Bytes) (c depth : Nat) (rv : Val) : SR :=
  onOkS b rv (idx b c) fun x =>
  if x = cO then
    match mapDecodeS (fun b c _ => (b, stringDecode b c (.str []))) anyDec b c depth .mapNil with
    | (b, v, r) => onOkS b rv r fun c => (b, .iface (.map .str .any) v, .ok c)
  else if x = ca then
    match mapDecodeS (fun b c _ => (b, anyKeyDecode b c)) anyDec b c depth .mapNil with
    | (b, v, r) => onOkS b rv r fun c => (b, .iface (.map .any .any) v, .ok c)
  else if x = cd then
    match floatDecode W false b c (.f64 0) with
    | (v, r) => onOkS b rv r fun c => (b, .iface .f64 v, .ok c)
  else if x = cs then
    onOkS b rv (readString b (c + 1)) fun (s, e) => (b, .iface .str (.str s), .ok e)
  else if x = ci then
    match intDecode .i64 b c (.int 0) with
    | (v, r) => onOkS b rv r fun c => (b, .iface (.int .i64) v, .ok c)
  else if x = cb then
    onOkS b rv (readBool b c) fun v => (b, .iface .bool (.bool v), .ok (c + 4))
  else if x = cN then
    onOkS b rv (validateNull b c) fun _ => (b, .ifaceNil, .ok (c + 2))
  else (b, rv, .err (.beginValue x c))

/-- The entry loop of `structDecoder.Decode`, struct.go:105-146. -/
def structLoopS (sets : List FieldSet) (dec : FieldSet → Bytes → Nat → Val → SR) (skip : Bytes → Nat → Res Nat) : Nat → Bytes → Nat → List Val → SR
  | 0, b, _, vs => (b, .struct vs, .diverge)
  | f + 1, b, c, vs =>
    if !hasByte b c then (b, .struct vs, .err (.unexpectedEnd "object" c)) else
    onOkS b (.struct vs) (decodeKey sets b c) fun (fld, c) =>
    if !hasByte b c then (b, .struct vs, .err (.unexpectedEnd "object value" c)) else
    match (match fld with
      | some s => match vs[s.idx]? with
        | some v0 => match dec s b c v0 with | (b, v, r) => (b, vs.set s.idx v, r)
        | none => (b, vs, .panic .reflectKind)
      | none => (b, vs, skip b c)) with
    | (b, vs, r) =>
      onOkS b (.struct vs) r fun c =>
      if !hasByte b c then (b, .struct vs, .err (.unexpectedEnd "object" c)) else
      onOkS b (.struct vs) (idx b c) fun x =>
      if x = cRBrace then (b, .struct vs, .ok (c + 1)) else
      structLoopS sets dec skip f b c vs

/-- `structDecoder.Decode`, struct.go:49-147. -/
def structDecodeS (sets : List FieldSet) (dec : FieldSet → Bytes → Nat → Nat → Val → SR) (b : Bytes) (c depth : Nat) (rv : Val) : SR :=
  if !hasByte b c then (b, rv, .err (.unexpectedEnd "object" c)) else
  let depth := depth + 1
  if depth > maxDepth then (b, rv, .err (.maxDepth (byteAt b c) c)) else
  onOkS b rv (idx b c) fun x =>
  if x = cN then onOkS b rv (validateNull b c) fun _ => (b, rv, .ok (c + 2))
  else
    onOkS b rv (if x = cO then skipClassName b c >>= fun e => .ok (e + 1)
      else if x = ca then .ok (c + 1)
      else .err (.beginValue x c)) fun c =>
    if !hasByte b c then (b, rv, .err (.unexpectedEnd "object length" c)) else
    onOkS b rv (idx b c) fun x =>
    if x ≠ cColon then (b, rv, .err (.beginValue x c)) else
    onOkS b rv (skipLengthWithBothColon b c) fun c =>
    if !hasByte b c then (b, rv, .err (.unexpectedEnd "object" c)) else
    onOkS b rv (idx b c) fun x =>
    if x ≠ cLBrace then (b, rv, .err (.beginArray x c)) else
    let c := c + 1
    if !hasByte b c then (b, rv, .err (.unexpectedEnd "object" c)) else
    onOkS b rv (idx b c) fun x =>
    if x = cRBrace then (b, rv, .ok (c + 1)) else
    match rv with
    | .struct vs => structLoopS sets (fun s b c v => dec s b c depth v) (fun b c => skipValue b c depth) (b.length + 1) b c vs
    | _ => (b, rv, .panic .reflectKind)

/-! ### Dispatch -/

/-- A decoder without its pointer, applied to a map key of pointer kind, see `ptrKeyDecode` (compile.go:144-155). -/
def ptrKeyDecodeS (scratch : SR) (b : Bytes) (c : Nat) : SR :=
  onOkS b .ptrNil (idx b c) fun x =>
  if x = cN then onOkS b .ptrNil (validateNull b c) fun _ => (b, .ptrNil, .ok (c + 2))
  else onOkS scratch.1 .ptrNil scratch.2.2 fun _ => (scratch.1, .ptrNil, .panic .reflectKind)

/-- Key decoders chosen by `compileMapKey`, compile.go:132-156, applied to a fresh zero key (map.go:91-92). -/
def keyDecodeS (W : World) (S : Hands) (anyDec : Bytes → Nat → Nat → SR) (k : Ty) (b : Bytes) (c depth : Nat) : SR :=
  match W.unmOf k with
  | some id => unmarshalDecodeS W S id (fun _ _ v => v) b c depth (W.zero k)
  | none => match W.resolve k with
    | .str => (b, stringDecode b c (W.zero k))
    | .bool => (b, boolDecode b c (W.zero k))
    | .int kd => (b, intDecode kd b c (W.zero k))
    | .uint kd => (b, uintDecode kd b c (W.zero k))
    | .any => anyDecodeS W anyDec b c depth (W.zero k)
    | .iface _ => ifaceDecodeS W S b c depth (W.zero k)
    | .ptr e => match W.unmOf e with
      | some _ => (b, invalidDecode c (W.zero k))
      | none => match W.resolve e with
        | .str => ptrKeyDecodeS (b, stringDecode b c (.str [])) b c
        | .bool => ptrKeyDecodeS (b, boolDecode b c (.bool false)) b c
        | .int _ => ptrKeyDecodeS (b, intDecode .i64 b c (.int 0)) b c
        | .uint _ => ptrKeyDecodeS (b, uintDecode .u64 b c (.uint 0)) b c
        | .any | .iface _ => ptrKeyDecodeS (anyDecodeS W anyDec b c depth .ifaceNil) b c
        | _ => (b, invalidDecode c (W.zero k))
    | _ => (b, invalidDecode c (W.zero k))

/-- The decoder of a struct field, compile.go:290-295 and wrapped_string.go:23-49. -/
def fieldDecodeS (W : World) (rec : Ty → Bytes → Nat → Nat → Val → SR) (s : FieldSet) (b : Bytes) (c depth : Nat) (rv : Val) : SR :=
  if s.str then
    match W.resolve s.ty with
    | .ptr e =>
      if wrappable W e then ptrDecodeS (fun b c _ v => (b, wrappedDecode W e b c v)) (W.zero e) b c depth rv
      else (b, rv, .err (.unsupported "string option"))   -- rejected when the type is compiled
    | _ =>
      if wrappable W s.ty then (b, wrappedDecode W s.ty b c rv)
      else (b, rv, .err (.unsupported "string option"))   -- rejected when the type is compiled
  else rec s.ty b c depth rv

/-- The decoder chosen by `compile`, compile.go:55-110, for a type that is not a pointer. -/
def decodeNonPtrS (W : World) (S : Hands) (obj : Nat) (rec : Ty → Bytes → Nat → Nat → Val → SR) (t : Ty) (b : Bytes) (c depth : Nat) (rv : Val) : SR :=
  match W.unmOf t with
  | some id => unmarshalDecodeS W S id (W.kept id obj) b c depth rv
  | none => match W.resolve t with
    | .bool => (b, boolDecode b c rv)
    | .int k => (b, intDecode k b c rv)
    | .uint k => (b, uintDecode k b c rv)
    | .f32 => (b, floatDecode W true b c rv)
    | .f64 => (b, floatDecode W false b c rv)
    | .str => (b, stringDecode b c rv)
    | .slice e =>
      if W.isByte e then bytesDecodeS obj (rec e) (W.zero e) b c depth rv
      else sliceDecodeS (rec e) (W.zero e) (W.elemSize e) b c depth rv
    | .array n e => arrayDecodeS (rec e) (W.zero e) n b c depth rv
    | .map k v =>
      mapDecodeS (keyDecodeS W S (fun b c d => rec .any b c d .ifaceNil) k) (fun b c d => rec v b c d (W.zero v)) b c depth rv
    | .struct id => structDecodeS (fieldSets W 0 (W.fields id)) (fieldDecodeS W rec) b c depth rv
    | .any => anyDecodeS W (fun b c d => rec .any b c d .ifaceNil) b c depth rv
    | .iface _ => ifaceDecodeS W S b c depth rv
    | .other => (b, invalidDecode c rv)
    | .ptr _ => (b, rv, .err (.unsupported "pointer to pointer"))   -- rejected by newPtrDecoder, ptr.go:17-21
    | .named _ => (b, rv, .err (.unsupported "declared type"))      -- excluded by `World.NamedOk`

/-- `Decoder.Decode` of the decoder that `compile` (compile.go:55-110) builds for type `t`; fuel bounds the nesting of calls. -/
def decodeS (W : World) (S : Hands) (obj : Nat) : Nat → Ty → Bytes → Nat → Nat → Val → SR
  | 0, _, b, _, _, rv => (b, rv, .diverge)
  | f + 1, t, b, c, depth, rv =>
    match W.unmOf t, W.resolve t with
    | none, .ptr e =>
      if W.isPtr e then (b, rv, .err (.unsupported "pointer to pointer"))   -- rejected by newPtrDecoder, ptr.go:17-21
      else ptrDecodeS (decodeNonPtrS W S obj (decodeS W S obj f) e) (W.zero e) b c depth rv
    | _, _ => decodeNonPtrS W S obj (decodeS W S obj f) t b c depth rv

/-- `unmarshal` for a non-nil pointer, unmarshal.go:37-51, like `unmarshalAt`: the byte arrays afterwards, the variable, and the outcome. `validateEndBuf` (line 51)
looks at the buffer as it is then. -/
def unmarshalS (W : World) (S : Hands) (fuel : Nat) (m : Arrays) (inp off n : Nat) (t : Ty) (v : Val) : Arrays × Val × Res Unit :=
  let src := m.read inp off n
  match compileD W fuel [] t with
  | .ok _ => match decodeS W S m.length (src.length + 1) t src 0 0 v with
    | (b, v', r) => (m ++ [b], onOk v' r fun c => (v', validateEndBuf b c))
  | .err e => (m ++ [src], v, .err e)
  | .panic p => (m ++ [src], v, .panic p)
  | .diverge => (m ++ [src], v, .diverge)

end Verif

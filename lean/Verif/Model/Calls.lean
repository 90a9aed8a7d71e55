import Verif.Model.Unmarshal
/-
The decoder with the calls of `UnmarshalPHP` methods that it makes. In Model/Decode.lean a method is a function of its argument. Here it may keep state: what it does
may depend on every call that was made before, in this decoding or an earlier one. Every function takes the calls made so far and returns them with its own added.
Methods do not call the library themselves and do not write to their argument (Model/Scribble.lean has methods that do the latter).
-/
namespace Verif

/-- A call of an `UnmarshalPHP` method by the decoder: on a value of declared type `id` (unmarshal_php.go:87), or on a value `v` of dynamic type `t` that an interface
holds (interface.go:118); `arg` is the argument. -/
inductive MethodCall where
  | own (id : Nat) (arg : Bytes)
  | held (t : Ty) (v : Val) (arg : Bytes)

/-- Calls, the earliest first. -/
abbrev Calls := List MethodCall

/-- What a decoder leaves behind: the calls made, the destination and the outcome. -/
abbrev HR := Calls × DR

/-- `UnmarshalPHP` methods that keep state: what they do may depend on the earlier calls. For the rest as `World.unmarshal` and `World.unmarshalDyn`. -/
structure Hooks where
  unm : Calls → Nat → Bytes → Res Val
  dyn : Calls → Ty → Val → Bytes → Val × Res Unit

/-- `onOk`, with the calls. -/
def onOkH {α : Type} (h : Calls) (rv : Val) (r : Res α) (k : α → HR) : HR :=
  match r with
  | .ok a => k a
  | .err e => (h, rv, .err e)
  | .panic p => (h, rv, .panic p)
  | .diverge => (h, rv, .diverge)

/-! ### Methods -/

/-- `unmarshalPHPDecoder.Decode`, unmarshal_php.go:45-95, for declared type `id`. -/
def unmarshalDecodeH (W : World) (M : Hooks) (id : Nat) (b : Bytes) (h : Calls) (c depth : Nat) (rv : Val) : HR :=
  onOkH h rv (skipValue b c depth) fun e =>
  onOkH h rv (sub b c e) fun src =>
  if src.head? = some 91 then (h, rv, .err (.typeError "array" c)) else
  if src.head? = some cLBrace then (h, rv, .err (.typeError "object" c)) else
  if src.head? = some cMinus ∨ (src.head?.any isDigit) = true then (h, rv, .err (.typeError "number" c)) else
  if src = [cN, cSemi] then (h, W.namedZero id, .ok e) else
  onOkH h rv (unquoteBytes src) fun o =>
  let src := o.getD src
  onOkH (h ++ [.own id src]) rv ((M.unm h id src).mapErr (annotate c)) fun v => (h ++ [.own id src], v, .ok e)

/-- `decodePHPUnmarshaler`, interface.go:104-122, for an interface holding value `v` of dynamic type `t`. -/
def dynDecodeH (M : Hooks) (t : Ty) (v : Val) (b : Bytes) (h : Calls) (c depth : Nat) (rv : Val) : HR :=
  onOkH h rv (skipValue b c depth) fun e =>
  onOkH h rv (sub b c e) fun src =>
  if src = [cN, cSemi] then (h, .ifaceNil, .ok e) else
  onOkH h rv (unquoteBytes src) fun o =>
  let src := o.getD src
  match M.dyn h t v src with
  | (v', r) => onOkH (h ++ [.held t v src]) (.iface t v') r fun _ => (h ++ [.held t v src], .iface t v', .ok e)

/-- `interfaceDecoder.Decode` for an interface type with methods, interface.go:136-148. -/
def ifaceDecodeH (W : World) (M : Hooks) (b : Bytes) (h : Calls) (c depth : Nat) (rv : Val) : HR :=
  match (match rv with | .iface t v => if W.dynUnm t then some (t, v) else none | _ => none) with
  | some (t, v) => dynDecodeH M t v b h c depth rv
  | none =>
    onOkH h rv (idx b c) fun x =>
    if x = cN then onOkH h rv (validateNull b c) fun _ => (h, .ifaceNil, .ok (c + 2))
    else (h, rv, .err (.typeError "interface" c))

/-! ### Pointers and containers -/

/-- `ptrDecoder.Decode`, ptr.go:30-53. -/
def ptrDecodeH (inner : Calls → Nat → Nat → Val → HR) (zeroE : Val) (b : Bytes) (h : Calls) (c depth : Nat) (rv : Val) : HR :=
  onOkH h rv (idx b c) fun x =>
  if x = cN then onOkH h rv (validateNull b c) fun _ => (h, .ptrNil, .ok (c + 2))
  else
    match rv with
    | .ptrNil => match inner h c depth zeroE with | (h, v, r) => (h, .ptr v, r)
    | .ptr v0 => match inner h c depth v0 with | (h, v, r) => (h, .ptr v, r)
    | _ => (h, rv, .panic .reflectKind)

/-- The element loop of `sliceDecoder.Decode`, slice.go:109-142. -/
def sliceLoopH (dec : Calls → Nat → Val → HR) (zeroE : Val) (esize : Nat) (b : Bytes) : Nat → Calls → Nat → List Val → Val → HR
  | 0, h, _, _, rv => (h, rv, .diverge)
  | f + 1, h, c, slice, rv =>
    if !hasByte b c then (h, rv, .err (.unexpectedEnd "array" c)) else
    onOkH h rv (readInt b c) fun (i, c) =>
    if !hasByte b c then (h, rv, .err (.unexpectedEnd "array value" c)) else
    let grow := decide (i ≥ slice.length)
    if grow && !makeSliceOk esize (wrap64 (i + 1)) then (h, rv, .panic .makeSlice) else
    let slice := if grow then slice ++ List.replicate (i + 1 - slice.length) zeroE else slice
    match slice[i]? with
    | none => (h, rv, .panic .index)
    | some v0 =>
      match dec h c v0 with
      | (h, v, r) =>
        let slice' := slice.set i v
        onOkH h (if grow then rv else .slice slice') r fun c =>
        let rv := .slice slice'
        if !hasByte b c then (h, rv, .err (.unexpectedEnd "array" c)) else
        onOkH h rv (idx b c) fun x =>
        if x = cRBrace then (h, rv, .ok (c + 1)) else
        sliceLoopH dec zeroE esize b f h c slice' rv

/-- `sliceDecoder.Decode`, slice.go:51-148. -/
def sliceDecodeH (dec : Calls → Nat → Nat → Val → HR) (zeroE : Val) (esize : Nat) (b : Bytes) (h : Calls) (c depth : Nat) (rv : Val) : HR :=
  if !hasByte b c then (h, rv, .err (.unexpectedEnd "slice" c)) else
  let depth := depth + 1
  if depth > maxDepth then (h, rv, .err (.maxDepth (byteAt b c) c)) else
  onOkH h rv (idx b c) fun x =>
  if x = cN then onOkH h rv (validateNull b c) fun _ => (h, .sliceNil, .ok (c + 2))
  else if x = ca then
    let c := c + 1
    if !hasByte b c then (h, rv, .err (.unexpectedEnd "array length" c)) else
    onOkH h rv (idx b c) fun x =>
    if x ≠ cColon then (h, rv, .err (.unexpected "':' before array length" c x)) else
    let c := c + 1
    if !hasByte b c then (h, rv, .err (.unexpectedEnd "array length" c)) else
    onOkH h rv (idx b c) fun x =>
    if x = c0 then onOkH h rv (validateEmptyArray b c) fun _ => (h, .sliceNil, .ok (c + 4))
    else
      onOkH h rv (readLengthInt b (c - 1)) fun (arrLen, c) =>
      if !hasByte b c then (h, rv, .err (.unexpectedEnd "array" c)) else
      onOkH h rv (idx b c) fun x =>
      if x ≠ cLBrace then (h, rv, .err (.beginArray x c)) else
      if !makeSliceOk esize arrLen then (h, rv, .panic .makeSlice) else
      sliceLoopH (fun h c v => dec h c depth v) zeroE esize b (b.length + 1) h (c + 1) [] rv
  else if x = cMinus ∨ isDigit x then (h, rv, .err (.typeError "number" c))
  else (h, rv, .err (.unexpectedEnd "slice" c))

/-- `bytesDecoder.Decode` and `decodeBinary`, bytes.go:38-67. -/
def bytesDecodeH (dec : Calls → Nat → Nat → Val → HR) (zeroE : Val) (b : Bytes) (h : Calls) (c depth : Nat) (rv : Val) : HR :=
  onOkH h rv (idx b c) fun x =>
  if x = ca then sliceDecodeH dec zeroE 1 b h c depth rv
  else
    onOkH h rv (stringBytes b c) fun (ob, c) =>
    match ob with
    | none => (h, rv, .ok c)
    | some s => (h, bytesVal s, .ok c)

/-- The element loop of `arrayDecoder.Decode`, array.go:82-123. -/
def arrayLoopH (dec : Calls → Nat → Val → HR) (skip : Nat → Res Nat) (b : Bytes) : Nat → Calls → Nat → List Val → HR
  | 0, h, _, vs => (h, .arr vs, .diverge)
  | f + 1, h, c, vs =>
    if !hasByte b c then (h, .arr vs, .err (.unexpectedEnd "array" c)) else
    onOkH h (.arr vs) (readInt b c) fun (i, c) =>
    if !hasByte b c then (h, .arr vs, .err (.unexpectedEnd "array value" c)) else
    match (match vs[i]? with
      | some v0 => match dec h c v0 with | (h, v, r) => (h, vs.set i v, r)
      | none => (h, vs, skip c)) with
    | (h, vs, r) =>
      onOkH h (.arr vs) r fun c =>
      if !hasByte b c then (h, .arr vs, .err (.unexpectedEnd "array" c)) else
      onOkH h (.arr vs) (idx b c) fun x =>
      if x = cRBrace then (h, .arr vs, .ok (c + 1)) else
      arrayLoopH dec skip b f h c vs

/-- `arrayDecoder.Decode`, array.go:32-127; `n` is the array length. -/
def arrayDecodeH (dec : Calls → Nat → Nat → Val → HR) (zeroE : Val) (n : Nat) (b : Bytes) (h : Calls) (c depth : Nat) (rv : Val) : HR :=
  if !hasByte b c then (h, rv, .err (.unexpectedEnd "array" c)) else
  let depth := depth + 1
  if depth > maxDepth then (h, rv, .err (.maxDepth (byteAt b c) c)) else
  onOkH h rv (idx b c) fun x =>
  if x = cN then onOkH h rv (validateNull b c) fun _ => (h, rv, .ok (c + 2))
  else if x = ca then
    let c := c + 1
    if !hasByte b c then (h, rv, .err (.unexpectedEnd "array length" c)) else
    onOkH h rv (idx b c) fun x =>
    if x ≠ cColon then (h, rv, .err (.unexpected "':' before array length" c x)) else
    let zeros := List.replicate n zeroE
    let rv := .arr zeros
    let c := c + 1
    if !hasByte b c then (h, rv, .err (.unexpectedEnd "array length" c)) else
    onOkH h rv (idx b c) fun x =>
    if x = c0 then onOkH h rv (validateEmptyArray b c) fun _ => (h, rv, .ok (c + 4))
    else
      onOkH h rv (readLengthInt b (c - 1)) fun (_, c) =>
      if !hasByte b c then (h, rv, .err (.unexpectedEnd "array" c)) else
      onOkH h rv (idx b c) fun x =>
      if x ≠ cLBrace then (h, rv, .err (.beginArray x c)) else
      arrayLoopH (fun h c v => dec h c depth v) (fun c => skipValue b c depth) b (b.length + 1) h (c + 1) zeros
  else (h, rv, .err (.unexpectedEnd "array" c))

/-- The entry loop of `mapDecoder.Decode`, map.go:87-118. -/
def mapLoopH (keyDec valDec : Calls → Nat → HR) (b : Bytes) : Nat → Calls → Nat → List (Val × Val) → HR
  | 0, h, _, es => (h, .map es, .diverge)
  | f + 1, h, c, es =>
    if !hasByte b c then (h, .map es, .err (.unexpectedEnd "map" c)) else
    match keyDec h c with
    | (h, k, r) =>
      onOkH h (.map es) r fun c =>
      if !hasByte b c then (h, .map es, .err (.unexpectedEnd "map value" c)) else
      match valDec h c with
      | (h, v, r) =>
        onOkH h (.map es) r fun c =>
        if !k.hashable then (h, .map es, .panic .unhashable) else
        let es := mapInsert k v es
        if !hasByte b c then (h, .map es, .err (.unexpectedEnd "map" c)) else
        onOkH h (.map es) (idx b c) fun x =>
        if x = cRBrace then (h, .map es, .ok (c + 1)) else
        mapLoopH keyDec valDec b f h c es

/-- `mapDecoder.Decode`, map.go:31-119. -/
def mapDecodeH (keyDec valDec : Calls → Nat → Nat → HR) (b : Bytes) (h : Calls) (c depth : Nat) (rv : Val) : HR :=
  if !hasByte b c then (h, rv, .err (.unexpectedEnd "map" c)) else
  let depth := depth + 1
  if depth > maxDepth then (h, rv, .err (.maxDepth (byteAt b c) c)) else
  onOkH h rv (idx b c) fun x =>
  if x = cN then onOkH h rv (validateNull b c) fun _ => (h, .mapNil, .ok (c + 2))
  else
    onOkH h rv (if x = cO then skipClassName b c >>= fun e => .ok (e + 1)
      else if x = ca then .ok (c + 1)
      else .err (.unexpectedStart "map" c x)) fun c =>
    onOkH h rv (readLength b c) fun (_, c) =>
    if !hasByte b c then (h, rv, .err (.unexpectedEnd "map" c)) else
    onOkH h rv (idx b c) fun x =>
    if x ≠ cLBrace then (h, rv, .err (.unexpected "{ character for map value" c x)) else
    match mapEntries rv with
    | none => (h, rv, .panic .reflectKind)
    | some es =>
      let c := c + 1
      if !hasByte b c then (h, .map es, .err (.unexpectedEnd "map" c)) else
      onOkH h (.map es) (idx b c) fun x =>
      if x = cRBrace then (h, .map es, .ok (c + 1)) else
      mapLoopH (fun h c => keyDec h c depth) (fun h c => valDec h c depth) b (b.length + 1) h c es

/-- `interfaceDecoder.decodeEmptyInterface`, interface.go:173-240. -/
def anyDecodeH (W : World) (anyDec : Calls → Nat → Nat → HR) (b : Bytes) (h : Calls) (c depth : Nat) (rv : Val) : HR :=
  onOkH h rv (idx b c) fun x =>
  if x = cO then
    match mapDecodeH (fun h c _ => (h, stringDecode b c (.str []))) anyDec b h c depth .mapNil with
    | (h, v, r) => onOkH h rv r fun c => (h, .iface (.map .str .any) v, .ok c)
  else if x = ca then
    match mapDecodeH (fun h c _ => (h, anyKeyDecode b c)) anyDec b h c depth .mapNil with
    | (h, v, r) => onOkH h rv r fun c => (h, .iface (.map .any .any) v, .ok c)
  else if x = cd then
    match floatDecode W false b c (.f64 0) with
    | (v, r) => onOkH h rv r fun c => (h, .iface .f64 v, .ok c)
  else if x = cs then
    onOkH h rv (readString b (c + 1)) fun (s, e) => (h, .iface .str (.str s), .ok e)
  else if x = ci then
    match intDecode .i64 b c (.int 0) with
    | (v, r) => onOkH h rv r fun c => (h, .iface (.int .i64) v, .ok c)
  else if x = cb then
    onOkH h rv (readBool b c) fun v => (h, .iface .bool (.bool v), .ok (c + 4))
  else if x = cN then
    onOkH h rv (validateNull b c) fun _ => (h, .ifaceNil, .ok (c + 2))
  else (h, rv, .err (.beginValue x c))

/-- The entry loop of `structDecoder.Decode`, struct.go:105-146. -/
def structLoopH (sets : List FieldSet) (dec : FieldSet → Calls → Nat → Val → HR) (skip : Nat → Res Nat) (b : Bytes) : Nat → Calls → Nat → List Val → HR
  | 0, h, _, vs => (h, .struct vs, .diverge)
  | f + 1, h, c, vs =>
    if !hasByte b c then (h, .struct vs, .err (.unexpectedEnd "object" c)) else
    onOkH h (.struct vs) (decodeKey sets b c) fun (fld, c) =>
    if !hasByte b c then (h, .struct vs, .err (.unexpectedEnd "object value" c)) else
    match (match fld with
      | some s => match vs[s.idx]? with
        | some v0 => match dec s h c v0 with | (h, v, r) => (h, vs.set s.idx v, r)
        | none => (h, vs, .panic .reflectKind)
      | none => (h, vs, skip c)) with
    | (h, vs, r) =>
      onOkH h (.struct vs) r fun c =>
      if !hasByte b c then (h, .struct vs, .err (.unexpectedEnd "object" c)) else
      onOkH h (.struct vs) (idx b c) fun x =>
      if x = cRBrace then (h, .struct vs, .ok (c + 1)) else
      structLoopH sets dec skip b f h c vs

/-- `structDecoder.Decode`, struct.go:49-147. -/
def structDecodeH (sets : List FieldSet) (dec : FieldSet → Calls → Nat → Nat → Val → HR) (b : Bytes) (h : Calls) (c depth : Nat) (rv : Val) : HR :=
  if !hasByte b c then (h, rv, .err (.unexpectedEnd "object" c)) else
  let depth := depth + 1
  if depth > maxDepth then (h, rv, .err (.maxDepth (byteAt b c) c)) else
  onOkH h rv (idx b c) fun x =>
  if x = cN then onOkH h rv (validateNull b c) fun _ => (h, rv, .ok (c + 2))
  else
    onOkH h rv (if x = cO then skipClassName b c >>= fun e => .ok (e + 1)
      else if x = ca then .ok (c + 1)
      else .err (.beginValue x c)) fun c =>
    if !hasByte b c then (h, rv, .err (.unexpectedEnd "object length" c)) else
    onOkH h rv (idx b c) fun x =>
    if x ≠ cColon then (h, rv, .err (.beginValue x c)) else
    onOkH h rv (skipLengthWithBothColon b c) fun c =>
    if !hasByte b c then (h, rv, .err (.unexpectedEnd "object" c)) else
    onOkH h rv (idx b c) fun x =>
    if x ≠ cLBrace then (h, rv, .err (.beginArray x c)) else
    let c := c + 1
    if !hasByte b c then (h, rv, .err (.unexpectedEnd "object" c)) else
    onOkH h rv (idx b c) fun x =>
    if x = cRBrace then (h, rv, .ok (c + 1)) else
    match rv with
    | .struct vs => structLoopH sets (fun s h c v => dec s h c depth v) (fun c => skipValue b c depth) b (b.length + 1) h c vs
    | _ => (h, rv, .panic .reflectKind)

/-! ### Dispatch -/

/-- A decoder without its pointer, applied to a map key of pointer kind, see `ptrKeyDecode` (compile.go:144-155). -/
def ptrKeyDecodeH (scratch : HR) (b : Bytes) (h : Calls) (c : Nat) : HR :=
  onOkH h .ptrNil (idx b c) fun x =>
  if x = cN then onOkH h .ptrNil (validateNull b c) fun _ => (h, .ptrNil, .ok (c + 2))
  else onOkH scratch.1 .ptrNil scratch.2.2 fun _ => (scratch.1, .ptrNil, .panic .reflectKind)

/-- Key decoders chosen by `compileMapKey`, compile.go:132-156, applied to a fresh zero key (map.go:91-92). -/
def keyDecodeH (W : World) (M : Hooks) (anyDec : Calls → Nat → Nat → HR) (b : Bytes) (k : Ty) (h : Calls) (c depth : Nat) : HR :=
  match W.unmOf k with
  | some id => unmarshalDecodeH W M id b h c depth (W.zero k)
  | none => match W.resolve k with
    | .str => (h, stringDecode b c (W.zero k))
    | .bool => (h, boolDecode b c (W.zero k))
    | .int kd => (h, intDecode kd b c (W.zero k))
    | .uint kd => (h, uintDecode kd b c (W.zero k))
    | .any => anyDecodeH W anyDec b h c depth (W.zero k)
    | .iface _ => ifaceDecodeH W M b h c depth (W.zero k)
    | .ptr e => match W.unmOf e with
      | some _ => (h, invalidDecode c (W.zero k))
      | none => match W.resolve e with
        | .str => ptrKeyDecodeH (h, stringDecode b c (.str [])) b h c
        | .bool => ptrKeyDecodeH (h, boolDecode b c (.bool false)) b h c
        | .int _ => ptrKeyDecodeH (h, intDecode .i64 b c (.int 0)) b h c
        | .uint _ => ptrKeyDecodeH (h, uintDecode .u64 b c (.uint 0)) b h c
        | .any | .iface _ => ptrKeyDecodeH (anyDecodeH W anyDec b h c depth .ifaceNil) b h c
        | _ => (h, invalidDecode c (W.zero k))
    | _ => (h, invalidDecode c (W.zero k))

/-- The decoder of a struct field, compile.go:290-295 and wrapped_string.go:23-49. -/
def fieldDecodeH (W : World) (rec : Ty → Calls → Nat → Nat → Val → HR) (b : Bytes) (s : FieldSet) (h : Calls) (c depth : Nat) (rv : Val) : HR :=
  if s.str then
    match W.resolve s.ty with
    | .ptr e =>
      if wrappable W e then ptrDecodeH (fun h c _ v => (h, wrappedDecode W e b c v)) (W.zero e) b h c depth rv
      else (h, rv, .err (.unsupported "string option"))   -- rejected when the type is compiled
    | _ =>
      if wrappable W s.ty then (h, wrappedDecode W s.ty b c rv)
      else (h, rv, .err (.unsupported "string option"))   -- rejected when the type is compiled
  else rec s.ty h c depth rv

/-- The decoder chosen by `compile`, compile.go:55-110, for a type that is not a pointer. -/
def decodeNonPtrH (W : World) (M : Hooks) (rec : Ty → Calls → Nat → Nat → Val → HR) (b : Bytes) (t : Ty) (h : Calls) (c depth : Nat) (rv : Val) : HR :=
  match W.unmOf t with
  | some id => unmarshalDecodeH W M id b h c depth rv
  | none => match W.resolve t with
    | .bool => (h, boolDecode b c rv)
    | .int k => (h, intDecode k b c rv)
    | .uint k => (h, uintDecode k b c rv)
    | .f32 => (h, floatDecode W true b c rv)
    | .f64 => (h, floatDecode W false b c rv)
    | .str => (h, stringDecode b c rv)
    | .slice e =>
      if W.isByte e then bytesDecodeH (rec e) (W.zero e) b h c depth rv
      else sliceDecodeH (rec e) (W.zero e) (W.elemSize e) b h c depth rv
    | .array n e => arrayDecodeH (rec e) (W.zero e) n b h c depth rv
    | .map k v =>
      mapDecodeH (keyDecodeH W M (fun h c d => rec .any h c d .ifaceNil) b k) (fun h c d => rec v h c d (W.zero v)) b h c depth rv
    | .struct id => structDecodeH (fieldSets W 0 (W.fields id)) (fieldDecodeH W rec b) b h c depth rv
    | .any => anyDecodeH W (fun h c d => rec .any h c d .ifaceNil) b h c depth rv
    | .iface _ => ifaceDecodeH W M b h c depth rv
    | .other => (h, invalidDecode c rv)
    | .ptr _ => (h, rv, .err (.unsupported "pointer to pointer"))   -- rejected by newPtrDecoder, ptr.go:17-21
    | .named _ => (h, rv, .err (.unsupported "declared type"))      -- excluded by `World.NamedOk`

/-- `Decoder.Decode` of the decoder that `compile` (compile.go:55-110) builds for type `t`; fuel bounds the nesting of calls. -/
def decodeH (W : World) (M : Hooks) (b : Bytes) : Nat → Ty → Calls → Nat → Nat → Val → HR
  | 0, _, h, _, _, rv => (h, rv, .diverge)
  | f + 1, t, h, c, depth, rv =>
    match W.unmOf t, W.resolve t with
    | none, .ptr e =>
      if W.isPtr e then (h, rv, .err (.unsupported "pointer to pointer"))   -- rejected by newPtrDecoder, ptr.go:17-21
      else ptrDecodeH (decodeNonPtrH W M (decodeH W M b f) b e) (W.zero e) b h c depth rv
    | _, _ => decodeNonPtrH W M (decodeH W M b f) b t h c depth rv

/-- `Unmarshal` for a non-nil pointer, unmarshal.go:21-51, when `h` are the calls made before: all calls afterwards, the variable and the outcome. -/
def unmarshalH (W : World) (M : Hooks) (fuel : Nat) (h : Calls) (data : Bytes) (t : Ty) (v : Val) : Calls × Val × Res Unit :=
  if data.length = 0 then (h, v, .err .emptyInput)
  else match compileD W fuel [] t with
  | .ok _ => match decodeH W M data (data.length + 1) t h 0 0 v with
    | (h', v', r) => (h', onOk v' r fun c => (v', validateEndBuf data c))
  | .err e => (h, v, .err e)
  | .panic p => (h, v, .panic p)
  | .diverge => (h, v, .diverge)

end Verif

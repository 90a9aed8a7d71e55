import Verif.Model.Unmarshal
/-
How much memory `Unmarshal` asks for. For every decoder of Model/Decode.lean there is a function here that adds up the sizes, in bytes, of
the allocations made during a call of it, whether the call succeeds or not. The values decoded on the way are those of Model/Decode.lean.

Counted are `make`, `reflect.New`, `reflect.MakeSlice`, `reflect.MakeMapWithSize`, map entries, conversions of bytes to strings and values
moved into interfaces. Left out: errors, the context (context.go:16-22), what preparing a type takes (it does not depend on the input), the
spare room of maps, and what methods of the program ask for.
-/
namespace Verif

/-- Sequencing: what follows a step is counted if the step succeeds (Go error/panic propagation). -/
def costOk {α : Type} (r : Res α) (k : α → Nat) : Nat :=
  match r with
  | .ok a => k a
  | _ => 0

/-- `stringDecoder.Decode`, string.go:31-42: the conversion to a string, line 40. -/
def stringAlloc (buf : Bytes) (c : Nat) : Nat := costOk (stringBytes buf c) fun (ob, _) => (ob.getD []).length

/-- `ptrDecoder.Decode`, ptr.go:30-53: `reflect.New` of line 42 in place of a nil pointer. `sizeE` is the size of the element type, `al` what its decoder asks for. -/
def ptrAlloc (al : Nat → Nat → Val → Nat) (sizeE : Nat) (zeroE : Val) (buf : Bytes) (c depth : Nat) (rv : Val) : Nat :=
  costOk (idx buf c) fun b =>
  if b = cN then 0
  else
    match rv with
    | .ptrNil => sizeE + al c depth zeroE
    | .ptr v0 => al c depth v0
    | _ => 0

/-- The element loop of `sliceDecoder.Decode`, slice.go:107-142: a new slice whenever the index is not in the present one, lines 121-125. -/
def sliceLoopAlloc (dec : Nat → Val → DR) (al : Nat → Val → Nat) (zeroE : Val) (esize : Nat) (buf : Bytes) : Nat → Nat → List Val → Nat
  | 0, _, _ => 0
  | f + 1, c, slice =>
    costOk (readInt buf c) fun (i, c) =>
    if !hasByte buf c then 0 else
    let grow := decide (i ≥ slice.length)
    if grow && !makeSliceOk esize (wrap64 (i + 1)) then 0 else
    let slice := if grow then slice ++ List.replicate (i + 1 - slice.length) zeroE else slice
    match slice[i]? with
    | none => 0
    | some v0 =>
      (if grow then esize * (i + 1) else 0) + al c v0 +
        costOk (dec c v0).2 fun c' => costOk (idx buf c') fun b =>
        if b = cRBrace then 0 else sliceLoopAlloc dec al zeroE esize buf f c' (slice.set i (dec c v0).1)

/-- `sliceDecoder.Decode`, slice.go:51-148: `reflect.MakeSlice` with the declared capacity, line 105, and the element loop. -/
def sliceAlloc (dec : Nat → Nat → Val → DR) (al : Nat → Nat → Val → Nat) (zeroE : Val) (esize : Nat) (buf : Bytes) (c depth : Nat) : Nat :=
  if !hasByte buf c then 0 else
  let depth := depth + 1
  if depth > maxDepth then 0 else
  costOk (idx buf c) fun b =>
  if b = ca then
    let c := c + 1
    costOk (idx buf c) fun b =>
    if b ≠ cColon then 0 else
    let c := c + 1
    costOk (idx buf c) fun b =>
    if b = c0 then 0
    else
      costOk (readLengthInt buf (c - 1)) fun (arrLen, c) =>
      costOk (idx buf c) fun b =>
      if b ≠ cLBrace then 0 else
      if !makeSliceOk esize arrLen then 0 else
      esize * arrLen.toNat + sliceLoopAlloc (fun c v => dec c depth v) (fun c v => al c depth v) zeroE esize buf (buf.length + 1) (c + 1) []
  else 0

/-- `bytesDecoder.Decode`, bytes.go:38-67: strings are not copied, the slice keeps part of the buffer. -/
def bytesAlloc (dec : Nat → Nat → Val → DR) (al : Nat → Nat → Val → Nat) (zeroE : Val) (buf : Bytes) (c depth : Nat) : Nat :=
  costOk (idx buf c) fun b => if b = ca then sliceAlloc dec al zeroE 1 buf c depth else 0

/-- The element loop of `arrayDecoder.Decode`, array.go:82-123: elements are decoded in place. -/
def arrayLoopAlloc (dec : Nat → Val → DR) (al : Nat → Val → Nat) (skip : Nat → Res Nat) (buf : Bytes) : Nat → Nat → List Val → Nat
  | 0, _, _ => 0
  | f + 1, c, vs =>
    costOk (readInt buf c) fun (i, c) =>
    if !hasByte buf c then 0 else
    match vs[i]? with
    | some v0 =>
      al c v0 + costOk (dec c v0).2 fun c' => costOk (idx buf c') fun b =>
        if b = cRBrace then 0 else arrayLoopAlloc dec al skip buf f c' (vs.set i (dec c v0).1)
    | none =>
      costOk (skip c) fun c' => costOk (idx buf c') fun b =>
        if b = cRBrace then 0 else arrayLoopAlloc dec al skip buf f c' vs

/-- `arrayDecoder.Decode`, array.go:32-127. -/
def arrayAlloc (dec : Nat → Nat → Val → DR) (al : Nat → Nat → Val → Nat) (zeroE : Val) (n : Nat) (buf : Bytes) (c depth : Nat) : Nat :=
  if !hasByte buf c then 0 else
  let depth := depth + 1
  if depth > maxDepth then 0 else
  costOk (idx buf c) fun b =>
  if b = ca then
    let c := c + 1
    costOk (idx buf c) fun b =>
    if b ≠ cColon then 0 else
    let c := c + 1
    costOk (idx buf c) fun b =>
    if b = c0 then 0
    else
      costOk (readLengthInt buf (c - 1)) fun (_, c) =>
      costOk (idx buf c) fun b =>
      if b ≠ cLBrace then 0 else
      arrayLoopAlloc (fun c v => dec c depth v) (fun c v => al c depth v) (fun c => skipValue buf c depth) buf (buf.length + 1) (c + 1)
        (List.replicate n zeroE)
  else 0

/-- The entry loop of `mapDecoder.Decode`, map.go:90-118: `reflect.New` for key and value, lines 94 and 103, and the entry of line 109.
`ksize` and `vsize` are the sizes of their types. -/
def mapLoopAlloc (keyDec valDec : Nat → DR) (keyAl valAl : Nat → Nat) (ksize vsize : Nat) (buf : Bytes) : Nat → Nat → Nat
  | 0, _ => 0
  | f + 1, c =>
    if !hasByte buf c then 0 else
    ksize + keyAl c + costOk (keyDec c).2 fun c1 =>
    if !hasByte buf c1 then 0 else
    vsize + valAl c1 + costOk (valDec c1).2 fun c2 =>
    if !(keyDec c).1.hashable then 0 else
    (ksize + vsize) + costOk (idx buf c2) fun b =>
    if b = cRBrace then 0 else mapLoopAlloc keyDec valDec keyAl valAl ksize vsize buf f c2

/-- `reflect.MakeMapWithSize` with room for `n` entries, map.go:78. A number of entries that is out of range counts as none (package
runtime, `makemap`). -/
def mapRoom (ksize vsize : Nat) (n : Int) : Nat := if makeSliceOk (ksize + vsize) n then (ksize + vsize) * n.toNat else 0

/-- `mapDecoder.Decode`, map.go:31-119: a map with room for the declared number of entries in place of a nil map, lines 77-79, and the loop. -/
def mapAlloc (keyDec valDec : Nat → Nat → DR) (keyAl valAl : Nat → Nat → Nat) (ksize vsize : Nat) (buf : Bytes) (c depth : Nat) (rv : Val) : Nat :=
  if !hasByte buf c then 0 else
  let depth := depth + 1
  if depth > maxDepth then 0 else
  costOk (idx buf c) fun b =>
  if b = cN then 0
  else
    costOk (if b = cO then skipClassName buf c >>= fun e => .ok (e + 1)
      else if b = ca then .ok (c + 1)
      else .err (.unexpectedStart "map" c b)) fun c =>
    costOk (readLength buf c) fun (l, c) =>
    costOk (idx buf c) fun b =>
    if b ≠ cLBrace then 0 else
    match mapEntries rv with
    | none => 0
    | some _ =>
      let c := c + 1
      (match rv with | .mapNil => mapRoom ksize vsize l | _ => 0) +
        costOk (idx buf c) fun b =>
        if b = cRBrace then 0 else
        mapLoopAlloc (fun c => keyDec c depth) (fun c => valDec c depth) (fun c => keyAl c depth) (fun c => valAl c depth) ksize vsize buf
          (buf.length + 1) c

/-- `mapKeyDecoder.Decode`, interface.go:247-273: the variable `v`, the string, and the value moved into the interface. -/
def anyKeyAlloc (W : World) (buf : Bytes) (c : Nat) : Nat :=
  costOk (idx buf c) fun b =>
  if b = cs then 2 * W.elemSize .str + stringAlloc buf c
  else if b = ci then 2 * W.elemSize (.int .i64)
  else 0

/-- `interfaceDecoder.decodeEmptyInterface`, interface.go:173-240: the variable `v` of each case, and the value moved into the interface. -/
def anyAlloc (W : World) (anyDec : Nat → Nat → DR) (anyAl : Nat → Nat → Nat) (buf : Bytes) (c depth : Nat) : Nat :=
  costOk (idx buf c) fun b =>
  if b = cO then
    W.elemSize (.map .str .any) + mapAlloc (fun c _ => stringDecode buf c (.str [])) anyDec (fun c _ => stringAlloc buf c) anyAl (W.elemSize .str)
      (W.elemSize .any) buf c depth .mapNil
  else if b = ca then
    W.elemSize (.map .any .any) + mapAlloc (fun c _ => anyKeyDecode buf c) anyDec (fun c _ => anyKeyAlloc W buf c) anyAl (W.elemSize .any)
      (W.elemSize .any) buf c depth .mapNil
  else if b = cd then 2 * W.elemSize .f64
  else if b = cs then costOk (readString buf (c + 1)) fun (s, _) => s.length + W.elemSize .str
  else if b = ci then 2 * W.elemSize (.int .i64)
  else if b = cb then W.elemSize .bool
  else 0

/-- `unmarshalPHPDecoder.Decode`, unmarshal_php.go:45-95: `reflect.New` of line 85. -/
def unmarshalPhpAlloc (W : World) (t : Ty) (buf : Bytes) (c depth : Nat) : Nat :=
  costOk (skipValue buf c depth) fun _ => W.elemSize t

/-- The entry loop of `structDecoder.Decode`, struct.go:105-146: fields are decoded in place, the key is not copied (line 41). -/
def structLoopAlloc (sets : List FieldSet) (dec : FieldSet → Nat → Val → DR) (al : FieldSet → Nat → Val → Nat) (skip : Nat → Res Nat)
    (buf : Bytes) : Nat → Nat → List Val → Nat
  | 0, _, _ => 0
  | f + 1, c, vs =>
    if !hasByte buf c then 0 else
    costOk (decodeKey sets buf c) fun (fld, c) =>
    if !hasByte buf c then 0 else
    match fld with
    | some s =>
      match vs[s.idx]? with
      | some v0 =>
        al s c v0 + costOk (dec s c v0).2 fun c' => costOk (idx buf c') fun b =>
          if b = cRBrace then 0 else structLoopAlloc sets dec al skip buf f c' (vs.set s.idx (dec s c v0).1)
      | none => 0
    | none =>
      costOk (skip c) fun c' => costOk (idx buf c') fun b =>
        if b = cRBrace then 0 else structLoopAlloc sets dec al skip buf f c' vs

/-- `structDecoder.Decode`, struct.go:49-147. -/
def structAlloc (sets : List FieldSet) (dec : FieldSet → Nat → Nat → Val → DR) (al : FieldSet → Nat → Nat → Val → Nat) (buf : Bytes)
    (c depth : Nat) (rv : Val) : Nat :=
  if !hasByte buf c then 0 else
  let depth := depth + 1
  if depth > maxDepth then 0 else
  costOk (idx buf c) fun b =>
  if b = cN then 0
  else
    costOk (if b = cO then skipClassName buf c >>= fun e => .ok (e + 1)
      else if b = ca then .ok (c + 1)
      else .err (.beginValue b c)) fun c =>
    costOk (idx buf c) fun b =>
    if b ≠ cColon then 0 else
    costOk (skipLengthWithBothColon buf c) fun c =>
    costOk (idx buf c) fun b =>
    if b ≠ cLBrace then 0 else
    let c := c + 1
    costOk (idx buf c) fun b =>
    if b = cRBrace then 0 else
    match rv with
    | .struct vs =>
      structLoopAlloc sets (fun s c v => dec s c depth v) (fun s c v => al s c depth v) (fun c => skipValue buf c depth) buf (buf.length + 1) c vs
    | _ => 0

/-- Key decoders chosen by `compileMapKey`, compile.go:132-156. -/
def keyAlloc (W : World) (anyDec : Nat → Nat → DR) (anyAl : Nat → Nat → Nat) (buf : Bytes) (k : Ty) (c depth : Nat) : Nat :=
  match W.unmOf k with
  | some _ => unmarshalPhpAlloc W k buf c depth
  | none => match W.resolve k with
    | .str => stringAlloc buf c
    | .any => anyAlloc W anyDec anyAl buf c depth
    | .ptr e => match W.unmOf e with
      | some _ => 0
      | none => match W.resolve e with
        | .str => stringAlloc buf c
        | .any | .iface _ => anyAlloc W anyDec anyAl buf c depth
        | _ => 0
    | _ => 0

/-- The decoder of a struct field (compile.go:290-295, wrapped_string.go:23-67): a `,string` field of pointer type asks for the element only. -/
def fieldAlloc (W : World) (al : Ty → Nat → Nat → Val → Nat) (buf : Bytes) (s : FieldSet) (c depth : Nat) (rv : Val) : Nat :=
  if s.str then
    match W.resolve s.ty with
    | .ptr e => if wrappable W e then ptrAlloc (fun _ _ _ => 0) (W.elemSize e) (W.zero e) buf c depth rv else 0
    | _ => 0
  else al s.ty c depth rv

/-- The decoder chosen by `compile`, compile.go:55-110, for a type that is not a pointer. -/
def allocNonPtr (W : World) (rec : Ty → Nat → Nat → Val → DR) (al : Ty → Nat → Nat → Val → Nat) (buf : Bytes) (t : Ty) (c depth : Nat) (rv : Val) : Nat :=
  match W.unmOf t with
  | some _ => unmarshalPhpAlloc W t buf c depth
  | none => match W.resolve t with
    | .str => stringAlloc buf c
    | .slice e =>
      if W.isByte e then bytesAlloc (rec e) (al e) (W.zero e) buf c depth
      else sliceAlloc (rec e) (al e) (W.zero e) (W.elemSize e) buf c depth
    | .array n e => arrayAlloc (rec e) (al e) (W.zero e) n buf c depth
    | .map k v =>
      mapAlloc (keyDecode W (fun c d => rec .any c d .ifaceNil) buf k) (fun c d => rec v c d (W.zero v))
        (keyAlloc W (fun c d => rec .any c d .ifaceNil) (fun c d => al .any c d .ifaceNil) buf k) (fun c d => al v c d (W.zero v))
        (W.elemSize k) (W.elemSize v) buf c depth rv
    | .struct id => structAlloc (fieldSets W 0 (W.fields id)) (fieldDecode W rec buf) (fieldAlloc W al buf) buf c depth rv
    | .any => anyAlloc W (fun c d => rec .any c d .ifaceNil) (fun c d => al .any c d .ifaceNil) buf c depth
    | _ => 0

/-- `Decoder.Decode` of the decoder that `compile` (compile.go:55-110) builds for type `t`: what it asks for. -/
def allocF (W : World) (buf : Bytes) : Nat → Ty → Nat → Nat → Val → Nat
  | 0, _, _, _, _ => 0
  | f + 1, t, c, depth, rv =>
    match W.unmOf t, W.resolve t with
    | none, .ptr e =>
      if W.isPtr e then 0
      else ptrAlloc (allocNonPtr W (decodeF W buf f) (allocF W buf f) buf e) (W.elemSize e) (W.zero e) buf c depth rv
    | _, _ => allocNonPtr W (decodeF W buf f) (allocF W buf f) buf t c depth rv

/-- `unmarshal` for a non-nil pointer, unmarshal.go:37-51: the copy of the input, line 37, and what the decoder asks for. -/
def unmarshalAlloc (W : World) (fuel : Nat) (data : Bytes) (t : Ty) (v : Val) : Nat :=
  if data.length = 0 then 0 else
  data.length + costOk (compileD W fuel [] t) fun _ => allocF W data (data.length + 1) t 0 0 v

end Verif

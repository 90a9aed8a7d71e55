import Verif.Model.Unmarshal
/-
Where decoded byte slices live. `Unmarshal` copies its input (unmarshal.go:37-38), and the byte slices it stores are parts of that copy
(bytes.go:47 with context.go:287). Here byte slices that were decoded are `Val.win`: an array, a position in it and a length; arrays are
numbered in the order they were made. Everything but byte slices and types with UnmarshalPHP is decoded as in
Model/Decode.lean.
-/
namespace Verif

/-- The byte arrays of the program, by number. -/
abbrev Arrays := List Bytes

/-- `len` bytes from position `off` of array `obj` (Go's slice type). -/
def Arrays.read (m : Arrays) (obj off len : Nat) : Bytes := ((m.getD obj []).drop off).take len

/-- `bytesDecoder.Decode` and `decodeBinary`, bytes.go:38-67, with the place of the bytes in memory: `readString` returns
`buf[start:end]` and a cursor two bytes behind `end` (context.go:275-287). `obj` is the array `buf`. -/
def bytesDecodeAt (obj : Nat) (dec : Nat → Nat → Val → DR) (zeroE : Val) (buf : Bytes) (c depth : Nat) (rv : Val) : DR :=
  onOk rv (idx buf c) fun b =>
  if b = ca then sliceDecode dec zeroE 1 buf c depth rv
  else
    onOk rv (stringBytes buf c) fun (ob, c) =>
    match ob with
    | none => (rv, .ok c)
    | some s => (.win obj (c - 2 - s.length) s.length, .ok c)

/-- `unmarshalPHPDecoder.Decode`, unmarshal_php.go:45-95, for declared type `id`: like `unmarshalDecode`, but the method may store parts of its argument, which are
parts of `buf` (line 52). `unquoteBytes` makes no new bytes here, as values do not begin with a quote. -/
def unmarshalDecodeAt (W : World) (id obj : Nat) (buf : Bytes) (c depth : Nat) (rv : Val) : DR :=
  onOk rv (skipValue buf c depth) fun e =>
  onOk rv (sub buf c e) fun src =>
  if src.head? = some 91 then (rv, .err (.typeError "array" c)) else
  if src.head? = some cLBrace then (rv, .err (.typeError "object" c)) else
  if src.head? = some cMinus ∨ (src.head?.any isDigit) = true then (rv, .err (.typeError "number" c)) else
  if src = [cN, cSemi] then (W.namedZero id, .ok e) else
  onOk rv (unquoteBytes src) fun o =>
  let src := o.getD src
  onOk rv ((W.unmarshal id src).mapErr (annotate c)) fun v => (W.kept id obj c src v, .ok e)

/-- The decoder chosen by `compile`, compile.go:55-110, for a type that is not a pointer; like `decodeNonPtr`, with byte slices in memory.
Methods of map keys store no parts of their argument in the model. -/
def decodeNonPtrAt (W : World) (obj : Nat) (rec : Ty → Nat → Nat → Val → DR) (buf : Bytes) (t : Ty) (c depth : Nat) (rv : Val) : DR :=
  match W.unmOf t with
  | some id => unmarshalDecodeAt W id obj buf c depth rv
  | none => match W.resolve t with
    | .bool => boolDecode buf c rv
    | .int k => intDecode k buf c rv
    | .uint k => uintDecode k buf c rv
    | .f32 => floatDecode W true buf c rv
    | .f64 => floatDecode W false buf c rv
    | .str => stringDecode buf c rv
    | .slice e =>
      if W.isByte e then bytesDecodeAt obj (rec e) (W.zero e) buf c depth rv
      else sliceDecode (rec e) (W.zero e) (W.elemSize e) buf c depth rv
    | .array n e => arrayDecode (rec e) (W.zero e) n buf c depth rv
    | .map k v =>
      mapDecode (keyDecode W (fun c d => rec .any c d .ifaceNil) buf k) (fun c d => rec v c d (W.zero v)) buf c depth rv
    | .struct id => structDecode (fieldSets W 0 (W.fields id)) (fieldDecode W rec buf) buf c depth rv
    | .any => anyDecode W (fun c d => rec .any c d .ifaceNil) buf c depth rv
    | .iface _ => ifaceDecode W buf c depth rv
    | .other => invalidDecode c rv
    | .ptr _ => (rv, .err (.unsupported "pointer to pointer"))   -- rejected by newPtrDecoder, ptr.go:17-21
    | .named _ => (rv, .err (.unsupported "declared type"))      -- excluded by `World.NamedOk`

/-- `Decoder.Decode` of the decoder that `compile` (compile.go:55-110) builds for type `t`; like `decodeF`, with byte slices in memory. -/
def decodeAt (W : World) (obj : Nat) (buf : Bytes) : Nat → Ty → Nat → Nat → Val → DR
  | 0, _, _, _, rv => (rv, .diverge)
  | f + 1, t, c, depth, rv =>
    match W.unmOf t, W.resolve t with
    | none, .ptr e =>
      if W.isPtr e then (rv, .err (.unsupported "pointer to pointer"))   -- rejected by newPtrDecoder, ptr.go:17-21
      else ptrDecode (decodeNonPtrAt W obj (decodeAt W obj buf f) buf e) (W.zero e) buf c depth rv
    | _, _ => decodeNonPtrAt W obj (decodeAt W obj buf f) buf t c depth rv

/-- `unmarshal` for a non-nil pointer, unmarshal.go:37-51, when the input is the `n` bytes from position `off` of array `inp`: the
byte arrays afterwards (with the new one of lines 37-38 at the end), the variable, and the outcome. -/
def unmarshalAt (W : World) (fuel : Nat) (m : Arrays) (inp off n : Nat) (t : Ty) (v : Val) : Arrays × Val × Res Unit :=
  let src := m.read inp off n
  let m := m ++ [src]
  (m, onOk v (compileD W fuel [] t) fun _ =>
    match decodeAt W (m.length - 1) src (src.length + 1) t 0 0 v with
    | (v', r) => onOk v' r fun c => (v', validateEndBuf src c))

end Verif

import Verif.Model.Unmarshal
/-
The decoder objects that /repo/internal/decoder/compile.go builds, and decoding with them. Elsewhere in the model a decoder is represented by the type it is made
for; here it is an object, made once and shared: a struct type that contains itself refers to the object under construction (`structTypeToDecoder`,
compile.go:260-325), whose table of fields is filled in later. The objects carry the names of struct and field that go into type errors, and the type.
-/
namespace Verif

/-- The objects that implement `Decoder`. All but struct decoders are referred to once, so they are trees; a struct decoder is known by its place in memory.
`n` are the names of struct and field (`structName`, `fieldName`). -/
inductive Dec where
  /-- `unmarshalPHPDecoder`, unmarshal_php.go:17-21, for the declared type `id` -/
  | unm (id : Nat) (n : Names)
  /-- `boolDecoder`, bool.go:9-12 -/
  | bool (n : Names)
  /-- `intDecoder`, int.go:10-15 -/
  | int (k : IKind) (t : Ty) (n : Names)
  /-- `uintDecoder`, uint.go:11-16 -/
  | uint (k : UKind) (t : Ty) (n : Names)
  /-- `floatDecoder`, float.go:11-14; the size is that of the destination at run time (float.go:69-73), which is the one it was made for -/
  | float (is32 : Bool) (n : Names)
  /-- `stringDecoder`, string.go:9-12 -/
  | str (n : Names)
  /-- `bytesDecoder`, bytes.go:9-15: the decoder of the elements of its slice decoder, and their type -/
  | bytes (elem : Dec) (t : Ty) (n : Names)
  /-- `sliceDecoder`, slice.go:10-18 -/
  | slice (elem : Dec) (t : Ty) (n : Names)
  /-- `arrayDecoder`, array.go:9-17 -/
  | array (elem : Dec) (len : Nat) (t : Ty) (n : Names)
  /-- `mapDecoder`, map.go:9-17 -/
  | map (kt : Ty) (key : Dec) (vt : Ty) (val : Dec) (n : Names)
  /-- `interfaceDecoder`, interface.go:10-21, with the decoders it contains for the values of an `any` (23-64, which contain each other) -/
  | iface (t : Ty) (n : Names)
  /-- `ptrDecoder`, ptr.go:9-14 -/
  | ptr (elem : Dec) (t : Ty) (n : Names)
  /-- `wrappedStringDecoder`, wrapped_string.go:14-21, by the decoder it was made from -/
  | wrapped (inner : Dec) (n : Names)
  /-- `*structDecoder`, struct.go:16-21 -/
  | struct (a : Nat)
  /-- `invalidDecoder`, invalid.go:9-14 -/
  | invalid (t : Ty) (n : Names)
deriving DecidableEq, Repr

/-- `structFieldSet`, struct.go:9-14. -/
structure FieldObj where
  key : Bytes
  idx : Nat
  dec : Dec
deriving DecidableEq, Repr

/-- `structDecoder`, struct.go:16-21; the names are also those of its `stringDecoder` (struct.go:26). -/
structure StructObj where
  names : Names
  fields : List FieldObj
deriving DecidableEq, Repr

/-- What compilation changes: the struct decoders made so far, and `structTypeToDecoder` (compile.go:52). -/
structure DecMem where
  heap : List StructObj
  busy : List (Ty × Nat)

/-! ### Making decoders -/

/-- `newWrappedStringDecoder`, wrapped_string.go:23-49, with `wrapString` 138-142, which changes the pointer decoder in place (it has just been made for
this field, so nothing else refers to it). -/
def wrapDec (n : Names) : Dec → Res Dec
  | .bool m => .ok (.wrapped (.bool m) n)
  | .float s m => .ok (.wrapped (.float s m) n)
  | .uint k t m => .ok (.wrapped (.uint k t m) n)
  | .int k t m => .ok (.wrapped (.int k t m) n)
  | .ptr e t m => wrapDec m e >>= fun e => .ok (.ptr e t m)
  | _ => .err (.unsupported "string option")

/-- The loop at the end of `compileMapKey`, compile.go:144-155, for the key type `t`. -/
def stripKey (t : Ty) (n : Names) : Dec → Dec
  | .str m => .str m
  | .iface u m => .iface u m
  | .bool m => .bool m
  | .int k u m => .int k u m
  | .uint k u m => .uint k u m
  | .ptr e _ _ => stripKey t n e
  | _ => .invalid t n

/-- The field loop of `compileStruct`, compile.go:271-306; `rec` is `compile`, `sn` the name of the struct type. -/
def makeFields (W : World) (sn : Bytes) (rec : Names → DecMem → Ty → Res (Dec × DecMem)) : Nat → DecMem → List Field → Res (List FieldObj × DecMem)
  | _, m, [] => .ok ([], m)
  | i, m, f :: fs =>
    if isIgnored f then makeFields W sn rec (i + 1) m fs
    else if embedded W f then .err (.unsupported "anonymous struct field")
    else
      let tag := structTag W f
      rec ⟨sn, f.name⟩ m f.ty >>= fun (d, m) =>
      (if tag.isString && stringTagOk W f.ty then wrapDec ⟨sn, f.name⟩ d else .ok d) >>= fun d =>
      makeFields W sn rec (i + 1) m fs >>= fun (sets, m) =>
      .ok ({ key := tag.key, idx := i, dec := d } :: sets, m)

/-- `compile`, compile.go:55-110, with `compilePtr` 158-164 (and newPtrDecoder, ptr.go:16-28), `compileInt` … `compileBool` 166-220, `compileBytes` 222-224 (and
newBytesDecoder, bytes.go:17-36), `compileSlice` 226-233, `compileArray` 235-242, `compileMap` 244-254, `compileMapKey` 132-156, `compileInterface` 256-258,
`compileStruct` 260-325. Fuel bounds the nesting of calls. -/
def makeDec (W : World) : Nat → Names → DecMem → Ty → Res (Dec × DecMem)
  | 0, _, _, _ => .diverge
  | f + 1, n, m, t =>
    match W.unmOf t, W.resolve t with
    | some id, _ => .ok (.unm id n, m)
    | none, .ptr e =>
      makeDec W f n m e >>= fun (d, m) => if W.isPtr e then .err (.unsupported "pointer to pointer") else .ok (.ptr d e n, m)
    | none, .struct id =>
      match m.busy.lookup t with
      | some a => .ok (.struct a, m)
      | none =>
        let a := m.heap.length
        makeFields W (W.typeName t) (makeDec W f) 0 { heap := m.heap ++ [⟨n, []⟩], busy := (t, a) :: m.busy } (W.fields id) >>= fun (sets, m) =>
        if noDupKeys (sets.map (·.key)) then
          .ok (.struct a, { heap := m.heap.set a ⟨n, sets⟩, busy := m.busy.filter (fun p => p.1 ≠ t) })
        else .err (.unsupported "duplicate keys")
    | none, .slice e =>
      if W.isByte e then .ok (.bytes (match W.unmOf e with | some id => .unm id n | none => .uint .u8 e n) e n, m)
      else makeDec W f n m e >>= fun (d, m) => .ok (.slice d e n, m)
    | none, .array l e => makeDec W f n m e >>= fun (d, m) => .ok (.array d l e n, m)
    | none, .map k v =>
      (match W.unmOf k, W.resolve k with
        | some id, _ => .ok (.unm id n, m)
        | none, .str => .ok (.str n, m)
        | none, _ => makeDec W f n m k >>= fun (d, m) => .ok (stripKey k n d, m)) >>= fun (kd, m) =>
      makeDec W f n m v >>= fun (vd, m) => .ok (.map k kd v vd n, m)
    | none, .any | none, .iface _ => .ok (.iface t n, m)
    | none, .int k => .ok (.int k t n, m)
    | none, .uint k => .ok (.uint k t n, m)
    | none, .str => .ok (.str n, m)
    | none, .bool => .ok (.bool n, m)
    | none, .f32 => .ok (.float true n, m)
    | none, .f64 => .ok (.float false n, m)
    | none, _ => .ok (.invalid t n, m)

/-! ### Type errors -/

/-- A type error built with the given `Struct`, `Field` and `Type`: int.go:26-34, uint.go:27-33, string.go:21-29, slice.go:41-49, interface.go:124-132,
invalid.go:25-33. Errors that another decoder has built have these fields already. -/
def blame (n : Names) (t : Option Ty) : Err → Err
  | .typeError w o none => .typeError w o (some ⟨n, t⟩)
  | e => e

/-- `blame`, for what a function of Model/Decode leaves behind. -/
def blamed (n : Names) (t : Ty) (r : DR) : DR := (r.1, r.2.mapErr (blame n (some t)))

/-- The names that a `uintDecoder` puts into its errors: none, uint.go:27-33. -/
def noNames : Names := ⟨[], []⟩

/-- `annotateError`, unmarshal_php.go:31-39: the names of a type error are replaced, the offset of a syntax error too (`annotate`). -/
def annotateNames (n : Names) : Err → Err
  | .typeError w o b => .typeError w o (some ⟨n, b.bind (·.type)⟩)
  | e => e

/-! ### Decoding with them -/

/-- `unmarshalPHPDecoder.Decode`, unmarshal_php.go:45-95, for declared type `id`. -/
def runUnm (W : World) (id : Nat) (n : Names) (buf : Bytes) (c depth : Nat) (rv : Val) : DR :=
  onOk rv (skipValue buf c depth) fun e =>
  onOk rv (sub buf c e) fun src =>
  let here := some ⟨noNames, some (.ptr (.named id))⟩
  if src.head? = some 91 then (rv, .err (.typeError "array" c here)) else
  if src.head? = some cLBrace then (rv, .err (.typeError "object" c here)) else
  if src.head? = some cMinus ∨ (src.head?.any isDigit) = true then (rv, .err (.typeError "number" c here)) else
  if src = [cN, cSemi] then (W.namedZero id, .ok e) else
  onOk rv (unquoteBytes src) fun o =>
  let src := o.getD src
  onOk rv ((W.unmarshal id src).mapErr (fun e => annotateNames n (annotate c e))) fun v => (v, .ok e)

/-- `intDecoder.Decode`, int.go:124-135. -/
def runInt (k : IKind) (t : Ty) (n : Names) (buf : Bytes) (c : Nat) (rv : Val) : DR := blamed n t (intDecode k buf c rv)

/-- `uintDecoder.Decode`, uint.go:52-63. -/
def runUint (k : UKind) (t : Ty) (buf : Bytes) (c : Nat) (rv : Val) : DR := blamed noNames t (uintDecode k buf c rv)

/-- `stringDecoder.Decode`, string.go:31-42; the type is `string`, whatever the destination (string.go:24). -/
def runStr (n : Names) (buf : Bytes) (c : Nat) (rv : Val) : DR := blamed n .str (stringDecode buf c rv)

/-- `bytesDecoder.Decode` and `decodeBinary`, bytes.go:38-67. -/
def runBytes (dec : Nat → Nat → Val → DR) (t : Ty) (zeroE : Val) (n : Names) (buf : Bytes) (c depth : Nat) (rv : Val) : DR :=
  onOk rv (idx buf c) fun b =>
  if b = ca then blamed n (.slice t) (sliceDecode dec zeroE 1 buf c depth rv)
  else
    onOk rv ((stringBytes buf c).mapErr (blame n (some .str))) fun (ob, c) =>
    match ob with
    | none => (rv, .ok c)
    | some s => (bytesVal s, .ok c)

/-- `mapKeyDecoder.Decode`, interface.go:247-273. -/
def runAnyKey (n : Names) (buf : Bytes) (c : Nat) : DR :=
  onOk .ifaceNil (idx buf c) fun b =>
  if b = cs then
    match runStr n buf c (.str []) with
    | (v, r) => onOk .ifaceNil r fun c => (.iface .str v, .ok c)
  else if b = ci then
    match runInt .i64 (.int .i64) n buf c (.int 0) with
    | (v, r) => onOk .ifaceNil r fun c => (.iface (.int .i64) v, .ok c)
  else (.ifaceNil, .err (.unexpected "array key" c b))

/-- `interfaceDecoder.decodeEmptyInterface`, interface.go:173-240, with the decoders made at interface.go:23-64; all have the same names. -/
def runAny (W : World) (n : Names) (anyDec : Nat → Nat → DR) (buf : Bytes) (c depth : Nat) (rv : Val) : DR :=
  onOk rv (idx buf c) fun b =>
  if b = cO then
    match mapDecode (fun c _ => runStr n buf c (.str [])) anyDec buf c depth .mapNil with
    | (v, r) => onOk rv r fun c => (.iface (.map .str .any) v, .ok c)
  else if b = ca then
    match mapDecode (fun c _ => runAnyKey n buf c) anyDec buf c depth .mapNil with
    | (v, r) => onOk rv r fun c => (.iface (.map .any .any) v, .ok c)
  else if b = cd then
    match floatDecode W false buf c (.f64 0) with
    | (v, r) => onOk rv r fun c => (.iface .f64 v, .ok c)
  else if b = cs then
    onOk rv (readString buf (c + 1)) fun (s, e) => (.iface .str (.str s), .ok e)
  else if b = ci then
    match runInt .i64 (.int .i64) n buf c (.int 0) with
    | (v, r) => onOk rv r fun c => (.iface (.int .i64) v, .ok c)
  else if b = cb then
    onOk rv (readBool buf c) fun v => (.iface .bool (.bool v), .ok (c + 4))
  else if b = cN then
    onOk rv (validateNull buf c) fun _ => (.ifaceNil, .ok (c + 2))
  else (rv, .err (.beginValue b c))

/-- `interfaceDecoder.Decode` for an interface type `t` with methods, interface.go:136-148. Errors of the method are passed on as they are
(interface.go:118-120); one for which the model knows no names has none. -/
def runIface (W : World) (t : Ty) (n : Names) (buf : Bytes) (c depth : Nat) (rv : Val) : DR :=
  match (match rv with | .iface t v => if W.dynUnm t then some (t, v) else none | _ => none) with
  | some (dt, v) => match dynDecode W dt v buf c depth rv with | (rv, r) => (rv, r.mapErr (blame noNames none))
  | none =>
    onOk rv (idx buf c) fun b =>
    if b = cN then onOk rv (validateNull buf c) fun _ => (.ifaceNil, .ok (c + 2))
    else (rv, .err (.typeError "interface" c (some ⟨n, some t⟩)))

/-- The `DecodeString` methods, wrapped_string.go:78-136, of what is inside a `wrappedStringDecoder`. -/
def runString (W : World) (d : Dec) (s : Bytes) (c : Nat) (rv : Val) : Val × Res Nat :=
  match d with
  | .bool _ => match parseBool s with
    | some v => (.bool v, .ok c)
    | none => (rv, .err (.syntaxErr (.strconv "ParseBool" s) c))
  | .float is32 _ => processFloat W is32 s c rv
  | .uint k t _ => blamed noNames t (processUint k s c rv)
  | .int k t n => blamed n t (processInt k s c rv)
  | _ => (rv, .panic .reflectKind)   -- no other decoder is wrapped

/-- `wrappedStringDecoder.Decode`, wrapped_string.go:51-67. -/
def runWrapped (W : World) (d : Dec) (n : Names) (buf : Bytes) (c : Nat) (rv : Val) : DR :=
  onOk rv ((stringBytes buf c).mapErr (blame n (some .str))) fun (ob, e) =>
  match ob with
  | none => (rv, .ok e)
  | some s =>
    match runString W d s c rv with
    | (rv', r) => onOk rv' r fun _ => (rv', .ok e)

/-- `decodeKey`, struct.go:33-47. -/
def findField (o : StructObj) (buf : Bytes) (c : Nat) : Res (Option FieldObj × Nat) :=
  (stringBytes buf c).mapErr (blame o.names (some .str)) >>= fun (ob, c) =>
  .ok (o.fields.find? (fun s => decide (s.key = ob.getD [])), c)

/-- The entry loop of `structDecoder.Decode`, struct.go:105-146. -/
def runFields (fm : StructObj) (dec : Dec → Nat → Val → DR) (skip : Nat → Res Nat) (buf : Bytes) : Nat → Nat → List Val → DR
  | 0, _, vs => (.struct vs, .diverge)
  | f + 1, c, vs =>
    if !hasByte buf c then (.struct vs, .err (.unexpectedEnd "object" c)) else
    onOk (.struct vs) (findField fm buf c) fun (fld, c) =>
    if !hasByte buf c then (.struct vs, .err (.unexpectedEnd "object value" c)) else
    match (match fld with
      | some s => match vs[s.idx]? with
        | some v0 => match dec s.dec c v0 with | (v, r) => (vs.set s.idx v, r)
        | none => (vs, .panic .reflectKind)
      | none => (vs, skip c)) with
    | (vs, r) =>
      onOk (.struct vs) r fun c =>
      if !hasByte buf c then (.struct vs, .err (.unexpectedEnd "object" c)) else
      onOk (.struct vs) (idx buf c) fun b =>
      if b = cRBrace then (.struct vs, .ok (c + 1)) else
      runFields fm dec skip buf f c vs

/-- `structDecoder.Decode`, struct.go:49-147. -/
def runStruct (fm : StructObj) (dec : Dec → Nat → Nat → Val → DR) (buf : Bytes) (c depth : Nat) (rv : Val) : DR :=
  if !hasByte buf c then (rv, .err (.unexpectedEnd "object" c)) else
  let depth := depth + 1
  if depth > maxDepth then (rv, .err (.maxDepth (byteAt buf c) c)) else
  onOk rv (idx buf c) fun b =>
  if b = cN then onOk rv (validateNull buf c) fun _ => (rv, .ok (c + 2))
  else
    onOk rv (if b = cO then skipClassName buf c >>= fun e => .ok (e + 1)
      else if b = ca then .ok (c + 1)
      else .err (.beginValue b c)) fun c =>
    if !hasByte buf c then (rv, .err (.unexpectedEnd "object length" c)) else
    onOk rv (idx buf c) fun b =>
    if b ≠ cColon then (rv, .err (.beginValue b c)) else
    onOk rv (skipLengthWithBothColon buf c) fun c =>
    if !hasByte buf c then (rv, .err (.unexpectedEnd "object" c)) else
    onOk rv (idx buf c) fun b =>
    if b ≠ cLBrace then (rv, .err (.beginArray b c)) else
    let c := c + 1
    if !hasByte buf c then (rv, .err (.unexpectedEnd "object" c)) else
    onOk rv (idx buf c) fun b =>
    if b = cRBrace then (rv, .ok (c + 1)) else
    match rv with
    | .struct vs =>
      runFields fm (fun d c v => dec d c depth v) (fun c => skipValue buf c depth) buf (buf.length + 1) c vs
    | _ => (rv, .panic .reflectKind)

/-- The key decoder of a map on a new key, map.go:91-92. A decoder that `compileMapKey` took out of a pointer decoder is run on a pointer, see `ptrKeyDecode`. -/
def runKey (W : World) (anyDec : Names → Nat → Nat → DR) (buf : Bytes) (kt : Ty) (d : Dec) (c depth : Nat) : DR :=
  match d with
  | .unm id n => runUnm W id n buf c depth (W.zero kt)
  | .str n => if W.isPtr kt then ptrKeyDecode (runStr n buf c (.str [])) buf c else runStr n buf c (W.zero kt)
  | .bool _ => if W.isPtr kt then ptrKeyDecode (boolDecode buf c (.bool false)) buf c else boolDecode buf c (W.zero kt)
  | .int k t n => if W.isPtr kt then ptrKeyDecode (runInt .i64 t n buf c (.int 0)) buf c else runInt k t n buf c (W.zero kt)
  | .uint k t _ => if W.isPtr kt then ptrKeyDecode (runUint .u64 t buf c (.uint 0)) buf c else runUint k t buf c (W.zero kt)
  | .iface t n =>
    if W.isPtr kt then ptrKeyDecode (runAny W n (anyDec n) buf c depth .ifaceNil) buf c
    else match W.resolve t with
      | .any => runAny W n (anyDec n) buf c depth (W.zero kt)
      | _ => runIface W t n buf c depth (W.zero kt)
  | .invalid t n => blamed n t (invalidDecode c (W.zero kt))
  | _ => (W.zero kt, .panic .reflectKind)   -- `compileMapKey` returns no other decoder

/-- The decoder of a struct field, struct.go:127. What the `,string` option made of it calls no other `Decode`, so no fuel is spent on it. -/
def runField (W : World) (rec : Dec → Nat → Nat → Val → DR) (buf : Bytes) (d : Dec) (c depth : Nat) (rv : Val) : DR :=
  match d with
  | .wrapped i n => runWrapped W i n buf c rv
  | .ptr (.wrapped i n) t _ => ptrDecode (fun c _ v => runWrapped W i n buf c v) (W.zero t) buf c depth rv
  | d => rec d c depth rv

/-- `Decode` of an object other than a pointer decoder; the functions are those of Model/Decode where no type errors are built. -/
def runNonPtr (W : World) (H : List StructObj) (rec : Dec → Nat → Nat → Val → DR) (buf : Bytes) (d : Dec) (c depth : Nat) (rv : Val) : DR :=
  let anyDec := fun n c d => rec (.iface .any n) c d .ifaceNil
  match d with
  | .unm id n => runUnm W id n buf c depth rv
  | .bool _ => boolDecode buf c rv
  | .int k t n => runInt k t n buf c rv
  | .uint k t _ => runUint k t buf c rv
  | .float is32 _ => floatDecode W is32 buf c rv
  | .str n => runStr n buf c rv
  | .bytes e t n => runBytes (rec e) t (W.zero t) n buf c depth rv
  | .slice e t n => blamed n (.slice t) (sliceDecode (rec e) (W.zero t) (W.elemSize t) buf c depth rv)
  | .array e l t _ => arrayDecode (rec e) (W.zero t) l buf c depth rv
  | .map kt k vt v _ => mapDecode (runKey W anyDec buf kt k) (fun c d => rec v c d (W.zero vt)) buf c depth rv
  | .iface t n => match W.resolve t with
    | .any => runAny W n (anyDec n) buf c depth rv
    | _ => runIface W t n buf c depth rv
  | .wrapped d n => runWrapped W d n buf c rv
  | .struct a => match H[a]? with
    | some fm => runStruct fm (runField W rec buf) buf c depth rv
    | none => (rv, .panic .nilDeref)   -- no such object
  | .ptr _ _ _ => (rv, .panic .reflectKind)   -- there are no pointer decoders inside pointer decoders
  | .invalid t n => blamed n t (invalidDecode c rv)

/-- `Decode` of an object; fuel bounds the nesting of calls. -/
def runDec (W : World) (H : List StructObj) (buf : Bytes) : Nat → Dec → Nat → Nat → Val → DR
  | 0, _, _, _, rv => (rv, .diverge)
  | f + 1, d, c, depth, rv =>
    match d with
    | .ptr e t _ => ptrDecode (runNonPtr W H (runDec W H buf f) buf e) (W.zero t) buf c depth rv
    | d => runNonPtr W H (runDec W H buf f) buf d c depth rv

/-- `CompileToGetDecoder` for a type not seen before, compile.go:21-53: the decoder and the struct decoders it refers to. -/
def getDecoder (W : World) (fuel : Nat) (t : Ty) : Res (Dec × List StructObj) :=
  makeDec W fuel noNames { heap := [], busy := [] } t >>= fun (d, m) => .ok (d, m.heap)

/-- The rest of `unmarshal`, unmarshal.go:37-51, with the decoder `d` in hand: the variable afterwards and the outcome. -/
def decodeWith (W : World) (d : Dec) (H : List StructObj) (data : Bytes) (v : Val) : Val × Res Unit :=
  match runDec W H data (data.length + 1) d 0 0 v with
  | (v', r) => onOk v' r fun c => (v', validateEndBuf data c)

end Verif

import Verif.Model.Unmarshal
/-
The decoders of /repo/internal/decoder on a memory. Model/Decode.lean treats a destination as a tree; here a destination is a location in a
memory of variables, arrays and maps that refer to each other, as in Go, so that two pointers may lead to the same variable. The order of the
steps, the cursors and the errors are those of Model/Decode.lean; what differs is where values are read and written.
-/
namespace Verif

/-- Go values in memory. Structs and arrays are stored inline. `ptr o p` points to the part at path `p` of variable `o` (fields and elements
are addressable). `slice o off len` has the elements `off … off + len` of the array in variable `o`. `map o` is map object `o`. -/
inductive HV where
  | bool (b : Bool)
  | int (i : Int)
  | uint (n : Nat)
  | f32 (bits : UInt32)
  | f64 (bits : UInt64)
  | str (s : Bytes)
  | sliceNil
  | slice (o off len : Nat)
  | arr (es : List HV)
  | mapNil
  | map (o : Nat)
  | ptrNil
  | ptr (o : Nat) (p : List Nat)
  | struct (fs : List HV)
  | ifaceNil
  | iface (t : Ty) (v : HV)
  | other
deriving Repr

/-- An object in memory: a variable (the array behind a slice is one too) or a map. -/
inductive Cell where
  | var (v : HV)
  | map (es : List (HV × HV))
deriving Repr

/-- The memory of the program, by number of object. -/
abbrev Mem := List Cell

/-- An addressable place: the part of a variable at a path of field and element numbers, outermost first (reflect.Value.Field, Index). -/
structure Loc where
  obj : Nat
  path : List Nat

/-- Field or element `i` of a place. -/
def Loc.sub (l : Loc) (i : Nat) : Loc := { l with path := l.path ++ [i] }

/-- The part of a value at a path. -/
def HV.at : HV → List Nat → Option HV
  | v, [] => some v
  | .arr es, i :: p => match es[i]? with
    | some e => e.at p
    | none => none
  | .struct fs, i :: p => match fs[i]? with
    | some e => e.at p
    | none => none
  | _, _ :: _ => none

/-- The value with the part at a path replaced. -/
def HV.put : HV → List Nat → HV → HV
  | _, [], x => x
  | .arr es, i :: p, x => match es[i]? with
    | some e => .arr (es.set i (e.put p x))
    | none => .arr es
  | .struct fs, i :: p, x => match fs[i]? with
    | some e => .struct (fs.set i (e.put p x))
    | none => .struct fs
  | v, _ :: _, _ => v

/-- Load from a place. -/
def Mem.read (m : Mem) (l : Loc) : Option HV :=
  match m[l.obj]? with
  | some (.var v) => v.at l.path
  | _ => none

/-- Store to a place (reflect.Value.Set). -/
def Mem.write (m : Mem) (l : Loc) (x : HV) : Mem :=
  match m[l.obj]? with
  | some (.var v) => m.set l.obj (.var (v.put l.path x))
  | _ => m

/-- A new object; its number is the old number of objects. -/
def Mem.new (m : Mem) (o : Cell) : Mem := m ++ [o]

mutual
/-- A value without references as a value in memory. Used for scalars and for zero values, which have no references: the cases for
references are never met there. -/
def flat : Val → HV
  | .bool b => .bool b
  | .int i => .int i
  | .uint n => .uint n
  | .f32 x => .f32 x
  | .f64 x => .f64 x
  | .str s => .str s
  | .sliceNil => .sliceNil
  | .slice _ => .sliceNil
  | .arr es => .arr (flatList es)
  | .mapNil => .mapNil
  | .map _ => .mapNil
  | .ptrNil => .ptrNil
  | .ptr _ => .ptrNil
  | .struct fs => .struct (flatList fs)
  | .ifaceNil => .ifaceNil
  | .iface _ _ => .ifaceNil
  | .other => .other
  | .win _ _ _ => .sliceNil
/-- Element by element. -/
def flatList : List Val → List HV
  | [] => []
  | v :: vs => flat v :: flatList vs
end

mutual
/-- Go `==` on map keys, as `Val.goEq`; pointers are equal if they lead to the same place. -/
def HV.goEq : HV → HV → Bool
  | .bool a, .bool b => a == b
  | .int a, .int b => a == b
  | .uint a, .uint b => a == b
  | .f32 a, .f32 b => f32Eq a b
  | .f64 a, .f64 b => f64Eq a b
  | .str a, .str b => a == b
  | .arr a, .arr b => hvEqList a b
  | .struct a, .struct b => hvEqList a b
  | .ptrNil, .ptrNil => true
  | .ptr o p, .ptr o' p' => o == o' && p == p'
  | .ifaceNil, .ifaceNil => true
  | .iface t v, .iface t' v' => decide (t = t') && v.goEq v'
  | _, _ => false
/-- Element-wise `==` of arrays and structs. -/
def hvEqList : List HV → List HV → Bool
  | [], [] => true
  | a :: as, b :: bs => a.goEq b && hvEqList as bs
  | _, _ => false
end

mutual
/-- Hashing the value does not panic (Go specification, map types), as `Val.hashable`. -/
def HV.hashable : HV → Bool
  | .slice _ _ _ => false
  | .sliceNil => false
  | .map _ => false
  | .mapNil => false
  | .other => false
  | .arr es => hvHashableList es
  | .struct es => hvHashableList es
  | .iface _ v => v.hashable
  | _ => true
/-- All elements are hashable. -/
def hvHashableList : List HV → Bool
  | [] => true
  | a :: as => a.hashable && hvHashableList as
end

/-- reflect.Value.SetMapIndex (map.go:109) on the entries of a map object, as `mapInsert`. -/
def hvInsert (k v : HV) : List (HV × HV) → List (HV × HV)
  | [] => [(k, v)]
  | (k', v') :: es => if k'.goEq k then (k, v) :: es else (k', v') :: hvInsert k v es

/-- The methods of the program, as they act on memory. `fresh id s` is `UnmarshalPHP(s)` of declared type `id` on a new zero variable, followed by
loading that variable (unmarshal_php.go:83-90); `held t v s` is `UnmarshalPHP(s)` on the value `v` of dynamic type `t` held by an interface
(interface.go:118). -/
structure Methods where
  fresh : Nat → Bytes → Mem → Mem × Res HV
  held : Ty → HV → Bytes → Mem → Mem × Res Unit

/-- What a decoder leaves behind: the memory and the outcome (new cursor). -/
abbrev DM := Mem × Res Nat

/-- Statement sequencing with the memory left behind when the step fails (Go error/panic propagation). -/
def onOkM {α β : Type} (m : Mem) (r : Res α) (k : α → Mem × Res β) : Mem × Res β :=
  match r with
  | .ok a => k a
  | .err e => (m, .err e)
  | .panic p => (m, .panic p)
  | .diverge => (m, .diverge)

/-- The scalar decoders (bool.go:18-41, int.go:124-135, uint.go:52-63, float.go:39-50, string.go:31-42, wrapped_string.go:51-67) store a
scalar or leave the destination alone. `dec` is run on `Val.other`, which is no scalar, so that a value that comes back changed was stored. -/
def scalarAt (dec : Val → DR) (l : Loc) (m : Mem) : DM :=
  match dec .other with
  | (.other, r) => (m, r)
  | (v, r) => (m.write l (flat v), r)

/-- `ptrDecoder.Decode`, ptr.go:30-53. -/
def ptrAt (inner : Nat → Nat → Loc → Mem → DM) (zeroE : HV) (buf : Bytes) (c depth : Nat) (l : Loc) (m : Mem) : DM :=
  onOkM m (idx buf c) fun b =>
  if b = cN then onOkM m (validateNull buf c) fun _ => (m.write l .ptrNil, .ok (c + 2))
  else
    match m.read l with
    | some .ptrNil => inner c depth ⟨m.length, []⟩ ((m.new (.var zeroE)).write l (.ptr m.length []))
    | some (.ptr o p) => inner c depth ⟨o, p⟩ m
    | _ => (m, .panic .reflectKind)

/-- The element loop of `sliceDecoder.Decode`, slice.go:107-142. The local variable `slice` is all of the array `o`; room beyond its length is
left out, as it is never used. -/
def sliceLoopAt (dec : Nat → Loc → Mem → DM) (zeroE : HV) (esize : Nat) (buf : Bytes) : Nat → Nat → Nat → Loc → Mem → DM
  | 0, _, _, _, m => (m, .diverge)
  | f + 1, c, o, l, m =>
    if !hasByte buf c then (m, .err (.unexpectedEnd "array" c)) else
    onOkM m (readInt buf c) fun (i, c) =>
    if !hasByte buf c then (m, .err (.unexpectedEnd "array value" c)) else
    match m.read ⟨o, []⟩ with
    | some (.arr es) =>
      let grow := decide (i ≥ es.length)
      if grow && !makeSliceOk esize (wrap64 (i + 1)) then (m, .panic .makeSlice) else
      let o' := if grow then m.length else o
      let n := if grow then i + 1 else es.length
      let m := if grow then m.new (.var (.arr (es ++ List.replicate (i + 1 - es.length) zeroE))) else m
      match dec c ⟨o', [i]⟩ m with
      | (m, r) =>
        onOkM m r fun c =>
        let m := m.write l (.slice o' 0 n)
        if !hasByte buf c then (m, .err (.unexpectedEnd "array" c)) else
        onOkM m (idx buf c) fun b =>
        if b = cRBrace then (m, .ok (c + 1)) else
        sliceLoopAt dec zeroE esize buf f c o' l m
    | _ => (m, .panic .reflectKind)

/-- `sliceDecoder.Decode`, slice.go:51-148. -/
def sliceAt (dec : Nat → Nat → Loc → Mem → DM) (zeroE : HV) (esize : Nat) (buf : Bytes) (c depth : Nat) (l : Loc) (m : Mem) : DM :=
  if !hasByte buf c then (m, .err (.unexpectedEnd "slice" c)) else
  let depth := depth + 1
  if depth > maxDepth then (m, .err (.maxDepth (byteAt buf c) c)) else
  onOkM m (idx buf c) fun b =>
  if b = cN then onOkM m (validateNull buf c) fun _ => (m.write l .sliceNil, .ok (c + 2))
  else if b = ca then
    let c := c + 1
    if !hasByte buf c then (m, .err (.unexpectedEnd "array length" c)) else
    onOkM m (idx buf c) fun b =>
    if b ≠ cColon then (m, .err (.unexpected "':' before array length" c b)) else
    let c := c + 1
    if !hasByte buf c then (m, .err (.unexpectedEnd "array length" c)) else
    onOkM m (idx buf c) fun b =>
    if b = c0 then onOkM m (validateEmptyArray buf c) fun _ => (m.write l .sliceNil, .ok (c + 4))
    else
      onOkM m (readLengthInt buf (c - 1)) fun (arrLen, c) =>
      if !hasByte buf c then (m, .err (.unexpectedEnd "array" c)) else
      onOkM m (idx buf c) fun b =>
      if b ≠ cLBrace then (m, .err (.beginArray b c)) else
      if !makeSliceOk esize arrLen then (m, .panic .makeSlice) else
      sliceLoopAt (fun c l => dec c depth l) zeroE esize buf (buf.length + 1) (c + 1) m.length l (m.new (.var (.arr [])))
  else if b = cMinus ∨ isDigit b then (m, .err (.typeError "number" c))
  else (m, .err (.unexpectedEnd "slice" c))

/-- `bytesDecoder.Decode` and `decodeBinary`, bytes.go:38-67. The bytes are a part of the copy of the input (context.go:275-287), which is
array `inp`. -/
def bytesAt (inp : Nat) (dec : Nat → Nat → Loc → Mem → DM) (zeroE : HV) (buf : Bytes) (c depth : Nat) (l : Loc) (m : Mem) : DM :=
  onOkM m (idx buf c) fun b =>
  if b = ca then sliceAt dec zeroE 1 buf c depth l m
  else
    onOkM m (stringBytes buf c) fun (ob, c) =>
    match ob with
    | none => (m, .ok c)
    | some s => (m.write l (.slice inp (c - 2 - s.length) s.length), .ok c)

/-- The element loop of `arrayDecoder.Decode`, array.go:82-123; `n` is the array length. -/
def arrayLoopAt (dec : Nat → Loc → Mem → DM) (skip : Nat → Res Nat) (n : Nat) (buf : Bytes) : Nat → Nat → Loc → Mem → DM
  | 0, _, _, m => (m, .diverge)
  | f + 1, c, l, m =>
    if !hasByte buf c then (m, .err (.unexpectedEnd "array" c)) else
    onOkM m (readInt buf c) fun (i, c) =>
    if !hasByte buf c then (m, .err (.unexpectedEnd "array value" c)) else
    match (if i < n then dec c (l.sub i) m else (m, skip c)) with
    | (m, r) =>
      onOkM m r fun c =>
      if !hasByte buf c then (m, .err (.unexpectedEnd "array" c)) else
      onOkM m (idx buf c) fun b =>
      if b = cRBrace then (m, .ok (c + 1)) else
      arrayLoopAt dec skip n buf f c l m

/-- `arrayDecoder.Decode`, array.go:32-127. -/
def arrayAt (dec : Nat → Nat → Loc → Mem → DM) (zeroE : HV) (n : Nat) (buf : Bytes) (c depth : Nat) (l : Loc) (m : Mem) : DM :=
  if !hasByte buf c then (m, .err (.unexpectedEnd "array" c)) else
  let depth := depth + 1
  if depth > maxDepth then (m, .err (.maxDepth (byteAt buf c) c)) else
  onOkM m (idx buf c) fun b =>
  if b = cN then onOkM m (validateNull buf c) fun _ => (m, .ok (c + 2))
  else if b = ca then
    let c := c + 1
    if !hasByte buf c then (m, .err (.unexpectedEnd "array length" c)) else
    onOkM m (idx buf c) fun b =>
    if b ≠ cColon then (m, .err (.unexpected "':' before array length" c b)) else
    let m := m.write l (.arr (List.replicate n zeroE))
    let c := c + 1
    if !hasByte buf c then (m, .err (.unexpectedEnd "array length" c)) else
    onOkM m (idx buf c) fun b =>
    if b = c0 then onOkM m (validateEmptyArray buf c) fun _ => (m, .ok (c + 4))
    else
      onOkM m (readLengthInt buf (c - 1)) fun (_, c) =>
      if !hasByte buf c then (m, .err (.unexpectedEnd "array" c)) else
      onOkM m (idx buf c) fun b =>
      if b ≠ cLBrace then (m, .err (.beginArray b c)) else
      arrayLoopAt (fun c l => dec c depth l) (fun c => skipValue buf c depth) n buf (buf.length + 1) (c + 1) l m
  else (m, .err (.unexpectedEnd "array" c))

/-- The entry loop of `mapDecoder.Decode`, map.go:87-118: key and value are decoded into new variables (lines 91, 101), then entered into the map
that the destination holds. -/
def mapLoopAt (keyDec valDec : Nat → Loc → Mem → DM) (zeroK zeroV : HV) (buf : Bytes) : Nat → Nat → Loc → Mem → DM
  | 0, _, _, m => (m, .diverge)
  | f + 1, c, l, m =>
    if !hasByte buf c then (m, .err (.unexpectedEnd "map" c)) else
    let kl : Loc := ⟨m.length, []⟩
    match keyDec c kl (m.new (.var zeroK)) with
    | (m, r) =>
      onOkM m r fun c =>
      if !hasByte buf c then (m, .err (.unexpectedEnd "map value" c)) else
      let vl : Loc := ⟨m.length, []⟩
      match valDec c vl (m.new (.var zeroV)) with
      | (m, r) =>
        onOkM m r fun c =>
        match m.read kl, m.read vl, m.read l with
        | some k, some v, some (.map o) =>
          if !k.hashable then (m, .panic .unhashable) else
          match m[o]? with
          | some (.map es) =>
            let m := m.set o (.map (hvInsert k v es))
            if !hasByte buf c then (m, .err (.unexpectedEnd "map" c)) else
            onOkM m (idx buf c) fun b =>
            if b = cRBrace then (m, .ok (c + 1)) else
            mapLoopAt keyDec valDec zeroK zeroV buf f c l m
          | _ => (m, .panic .reflectKind)
        | _, _, _ => (m, .panic .reflectKind)

/-- `mapDecoder.Decode`, map.go:31-119. -/
def mapAt (keyDec valDec : Nat → Nat → Loc → Mem → DM) (zeroK zeroV : HV) (buf : Bytes) (c depth : Nat) (l : Loc) (m : Mem) : DM :=
  if !hasByte buf c then (m, .err (.unexpectedEnd "map" c)) else
  let depth := depth + 1
  if depth > maxDepth then (m, .err (.maxDepth (byteAt buf c) c)) else
  onOkM m (idx buf c) fun b =>
  if b = cN then onOkM m (validateNull buf c) fun _ => (m.write l .mapNil, .ok (c + 2))
  else
    onOkM m (if b = cO then skipClassName buf c >>= fun e => .ok (e + 1)
      else if b = ca then .ok (c + 1)
      else .err (.unexpectedStart "map" c b)) fun c =>
    onOkM m (readLength buf c) fun (_, c) =>
    if !hasByte buf c then (m, .err (.unexpectedEnd "map" c)) else
    onOkM m (idx buf c) fun b =>
    if b ≠ cLBrace then (m, .err (.unexpected "{ character for map value" c b)) else
    match (match m.read l with
      | some .mapNil => some ((m.new (.map [])).write l (.map m.length))
      | some (.map _) => some m
      | _ => none) with
    | none => (m, .panic .reflectKind)
    | some m =>
      let c := c + 1
      if !hasByte buf c then (m, .err (.unexpectedEnd "map" c)) else
      onOkM m (idx buf c) fun b =>
      if b = cRBrace then (m, .ok (c + 1)) else
      mapLoopAt (fun c => keyDec c depth) (fun c => valDec c depth) zeroK zeroV buf (buf.length + 1) c l m

/-- Decode into a new local variable and store what it holds in the interface at `l` (the cases of interface.go:176-239 and 250-271). -/
def viaLocal (t : Ty) (zero : HV) (dec : Loc → Mem → DM) (l : Loc) (m : Mem) : DM :=
  let vl : Loc := ⟨m.length, []⟩
  match dec vl (m.new (.var zero)) with
  | (m, r) => onOkM m r fun c => match m.read vl with
    | some v => (m.write l (.iface t v), .ok c)
    | none => (m, .panic .reflectKind)

/-- `mapKeyDecoder.Decode`, interface.go:247-273. -/
def anyKeyAt (buf : Bytes) (c : Nat) (l : Loc) (m : Mem) : DM :=
  onOkM m (idx buf c) fun b =>
  if b = cs then viaLocal .str (.str []) (scalarAt (stringDecode buf c)) l m
  else if b = ci then viaLocal (.int .i64) (.int 0) (scalarAt (intDecode .i64 buf c)) l m
  else (m, .err (.unexpected "array key" c b))

/-- `interfaceDecoder.decodeEmptyInterface`, interface.go:173-240. -/
def anyAt (W : World) (anyDec : Nat → Nat → Loc → Mem → DM) (buf : Bytes) (c depth : Nat) (l : Loc) (m : Mem) : DM :=
  onOkM m (idx buf c) fun b =>
  if b = cO then
    viaLocal (.map .str .any) .mapNil (mapAt (fun c _ => scalarAt (stringDecode buf c)) anyDec (.str []) .ifaceNil buf c depth) l m
  else if b = ca then
    viaLocal (.map .any .any) .mapNil (mapAt (fun c _ => anyKeyAt buf c) anyDec .ifaceNil .ifaceNil buf c depth) l m
  else if b = cd then viaLocal .f64 (.f64 0) (scalarAt (floatDecode W false buf c)) l m
  else if b = cs then
    onOkM m (readString buf (c + 1)) fun (s, e) => (m.write l (.iface .str (.str s)), .ok e)
  else if b = ci then viaLocal (.int .i64) (.int 0) (scalarAt (intDecode .i64 buf c)) l m
  else if b = cb then
    onOkM m (readBool buf c) fun v => (m.write l (.iface .bool (.bool v)), .ok (c + 4))
  else if b = cN then
    onOkM m (validateNull buf c) fun _ => (m.write l .ifaceNil, .ok (c + 2))
  else (m, .err (.beginValue b c))

/-- `decodePHPUnmarshaler`, interface.go:104-122, for an interface holding value `v` of dynamic type `t`. -/
def dynAt (W : World) (U : Methods) (t : Ty) (v : HV) (buf : Bytes) (c depth : Nat) (l : Loc) (m : Mem) : DM :=
  onOkM m (skipValue buf c depth) fun e =>
  onOkM m (sub buf c e) fun src =>
  if src = [cN, cSemi] then (m.write l .ifaceNil, .ok e) else
  onOkM m (unquoteBytes src) fun o =>
  let src := o.getD src
  match U.held t v src m with
  | (m, r) => onOkM m r fun _ => (m, .ok e)

/-- `interfaceDecoder.Decode` for an interface type with methods, interface.go:136-148. -/
def ifaceAt (W : World) (U : Methods) (buf : Bytes) (c depth : Nat) (l : Loc) (m : Mem) : DM :=
  match (match m.read l with | some (.iface t v) => if W.dynUnm t then some (t, v) else none | _ => none) with
  | some (t, v) => dynAt W U t v buf c depth l m
  | none =>
    onOkM m (idx buf c) fun b =>
    if b = cN then onOkM m (validateNull buf c) fun _ => (m.write l .ifaceNil, .ok (c + 2))
    else (m, .err (.typeError "interface" c))

/-- `unmarshalPHPDecoder.Decode`, unmarshal_php.go:45-95, for declared type `id`. -/
def unmarshalerAt (W : World) (U : Methods) (id : Nat) (buf : Bytes) (c depth : Nat) (l : Loc) (m : Mem) : DM :=
  onOkM m (skipValue buf c depth) fun e =>
  onOkM m (sub buf c e) fun src =>
  if src.head? = some 91 then (m, .err (.typeError "array" c)) else
  if src.head? = some cLBrace then (m, .err (.typeError "object" c)) else
  if src.head? = some cMinus ∨ (src.head?.any isDigit) = true then (m, .err (.typeError "number" c)) else
  if src = [cN, cSemi] then (m.write l (flat (W.namedZero id)), .ok e) else
  onOkM m (unquoteBytes src) fun o =>
  let src := o.getD src
  match U.fresh id src m with
  | (m, r) => onOkM m (r.mapErr (annotate c)) fun v => (m.write l v, .ok e)

/-- The entry loop of `structDecoder.Decode`, struct.go:105-146. -/
def structLoopAt (sets : List FieldSet) (dec : FieldSet → Nat → Loc → Mem → DM) (skip : Nat → Res Nat) (buf : Bytes) : Nat → Nat → Loc → Mem → DM
  | 0, _, _, m => (m, .diverge)
  | f + 1, c, l, m =>
    if !hasByte buf c then (m, .err (.unexpectedEnd "object" c)) else
    onOkM m (decodeKey sets buf c) fun (fld, c) =>
    if !hasByte buf c then (m, .err (.unexpectedEnd "object value" c)) else
    match (match fld with
      | some s => match m.read (l.sub s.idx) with
        | some _ => dec s c (l.sub s.idx) m
        | none => (m, .panic .reflectKind)
      | none => (m, skip c)) with
    | (m, r) =>
      onOkM m r fun c =>
      if !hasByte buf c then (m, .err (.unexpectedEnd "object" c)) else
      onOkM m (idx buf c) fun b =>
      if b = cRBrace then (m, .ok (c + 1)) else
      structLoopAt sets dec skip buf f c l m

/-- `structDecoder.Decode`, struct.go:49-147. -/
def structAt (sets : List FieldSet) (dec : FieldSet → Nat → Nat → Loc → Mem → DM) (buf : Bytes) (c depth : Nat) (l : Loc) (m : Mem) : DM :=
  if !hasByte buf c then (m, .err (.unexpectedEnd "object" c)) else
  let depth := depth + 1
  if depth > maxDepth then (m, .err (.maxDepth (byteAt buf c) c)) else
  onOkM m (idx buf c) fun b =>
  if b = cN then onOkM m (validateNull buf c) fun _ => (m, .ok (c + 2))
  else
    onOkM m (if b = cO then skipClassName buf c >>= fun e => .ok (e + 1)
      else if b = ca then .ok (c + 1)
      else .err (.beginValue b c)) fun c =>
    if !hasByte buf c then (m, .err (.unexpectedEnd "object length" c)) else
    onOkM m (idx buf c) fun b =>
    if b ≠ cColon then (m, .err (.beginValue b c)) else
    onOkM m (skipLengthWithBothColon buf c) fun c =>
    if !hasByte buf c then (m, .err (.unexpectedEnd "object" c)) else
    onOkM m (idx buf c) fun b =>
    if b ≠ cLBrace then (m, .err (.beginArray b c)) else
    let c := c + 1
    if !hasByte buf c then (m, .err (.unexpectedEnd "object" c)) else
    onOkM m (idx buf c) fun b =>
    if b = cRBrace then (m, .ok (c + 1)) else
    match m.read l with
    | some (.struct _) => structLoopAt sets (fun s c l => dec s c depth l) (fun c => skipValue buf c depth) buf (buf.length + 1) c l m
    | _ => (m, .panic .reflectKind)

/-- `invalidDecoder.Decode`, invalid.go:25-33. -/
def invalidAt (c : Nat) (m : Mem) : DM := (m, .err (.typeError "object" c))

/-- A scalar or interface decoder applied to a map key of pointer kind, as `ptrKeyDecode`; `scratch` is the memory and outcome of the inner
decoder on a value of the right kind. The key is the nil pointer it is when new. -/
def ptrKeyAt (scratch : DM) (buf : Bytes) (c : Nat) (m : Mem) : DM :=
  onOkM m (idx buf c) fun b =>
  if b = cN then onOkM m (validateNull buf c) fun _ => (m, .ok (c + 2))
  else onOkM scratch.1 scratch.2 fun _ => (scratch.1, .panic .reflectKind)

/-- Key decoders chosen by `compileMapKey`, compile.go:132-156, applied to the new key variable at `l`. -/
def mapKeyAt (W : World) (U : Methods) (anyDec : Nat → Nat → Loc → Mem → DM) (buf : Bytes) (k : Ty) (c depth : Nat) (l : Loc) (m : Mem) : DM :=
  match W.unmOf k with
  | some id => unmarshalerAt W U id buf c depth l m
  | none => match W.resolve k with
    | .str => scalarAt (stringDecode buf c) l m
    | .bool => scalarAt (boolDecode buf c) l m
    | .int kd => scalarAt (intDecode kd buf c) l m
    | .uint kd => scalarAt (uintDecode kd buf c) l m
    | .any => anyAt W anyDec buf c depth l m
    | .iface _ => ifaceAt W U buf c depth l m
    | .ptr e => match W.unmOf e with
      | some _ => invalidAt c m
      | none => match W.resolve e with
        | .str => ptrKeyAt (m, (stringDecode buf c (.str [])).2) buf c m
        | .bool => ptrKeyAt (m, (boolDecode buf c (.bool false)).2) buf c m
        | .int _ => ptrKeyAt (m, (intDecode .i64 buf c (.int 0)).2) buf c m
        | .uint _ => ptrKeyAt (m, (uintDecode .u64 buf c (.uint 0)).2) buf c m
        | .any | .iface _ => ptrKeyAt (anyAt W anyDec buf c depth ⟨m.length, []⟩ (m.new (.var .ifaceNil))) buf c m
        | _ => invalidAt c m
    | _ => invalidAt c m

/-- The decoder of a struct field, compile.go:290-295 and wrapped_string.go:23-49, as `fieldDecode`. -/
def fieldAt (W : World) (rec : Ty → Nat → Nat → Loc → Mem → DM) (buf : Bytes) (s : FieldSet) (c depth : Nat) (l : Loc) (m : Mem) : DM :=
  if s.str then
    match W.resolve s.ty with
    | .ptr e =>
      if wrappable W e then ptrAt (fun c _ => scalarAt (wrappedDecode W e buf c)) (flat (W.zero e)) buf c depth l m
      else (m, .err (.unsupported "string option"))
    | _ =>
      if wrappable W s.ty then scalarAt (wrappedDecode W s.ty buf c) l m
      else (m, .err (.unsupported "string option"))
  else rec s.ty c depth l m

/-- The decoder chosen by `compile`, compile.go:55-110, for a type that is not a pointer, as `decodeNonPtr`. -/
def nonPtrAt (W : World) (U : Methods) (inp : Nat) (rec : Ty → Nat → Nat → Loc → Mem → DM) (buf : Bytes) (t : Ty) (c depth : Nat) (l : Loc) (m : Mem) : DM :=
  match W.unmOf t with
  | some id => unmarshalerAt W U id buf c depth l m
  | none => match W.resolve t with
    | .bool => scalarAt (boolDecode buf c) l m
    | .int k => scalarAt (intDecode k buf c) l m
    | .uint k => scalarAt (uintDecode k buf c) l m
    | .f32 => scalarAt (floatDecode W true buf c) l m
    | .f64 => scalarAt (floatDecode W false buf c) l m
    | .str => scalarAt (stringDecode buf c) l m
    | .slice e =>
      if W.isByte e then bytesAt inp (rec e) (flat (W.zero e)) buf c depth l m
      else sliceAt (rec e) (flat (W.zero e)) (W.elemSize e) buf c depth l m
    | .array n e => arrayAt (rec e) (flat (W.zero e)) n buf c depth l m
    | .map k v => mapAt (mapKeyAt W U (rec .any) buf k) (rec v) (flat (W.zero k)) (flat (W.zero v)) buf c depth l m
    | .struct id => structAt (fieldSets W 0 (W.fields id)) (fieldAt W rec buf) buf c depth l m
    | .any => anyAt W (rec .any) buf c depth l m
    | .iface _ => ifaceAt W U buf c depth l m
    | .other => invalidAt c m
    | .ptr _ => (m, .err (.unsupported "pointer to pointer"))
    | .named _ => (m, .err (.unsupported "declared type"))

/-- `Decoder.Decode` of the decoder that `compile` (compile.go:55-110) builds for type `t`, on the place `l`; `inp` is the array with the copy of
the input, fuel bounds the nesting of calls. -/
def decodeMem (W : World) (U : Methods) (inp : Nat) (buf : Bytes) : Nat → Ty → Nat → Nat → Loc → Mem → DM
  | 0, _, _, _, _, m => (m, .diverge)
  | f + 1, t, c, depth, l, m =>
    match W.unmOf t, W.resolve t with
    | none, .ptr e =>
      if W.isPtr e then (m, .err (.unsupported "pointer to pointer"))
      else ptrAt (nonPtrAt W U inp (decodeMem W U inp buf f) buf e) (flat (W.zero e)) buf c depth l m
    | _, _ => nonPtrAt W U inp (decodeMem W U inp buf f) buf t c depth l m

/-- `Unmarshal` and `unmarshal` for a pointer to the place `l` of type `t`, unmarshal.go:21-52: the input is copied (lines 37-38), then decoded. -/
def unmarshalMem (W : World) (U : Methods) (fuel : Nat) (data : Bytes) (t : Ty) (l : Loc) (m : Mem) : Mem × Res Unit :=
  if data.length = 0 then (m, .err .emptyInput)
  else
    onOkM m (compileD W fuel [] t) fun _ =>
    match decodeMem W U m.length data (data.length + 1) t 0 0 l (m.new (.var (.arr (data.map fun c => .uint c.toNat)))) with
    | (m, r) => onOkM m r fun c => (m, validateEndBuf data c)

end Verif

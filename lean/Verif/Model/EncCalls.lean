import Verif.Model.Encode
/-
The encoder with the calls of `MarshalPHP` methods that it makes. In Model/Encode.lean a method is a function of the value. Here it may keep state: what it returns may
depend on every call that was made before, in this encoding or an earlier one. The functions are those of Model/Encode.lean, line by line, with the list of calls kept
beside the context. Methods do not call the library themselves and do not change the value that is being encoded.
-/
namespace Verif

/-- A call of a `MarshalPHP` method by the encoder (marshal_php.go:15): the type and value it is called on; for a variable of an interface type, those it holds. -/
abbrev MarCall := Ty × GV

/-- Calls, the earliest first. -/
abbrev MarCalls := List MarCall

/-- `MarshalPHP` methods that keep state: what they return may depend on the earlier calls. For the rest as `Heap.marshal`. -/
abbrev MarHooks := MarCalls → Ty → GV → Res Bytes

/-- The context, context.go:20-25, and the calls made so far. -/
structure CtxH extends Ctx where
  calls : MarCalls

/-- `ER`, with the calls. -/
abbrev EHR (α : Type) := CtxH × Res α

/-- `andThen`, with the calls. -/
def andThenH {α β : Type} (r : EHR α) (k : CtxH → α → EHR β) : EHR β :=
  match r with
  | (c, .ok a) => k c a
  | (c, .err e) => (c, .err e)
  | (c, .panic p) => (c, .panic p)
  | (c, .diverge) => (c, .diverge)

/-- `deRefNilEncoder`, ptr.go:42-50. -/
def deRefNilH (h : Heap) (e : Ty) (enc : CtxH → Bytes → GV → EHR Bytes) (c : CtxH) (b : Bytes) : GV → EHR Bytes
  | .ptrNil => (c, .ok (appendNull b))
  | .ptr a => enc c b (h.deref e a)
  | _ => (c, .panic .reflectKind)

/-- The common part of `checkStructRecursiveEncoder`, ptr.go:58-77, and `checkRecursiveEncoder`, ptr.go:86-105. -/
def checkRecursiveH (enc : CtxH → Bytes → EHR Bytes) (addr : Nat) (c : CtxH) (b : Bytes) : EHR Bytes :=
  let depth := c.depth + 1
  let tracked := decide (depth > 1000)
  if tracked && c.seen.contains addr then ({ c with depth := depth - 1 }, .err .recursive)
  else
    match enc { c with seen := if tracked then addr :: c.seen else c.seen, depth := depth } b with
    | (c', .ok b) => ({ c' with seen := if tracked then c'.seen.filter (· ≠ addr) else c'.seen, depth := c'.depth - 1 }, .ok b)
    | (c', .err e) => ({ c' with seen := if tracked then c'.seen.filter (· ≠ addr) else c'.seen, depth := c'.depth - 1 }, .err e)
    | (c', r) => (c', r)

/-- `checkStructRecursiveEncoder`, ptr.go:52-78. -/
def checkStructH (h : Heap) (e : Ty) (enc : CtxH → Bytes → GV → EHR Bytes) (c : CtxH) (b : Bytes) : GV → EHR Bytes
  | .ptrNil => (c, .ok (appendNull b))
  | .ptr a => checkRecursiveH (fun c b => enc c b (h.deref e a)) a c b
  | _ => (c, .panic .reflectKind)

/-- `reflectRecursiveValue`, interface.go:58-67. -/
def reflectRecursiveH (enc : CtxH → Bytes → EHR Bytes) (addr : Nat) (c : CtxH) (b : Bytes) : EHR Bytes :=
  if c.seen.contains addr then (c, .err .recursive)
  else
    match enc { c with seen := addr :: c.seen } b with
    | (c', .ok b) => ({ c' with seen := c'.seen.filter (· ≠ addr) }, .ok b)
    | (c', .err e) => ({ c' with seen := c'.seen.filter (· ≠ addr) }, .err e)
    | (c', r) => (c', r)

/-- The element loops of slice.go:25-31, array.go:29-35 and slice_reflect.go:27-33. -/
def elemsLoopH (enc : Nat → CtxH → Bytes → GV → EHR Bytes) : Nat → List GV → CtxH → Bytes → EHR Bytes
  | _, [], c, b => (c, .ok b)
  | i, v :: vs, c, b => andThenH (enc i c (appendIntBytes b i) v) fun c b => elemsLoopH enc (i + 1) vs c b

/-- Header, elements and closing brace: slice.go:21-32, array.go:27-37, slice_reflect.go:24-35. -/
def encodeElemsH (enc : Nat → CtxH → Bytes → GV → EHR Bytes) (vs : List GV) (c : CtxH) (b : Bytes) : EHR Bytes :=
  andThenH (elemsLoopH enc 0 vs c (appendArrayBegin b vs.length)) fun c b => (c, .ok (b ++ [cRBrace]))

/-- The entry loops of map.go:47-59, map_reflect.go:64-76 and 112-124. -/
def entriesLoopH (key : Bytes → GV → Res Bytes) (enc : Nat → CtxH → Bytes → GV → EHR Bytes) : Nat → List (GV × GV) → CtxH → Bytes → EHR Bytes
  | _, [], c, b => (c, .ok b)
  | i, (k, v) :: es, c, b =>
    andThenH (c, key b k) fun c b => andThenH (enc i c b v) fun c b => entriesLoopH key enc (i + 1) es c b

/-- Header, entries and closing brace: map.go:38-61, map_reflect.go:48-78 and 87-126. -/
def encodeEntriesH (key : Bytes → GV → Res Bytes) (enc : Nat → CtxH → Bytes → GV → EHR Bytes) (es : List (GV × GV)) (c : CtxH) (b : Bytes) : EHR Bytes :=
  andThenH (entriesLoopH key enc 0 es c (appendArrayBegin b es.length)) fun c b => (c, .ok (b ++ [cRBrace]))

/-- One field of a struct after its name has been written, struct.go:87-96 with the choice of encoder at 120-153. -/
def encodeFieldH (W : World) (h : Heap) (f : Nat) (rec : Ty → CtxH → Bytes → GV → EHR Bytes) (fl : EField) (c : CtxH) (b : Bytes) (v : GV) : EHR Bytes :=
  match W.resolve fl.ty with
  | .ptr e =>
    if !fl.str && W.isStruct e then checkStructH h e (rec e) c b v
    else deRefNilH h e (if fl.str then fun c b v => (c, encodeAsString W h f e b v) else rec e) c b v
  | _ => if fl.str then (c, encodeAsString W h f fl.ty b v) else rec fl.ty c b v

/-- The field loop of `compileStructFields`, struct.go:73-100. -/
def fieldsLoopH (enc : EField → CtxH → Bytes → GV → EHR Bytes) (vs : List GV) : List EField → CtxH → Bytes → Nat → EHR (Bytes × Nat)
  | [], c, sb, n => (c, .ok (sb, n))
  | fl :: fls, c, sb, n =>
    match vs[fl.idx]? with
    | none => (c, .panic .reflectKind)
    | some v =>
      if fl.omitEmpty && v.isZero then fieldsLoopH enc vs fls c sb n
      else andThenH (enc fl c (appendString sb fl.name) v) fun c sb => fieldsLoopH enc vs fls c sb (n + 1)

/-- The encoder built by `compileStructFields`, struct.go:63-107. -/
def encodeStructH (enc : EField → CtxH → Bytes → GV → EHR Bytes) (nf : Nat) (fls : List EField) (c : CtxH) (b : Bytes) : GV → EHR Bytes
  | .struct vs => if vs.length ≠ nf then (c, .panic .reflectKind) else andThenH (fieldsLoopH enc vs fls c [] 0) fun c (sb, n) => (c, .ok (appendArrayBegin b n ++ sb ++ [cRBrace]))
  | _ => (c, .panic .reflectKind)

/-- The recursive calls an encoder makes, as `Rec`: the encoders returned by `compile` (compile.go:14-51) and `reflectInterfaceValue` (interface.go:16-56). -/
structure RecH where
  comp : Path → Ty → CtxH → Bytes → GV → EHR Bytes
  held : Path → Ty → CtxH → Bytes → GV → EHR Bytes

/-- `reflectSlice` and `reflectConcreteSlice`, slice_reflect.go:7-45. -/
def reflectSliceH (W : World) (h : Heap) (cf : Nat) (r : RecH) (p : Path) (t e : Ty) (v : GV) (c : CtxH) (b : Bytes) : EHR Bytes :=
  if !W.isIface e then andThenH (c, compileE W cf [] t) fun c _ => r.comp p t c b v
  else match v with
    | .sliceNil => (c, .ok (appendNull b))
    | .slice a n => encodeElemsH (fun i => r.held (i :: p) e) (h.elems e a n) c b
    | _ => (c, .panic .reflectKind)

/-- `reflectMap` and `reflectConcreteMap`, map_reflect.go:22-128. -/
def reflectMapH (W : World) (h : Heap) (cf : Nat) (r : RecH) (p : Path) (k e : Ty) (v : GV) (c : CtxH) (b : Bytes) : EHR Bytes :=
  if !W.mapKeyOk k then (c, .err (.unsupported "map key"))
  else match v with
    | .mapNil => (c, .ok (appendNull b))
    | .map a =>
      let es := h.iter k e p a
      if es.isEmpty then (c, .ok (appendEmptyArray b))
      else if W.isIface e then encodeEntriesH (keyText W k) (fun i => r.held (i :: p) e) es c b
      else andThenH (c, compileE W cf [] e) fun c _ => encodeEntriesH (keyText W k) (fun i => r.comp (i :: p) e) es c b
    | _ => (c, .panic .reflectKind)

/-- `reflectInterfaceValue`, interface.go:16-56. -/
def reflectValueH (W : World) (h : Heap) (cf f : Nat) (r : RecH) (p : Path) (t : Ty) (c : CtxH) (b : Bytes) (v : GV) : EHR Bytes :=
  andThenH (c, derefAll W h f t v) fun c o =>
  match o with
  | none => (c, .ok (appendNull b))
  | some (t, v) =>
    match encodeScalar W t b v with
    | some r => (c, r)
    | none =>
      match W.resolve t with
      | .slice e => reflectRecursiveH (reflectSliceH W h cf r p t e v) v.addr c b
      | .map k e => reflectRecursiveH (reflectMapH W h cf r p k e v) v.addr c b
      | .struct _ => andThenH (c, compileE W cf [] t) fun c _ => r.comp p t c b v
      | _ => (c, .err (.unsupported "interface value"))

/-- The encoders built by `compile` for kinds other than pointers, compile.go:23-45, with array.go:26-38, slice.go:19-35 and map.go:37-64. -/
def encodeKindH (W : World) (h : Heap) (f : Nat) (r : RecH) (p : Path) (t : Ty) (c : CtxH) (b : Bytes) (v : GV) : EHR Bytes :=
  match encodeScalar W t b v with
  | some r => (c, r)
  | none =>
    match W.resolve t with
    | .struct id => encodeStructH (fun fl => encodeFieldH W h f (r.comp (fl.idx :: p)) fl) (W.fields id).length (efields W 0 (W.fields id)) c b v
    | .array n e => match v with
      | .arr vs => if vs.length = n then encodeElemsH (fun i => r.comp (i :: p) e) vs c b else (c, .panic .reflectKind)
      | _ => (c, .panic .reflectKind)
    | .slice e => match v with
      | .sliceNil => (c, .ok (appendNull b))
      | .slice a n => checkRecursiveH (encodeElemsH (fun i => r.comp (i :: p) e) (h.elems e a n)) a c b
      | _ => (c, .panic .reflectKind)
    | .map k e => match v with
      | .mapNil => (c, .ok (appendNull b))
      | .map a => checkRecursiveH (encodeEntriesH (keyText W k) (fun i => r.comp (i :: p) e) (h.iter k e p a)) a c b
      | _ => (c, .panic .reflectKind)
    | .any | .iface _ => r.held p t c b v
    | _ => (c, .err (.unsupported "type"))   -- rejected when the type is compiled

/-- A call of a method, marshal_php.go:15-20: the text returned is added to the buffer. -/
def callHook (M : MarHooks) (t : Ty) (v : GV) (c : CtxH) (b : Bytes) : EHR Bytes :=
  ({ c with calls := c.calls ++ [(t, v)] }, M c.calls t v >>= fun raw => .ok (b ++ raw))

/-- The encoder built by `compileMarshaler`, marshal_php.go:13-22. Where there is nothing to call the method on, the attempt panics and is not counted as a call. -/
def callMarshalerH (W : World) (M : MarHooks) (t : Ty) (c : CtxH) (b : Bytes) (v : GV) : EHR Bytes :=
  match t, v with
  | .ptr (.named id), .ptrNil => if (W.named id).mar = .value then (c, .panic .nilDeref) else callHook M t v c b
  | _, .ifaceNil => (c, .panic .nilDeref)
  | _, .iface dt dv => match dt, dv with
    | .ptr (.named id), .ptrNil => if (W.named id).mar = .value then (c, .panic .nilDeref) else callHook M dt dv c b
    | _, _ => callHook M dt dv c b
  | _, _ => callHook M t v c b

/-- The encoder that `compile` (compile.go:14-51, with `compilePtr`, ptr.go:8-40) builds for type `t`, and `reflectInterfaceValue`, as `encF`. -/
def encFH (W : World) (h : Heap) (M : MarHooks) (cf : Nat) : Nat → RecH
  | 0 => { comp := fun _ _ c _ _ => (c, .diverge), held := fun _ _ c _ _ => (c, .diverge) }
  | f + 1 =>
    let r := encFH W h M cf f
    { held := fun p t c b v => reflectValueH W h cf (f + 1) r p t c b v
      comp := fun p t c b v =>
        if W.marOf t then callMarshalerH W M t c b v
        else if t = .slice (.uint .u8) then (c, encodeBytes h b v)
        else match W.resolve t with
          | .ptr e => match W.resolve e with
            | .ptr _ => (c, .err (.unsupported "nested pointer"))   -- rejected when the type is compiled
            | .any | .iface _ => r.held p t c b v
            | .struct _ => checkStructH h e (encodeKindH W h f r p e) c b v
            | .bool | .int _ | .f32 | .f64 | .str | .map _ _ => deRefNilH h e (encodeKindH W h f r p e) c b v
            | .uint .uptr => deRefNilH h e (r.comp p e) c b v
            | .uint _ => deRefNilH h e (encodeKindH W h f r p e) c b v
            | _ => deRefNilH h e (r.comp p e) c b v
          | _ => encodeKindH W h f r p t c b v }

/-- `Marshal` and `encode`, marshal.go:7-37, after the calls `c.calls`. -/
def marshalH (W : World) (h : Heap) (M : MarHooks) (cf fuel : Nat) (c : CtxH) : Option (Ty × GV) → EHR Bytes
  | none => (c, .ok (appendNull []))
  | some (t, v) => andThenH (c, compileE W cf [] t) fun c _ => (encFH W h M cf fuel).comp [] t c [] v

end Verif

import Verif.Model.Encode
/-
The encoders that /repo/internal/encoder/compile.go builds, as objects, and encoding with them. In Model/Encode an encoder is represented by the type it is built
for; here it is a closure over the encoders of its parts. The encoders of structs, slices and maps are reached through a `structRecEncoder`, a variable that is
empty while the type is being compiled and is shared by all places of the type that are compiled with the same `compileSeenMap`.
-/
namespace Verif

/-- The values of type `encoder`. A `structRecEncoder` is known by its place in memory. -/
inductive Enc where
  /-- `compileMarshaler`, marshal_php.go:13-22 -/
  | marshaler (t : Ty)
  /-- `encodeBytes`, bytes.go:10-17 -/
  | bytes
  /-- `encodeBool`, `encodeInt`, `encodeUint`, `encodeFloat32`, `encodeFloat64`, `encodeString`, by the kind of `t` -/
  | scalar (t : Ty)
  /-- `compileInterface`, interface.go:10-14; `t` is the type of the values it is called with, which is a pointer at ptr.go:24-25 -/
  | iface (t : Ty)
  /-- `compileAsString`, compile.go:66-85 -/
  | asString (t : Ty)
  /-- `compileArray`, array.go:26-38 -/
  | array (n : Nat) (elem : Enc)
  /-- `deRefNilEncoder` at ptr.go:12-28, where the encoder for the kind is taken without asking `compile` -/
  | derefKind (e : Ty) (enc : Enc)
  /-- `deRefNilEncoder` at ptr.go:39 -/
  | deref (e : Ty) (enc : Enc)
  /-- `checkStructRecursiveEncoder`, ptr.go:31, struct.go:147 -/
  | check (e : Ty) (enc : Enc)
  /-- `recursiveEnc.Encode`, struct.go:27-29 -/
  | cell (a : Nat)
deriving DecidableEq, Repr

/-- `structEncoder`, struct.go:10-19; `ptr` gives the type of the element if the flag is set. -/
structure EncField where
  idx : Nat
  name : Bytes
  omitEmpty : Bool
  ptr : Option Ty
  enc : Enc

/-- What a `structRecEncoder` holds: the closures of struct.go:63-107 (with the number of fields of the type), slice.go:19-33 and map.go:37-62. -/
inductive EncBody where
  | struct (nf : Nat) (fields : List EncField)
  | slice (e : Ty) (elem : Enc)
  | map (k v : Ty) (val : Enc)

/-- What compilation changes: the `structRecEncoder`s made so far (`none` is the nil function), and the `compileSeenMap`. -/
structure EncMem where
  heap : List (Option EncBody)
  seen : List (Ty × Nat)

/-! ### Making encoders -/

/-- `compileSlice`, slice.go:7-36. -/
def makeSlice (rec : EncMem → Ty → Res (Enc × EncMem)) (m : EncMem) (t e : Ty) : Res (Enc × EncMem) :=
  match m.seen.lookup t with
  | some a => .ok (.cell a, m)
  | none =>
    let a := m.heap.length
    rec { heap := m.heap ++ [none], seen := (t, a) :: m.seen } e >>= fun (d, m) =>
    .ok (.cell a, { m with heap := m.heap.set a (some (.slice e d)) })

/-- `compileMap`, map.go:8-65. -/
def makeMap (W : World) (rec : EncMem → Ty → Res (Enc × EncMem)) (m : EncMem) (t k v : Ty) : Res (Enc × EncMem) :=
  match m.seen.lookup t with
  | some a => .ok (.cell a, m)
  | none =>
    if !W.mapKeyOk k then .err (.unsupported "map key")
    else
      let a := m.heap.length
      rec { heap := m.heap ++ [none], seen := (t, a) :: m.seen } v >>= fun (d, m) =>
      .ok (.cell a, { m with heap := m.heap.set a (some (.map k v d)) })

/-- `compileStructFieldsEncoders`, struct.go:110-169. -/
def makeEFields (W : World) (rec : EncMem → Ty → Res (Enc × EncMem)) : Nat → EncMem → List Field → Res (List EncField × EncMem)
  | _, m, [] => .ok ([], m)
  | i, m, f :: fs =>
    let tag := structTag W f
    let elem := match W.resolve f.ty with | .ptr e => some e | _ => none
    if decide (tag.key = [45]) || !f.exported then makeEFields W rec (i + 1) m fs
    else if (match elem with | some e => W.isPtr e | none => false) then .err (.unsupported "nested pointer")
    else if f.anon && W.isStruct f.ty then .err (.unsupported "anonymous struct field")
    else
      (if tag.isString then
        if asStringOk W (elem.getD f.ty) then .ok ((elem, .asString (elem.getD f.ty)), m) else .err (.unsupported "as string")
      else match elem with
        | some e => rec m e >>= fun (d, m) => if W.isStruct e then .ok ((none, .check e d), m) else .ok ((some e, d), m)
        | none => rec m f.ty >>= fun (d, m) => .ok ((none, d), m)) >>= fun ((ptr, d), m) =>
      makeEFields W rec (i + 1) m fs >>= fun (fls, m) =>
      .ok ({ idx := i, name := if tag.key.isEmpty then f.name else tag.key, omitEmpty := tag.omitEmpty, ptr := ptr, enc := d } :: fls, m)

/-- `compileStruct`, struct.go:31-54. The variable is still empty at line 47, because nothing else sets it, so line 53 is not reached. -/
def makeEStruct (W : World) (rec : EncMem → Ty → Res (Enc × EncMem)) (m : EncMem) (t : Ty) (fs : List Field) : Res (Enc × EncMem) :=
  match m.seen.lookup t with
  | some a => .ok (.cell a, m)
  | none =>
    let a := m.heap.length
    makeEFields W rec 0 { heap := m.heap ++ [none], seen := (t, a) :: m.seen } fs >>= fun (fls, m) =>
    .ok (.cell a, { m with heap := m.heap.set a (some (.struct fs.length fls)) })

/-- `compilePtr`, ptr.go:8-40, for the pointer type `t` to `e`. -/
def makeEPtr (W : World) (rec : EncMem → Ty → Res (Enc × EncMem)) (m : EncMem) (t e : Ty) : Res (Enc × EncMem) :=
  match W.resolve e with
  | .ptr _ => .err (.unsupported "nested pointer")
  | .bool | .int _ | .f32 | .f64 | .str => .ok (.derefKind e (.scalar e), m)
  | .any | .iface _ => .ok (.iface t, m)
  | .uint k => if k = .uptr then rec m e >>= fun (d, m) => .ok (.deref e d, m) else .ok (.derefKind e (.scalar e), m)
  | .map k v => makeMap W rec m e k v >>= fun (d, m) => .ok (.derefKind e d, m)
  | .struct id => makeEStruct W rec m e (W.fields id) >>= fun (d, m) => .ok (.check e d, m)
  | _ => rec m e >>= fun (d, m) => .ok (.deref e d, m)

/-- `compile`, compile.go:14-51, with `compileArray`, array.go:7-25, which starts over with an empty map. (It goes through the cache; encoders found there were
made by the same function, see Model/Cache.) Fuel bounds the nesting of calls. -/
def makeEnc (W : World) : Nat → EncMem → Ty → Res (Enc × EncMem)
  | 0, _, _ => .diverge
  | f + 1, m, t =>
    if W.marOf t then .ok (.marshaler t, m)
    else if t = .slice (.uint .u8) then .ok (.bytes, m)
    else match W.resolve t with
      | .bool | .int _ | .f32 | .f64 | .str => .ok (.scalar t, m)
      | .any | .iface _ => .ok (.iface t, m)
      | .uint k => if k = .uptr then .err (.unsupported "uintptr") else .ok (.scalar t, m)
      | .struct id => makeEStruct W (makeEnc W f) m t (W.fields id)
      | .array n e => makeEnc W f { m with seen := [] } e >>= fun (d, m') => .ok (.array n d, { m' with seen := m.seen })
      | .slice e => makeSlice (makeEnc W f) m t e
      | .map k v => makeMap W (makeEnc W f) m t k v
      | .ptr e => makeEPtr W (makeEnc W f) m t e
      | .other | .named _ => .err (.unsupported "type")

/-- `compileType`, compile.go:10-12: the encoder and the variables it refers to. -/
def getEncoder (W : World) (cf : Nat) (t : Ty) : Res (Enc × List (Option EncBody)) :=
  makeEnc W cf { heap := [], seen := [] } t >>= fun (e, m) => .ok (e, m.heap)

/-! ### Encoding with them -/

/-- The calls an encoder makes: of another encoder, with the variables it may refer to, and of `reflectInterfaceValue`. -/
structure ERec where
  comp : List (Option EncBody) → Path → Enc → Ctx → Bytes → GV → ER Bytes
  held : Path → Ty → Ctx → Bytes → GV → ER Bytes

/-- The encoder of a field, struct.go:93. The encoders of `,string` fields and the check of line 147 are closures around the encoder they call, on which no fuel
is spent. -/
def runFieldEnc (W : World) (h : Heap) (f : Nat) (rec : Enc → Ctx → Bytes → GV → ER Bytes) : Enc → Ctx → Bytes → GV → ER Bytes
  | .asString t => fun c b v => (c, encodeAsString W h f t b v)
  | .check e d => checkStruct h e (rec d)
  | d => rec d

/-- One field after its name has been written, struct.go:84-96. -/
def runEField (W : World) (h : Heap) (f : Nat) (rec : Enc → Ctx → Bytes → GV → ER Bytes) (fl : EncField) (c : Ctx) (b : Bytes) (v : GV) : ER Bytes :=
  match fl.ptr with
  | some e => deRefNil h e (runFieldEnc W h f rec fl.enc) c b v
  | none => runFieldEnc W h f rec fl.enc c b v

/-- The field loop of struct.go:73-100, see `fieldsLoop`. -/
def runEFields (enc : EncField → Ctx → Bytes → GV → ER Bytes) (vs : List GV) : List EncField → Ctx → Bytes → Nat → ER (Bytes × Nat)
  | [], c, sb, n => (c, .ok (sb, n))
  | fl :: fls, c, sb, n =>
    match vs[fl.idx]? with
    | none => (c, .panic .reflectKind)
    | some v =>
      if fl.omitEmpty && v.isZero then runEFields enc vs fls c sb n
      else andThen (enc fl c (appendString sb fl.name) v) fun c sb => runEFields enc vs fls c sb (n + 1)

/-- The closures in `structRecEncoder`s: struct.go:63-107, slice.go:19-33 and map.go:37-62 (with `checkRecursiveEncoder`, ptr.go:80-106). -/
def runBody (W : World) (h : Heap) (f : Nat) (rec : Path → Enc → Ctx → Bytes → GV → ER Bytes) (p : Path) (body : EncBody) (c : Ctx) (b : Bytes) (v : GV) : ER Bytes :=
  match body with
  | .struct nf fls => match v with
    | .struct vs =>
      if vs.length ≠ nf then (c, .panic .reflectKind)
      else andThen (runEFields (fun fl => runEField W h f (rec (fl.idx :: p)) fl) vs fls c [] 0) fun c (sb, n) =>
        (c, .ok (appendArrayBegin b n ++ sb ++ [cRBrace]))
    | _ => (c, .panic .reflectKind)
  | .slice e d => match v with
    | .sliceNil => (c, .ok (appendNull b))
    | .slice a n => checkRecursive (encodeElems (fun i => rec (i :: p) d) (h.elems e a n)) a c b
    | _ => (c, .panic .reflectKind)
  | .map k e d => match v with
    | .mapNil => (c, .ok (appendNull b))
    | .map a => checkRecursive (encodeEntries (keyText W k) (fun i => rec (i :: p) d) (h.iter k e p a)) a c b
    | _ => (c, .panic .reflectKind)

/-- An encoder that is neither a method nor goes through a pointer. -/
def runKind (W : World) (h : Heap) (H : List (Option EncBody)) (f : Nat) (r : ERec) (p : Path) (enc : Enc) (c : Ctx) (b : Bytes) (v : GV) : ER Bytes :=
  match enc with
  | .scalar t => match encodeScalar W t b v with
    | some r => (c, r)
    | none => (c, .panic .reflectKind)   -- made for scalar kinds only
  | .array n d => match v with
    | .arr vs => if vs.length = n then encodeElems (fun i => r.comp H (i :: p) d) vs c b else (c, .panic .reflectKind)
    | _ => (c, .panic .reflectKind)
  | .iface t => r.held p t c b v
  | .cell a => match H[a]? with
    | some (some body) => runBody W h f (r.comp H) p body c b v
    | _ => (c, .panic .nilDeref)   -- the function is nil
  | _ => (c, .panic .reflectKind)

/-- Compile with `get` and encode: `compileWithCache` and the call of what it returns, slice_reflect.go:38-45, map_reflect.go:81-101, struct_reflect.go:7-14. -/
def heldRun (r : ERec) (get : Res (Enc × List (Option EncBody))) (c : Ctx) (k : (Path → Ctx → Bytes → GV → ER Bytes) → Ctx → ER Bytes) : ER Bytes :=
  andThen (c, get) fun c (d, H) => k (fun p => r.comp H p d) c

/-- `reflectSlice` and `reflectConcreteSlice`, slice_reflect.go:7-45. -/
def heldSlice (W : World) (h : Heap) (cf : Nat) (r : ERec) (p : Path) (t e : Ty) (v : GV) (c : Ctx) (b : Bytes) : ER Bytes :=
  if !W.isIface e then heldRun r (getEncoder W cf t) c fun enc c => enc p c b v
  else match v with
    | .sliceNil => (c, .ok (appendNull b))
    | .slice a n => encodeElems (fun i => r.held (i :: p) e) (h.elems e a n) c b
    | _ => (c, .panic .reflectKind)

/-- `reflectMap` and `reflectConcreteMap`, map_reflect.go:22-128. -/
def heldMap (W : World) (h : Heap) (cf : Nat) (r : ERec) (p : Path) (k e : Ty) (v : GV) (c : Ctx) (b : Bytes) : ER Bytes :=
  if !W.mapKeyOk k then (c, .err (.unsupported "map key"))
  else match v with
    | .mapNil => (c, .ok (appendNull b))
    | .map a =>
      let es := h.iter k e p a
      if es.isEmpty then (c, .ok (appendEmptyArray b))
      else if W.isIface e then encodeEntries (keyText W k) (fun i => r.held (i :: p) e) es c b
      else heldRun r (getEncoder W cf e) c fun enc c => encodeEntries (keyText W k) (fun i => enc (i :: p)) es c b
    | _ => (c, .panic .reflectKind)

/-- `reflectInterfaceValue`, interface.go:16-56. -/
def heldValue (W : World) (h : Heap) (cf f : Nat) (r : ERec) (p : Path) (t : Ty) (c : Ctx) (b : Bytes) (v : GV) : ER Bytes :=
  andThen (c, derefAll W h f t v) fun c o =>
  match o with
  | none => (c, .ok (appendNull b))
  | some (t, v) =>
    match encodeScalar W t b v with
    | some r => (c, r)
    | none =>
      match W.resolve t with
      | .slice e => reflectRecursive (heldSlice W h cf r p t e v) v.addr c b
      | .map k e => reflectRecursive (heldMap W h cf r p k e v) v.addr c b
      | .struct _ => heldRun r (getEncoder W cf t) c fun enc c => enc p c b v
      | _ => (c, .err (.unsupported "interface value"))

/-- Calling an encoder, and `reflectInterfaceValue`; fuel bounds the nesting of calls, `cf` that of compilation. -/
def runEnc (W : World) (h : Heap) (cf : Nat) : Nat → ERec
  | 0 => { comp := fun _ _ _ c _ _ => (c, .diverge), held := fun _ _ c _ _ => (c, .diverge) }
  | f + 1 =>
    let r := runEnc W h cf f
    { held := fun p t c b v => heldValue W h cf (f + 1) r p t c b v
      comp := fun H p enc c b v =>
        match enc with
        | .marshaler t => (c, callMarshaler W h t b v)
        | .bytes => (c, encodeBytes h b v)
        | .check e d => checkStruct h e (runKind W h H f r p d) c b v
        | .derefKind e d => deRefNil h e (runKind W h H f r p d) c b v
        | .deref e d => deRefNil h e (r.comp H p d) c b v
        | d => runKind W h H f r p d c b v }

/-- `encode`, marshal.go:23-37, with the encoder in hand. -/
def encodeWith (W : World) (h : Heap) (cf fuel : Nat) (e : Enc) (H : List (Option EncBody)) (c : Ctx) (v : GV) : ER Bytes :=
  (runEnc W h cf fuel).comp H [] e c [] v

end Verif

import Verif.Model.EncText
import Verif.Model.Tags
/-
Model of the encoders in /repo/internal/encoder. Values live in a heap, because the encoder follows pointers, compares
addresses and may meet cycles. An encoder built by compile.go for a type is represented by the type itself: `encF` looks
at the type at the moment the Go code would call the encoder that `compile` built for it. The sharing of encoder objects
through `compileSeenMap` (struct.go:21-29) does not show in what they do.
-/
namespace Verif

/-- Go values in memory. Slices, maps and pointers are addresses into a `Heap`; arrays and structs are stored inline.
`slice a n` has its first element at address `a` and `n` elements. -/
inductive GV where
  | bool (b : Bool)
  | int (i : Int)
  | uint (n : Nat)
  | f32 (bits : UInt32)
  | f64 (bits : UInt64)
  | str (s : Bytes)
  | sliceNil
  | slice (addr len : Nat)
  | arr (es : List GV)
  | mapNil
  | map (addr : Nat)
  | ptrNil
  | ptr (addr : Nat)
  | struct (fs : List GV)
  | ifaceNil
  | iface (t : Ty) (v : GV)
  | other
deriving Repr

/-- Where in a value the encoder is: indices of the fields, elements and entries passed, innermost first. -/
abbrev Path := List Nat

/-- The memory during one call of `Marshal` (nothing is written while it runs). A view of the memory at an address
depends on the type it is read at, so a struct and its first field can have the same address. `iter` gives the entries
of a map in the order in which the iteration at that place of the value delivers them (Go leaves the order open for each
iteration). `marshal t v` is the outcome of the `MarshalPHP` method of type `t` for receiver `v`. -/
structure Heap where
  /-- the variable of type `e` at an address -/
  deref : Ty → Nat → GV
  /-- the first `n` elements of type `e` of the array at an address -/
  elems : Ty → Nat → Nat → List GV
  /-- the entries of a map with the given key and value types -/
  iter : Ty → Ty → Path → Nat → List (GV × GV)
  marshal : Ty → GV → Res Bytes

/-- The parts of `Ctx`, context.go:20-25, that influence results. `Seen` is used as a set. -/
structure Ctx where
  seen : List Nat
  depth : Nat
deriving DecidableEq, Repr

/-- The context of a new call, context.go:8-16: no addresses remembered, no depth. -/
def Ctx.clean : Ctx := { seen := [], depth := 0 }

/-- What an encoder leaves behind: the context and the outcome (the extended buffer). -/
abbrev ER (α : Type) := Ctx × Res α

/-- Statement sequencing with the context passed on (Go error/panic propagation). -/
def andThen {α β : Type} (r : ER α) (k : Ctx → α → ER β) : ER β :=
  match r with
  | (c, .ok a) => k c a
  | (c, .err e) => (c, .err e)
  | (c, .panic p) => (c, .panic p)
  | (c, .diverge) => (c, .diverge)

/-- `rt.Implements(marshalerType)`, compile.go:15: declared types with a value receiver, pointers to declared types with
either receiver (for a declared interface type `mar` is `none`), interface types whose methods include MarshalPHP. Methods promoted from embedded fields count as methods
of the declared type; struct types without a name are taken to have none. -/
def World.marOf (W : World) : Ty → Bool
  | .named id => decide ((W.named id).mar = .value) || (match (W.named id).under with
      | .iface i => W.ifaceMar i
      | _ => false)
  | .ptr (.named id) => decide ((W.named id).mar ≠ .none)
  | .iface i => W.ifaceMar i
  | _ => false

/-- reflect.Kind is Struct. -/
def World.isStruct (W : World) (t : Ty) : Bool :=
  match W.resolve t with
  | .struct _ => true
  | _ => false

/-- reflect.Kind is Interface. -/
def World.isIface (W : World) (t : Ty) : Bool :=
  match W.resolve t with
  | .any => true
  | .iface _ => true
  | _ => false

/-- Key kinds admitted by map.go:19-25 (and map_reflect.go:26-32): string, integers, unsigned integers except uintptr. -/
def World.mapKeyOk (W : World) (t : Ty) : Bool :=
  match W.resolve t with
  | .str => true
  | .int _ => true
  | .uint k => decide (k ≠ .uptr)
  | _ => false

mutual
/-- reflect.Value.IsZero (struct.go:78), Go 1.22 or later: `== 0` for floats, so negative zero counts; strings, arrays and
structs element by element; pointers, slices, maps and interfaces only if nil. -/
def GV.isZero : GV → Bool
  | .bool b => !b
  | .int i => decide (i = 0)
  | .uint n => decide (n = 0)
  | .f32 x => decide (abs32 x = 0)
  | .f64 x => decide (abs64 x = 0)
  | .str s => s.isEmpty
  | .sliceNil => true
  | .slice _ _ => false
  | .arr es => isZeroList es
  | .mapNil => true
  | .map _ => false
  | .ptrNil => true
  | .ptr _ => false
  | .struct fs => isZeroList fs
  | .ifaceNil => true
  | .iface _ _ => false
  | .other => false
/-- All elements are zero. -/
def isZeroList : List GV → Bool
  | [] => true
  | v :: vs => v.isZero && isZeroList vs
end

/-! ### Compilation -/

/-- `structEncoder`, struct.go:10-19: the encoder is given by the field type and the `,string` flag. -/
structure EField where
  idx : Nat
  name : Bytes
  omitEmpty : Bool
  str : Bool
  ty : Ty

/-- The field loop of `compileStructFieldsEncoders`, struct.go:113-166 without the errors: one entry per field that is
exported and whose key is not `-`. (`cfg.Name()` is the key, which is never empty for a field with a name.) -/
def efields (W : World) : Nat → List Field → List EField
  | _, [] => []
  | i, f :: fs =>
    let tag := structTag W f
    if decide (tag.key = [45]) || !f.exported then efields W (i + 1) fs
    else { idx := i, name := if tag.key.isEmpty then f.name else tag.key, omitEmpty := tag.omitEmpty, str := tag.isString, ty := f.ty }
      :: efields W (i + 1) fs

/-- `compileAsString`, compile.go:66-85: the kinds it accepts. -/
def asStringOk (W : World) (t : Ty) : Bool :=
  match W.resolve t with
  | .bool | .int _ | .str | .f32 | .f64 | .any | .iface _ => true
  | .uint k => decide (k ≠ .uptr)
  | _ => false

/-- `compileSlice`, slice.go:7-36, for slice type `t` with elements `e`. `seen` are the keys of the `compileSeenMap`. -/
def compileESlice (rec : List Ty → Ty → Res (List Ty)) (seen : List Ty) (t e : Ty) : Res (List Ty) :=
  if seen.contains t then .ok seen else rec (t :: seen) e

/-- `compileMap`, map.go:8-65, for map type `t` (with `compileMapKey`, compile.go:53-64, which accepts the same kinds). -/
def compileEMap (W : World) (rec : List Ty → Ty → Res (List Ty)) (seen : List Ty) (t k v : Ty) : Res (List Ty) :=
  if seen.contains t then .ok seen
  else if !W.mapKeyOk k then .err (.unsupported "map key")
  else rec (t :: seen) v

/-- The type whose encoder a field uses when there is no `,string` option: pointer fields use that of the element
(struct.go:143-153). -/
def fieldElem (W : World) (t : Ty) : Ty :=
  match W.resolve t with
  | .ptr e => e
  | _ => t

/-- The field loop of `compileStructFieldsEncoders`, struct.go:113-166. The condition for embedded pointers at line 132
can never hold (the kind would have to be Ptr and Struct at once). -/
def compileEFields (W : World) (rec : List Ty → Ty → Res (List Ty)) : List Ty → List Field → Res (List Ty)
  | seen, [] => .ok seen
  | seen, f :: fs =>
    let tag := structTag W f
    if decide (tag.key = [45]) || !f.exported then compileEFields W rec seen fs
    else if W.isPtr f.ty && W.isPtr (fieldElem W f.ty) then .err (.unsupported "nested pointer")
    else if f.anon && W.isStruct f.ty then .err (.unsupported "anonymous struct field")
    else if tag.isString then
      if asStringOk W (fieldElem W f.ty) then compileEFields W rec seen fs else .err (.unsupported "as string")
    else rec seen (fieldElem W f.ty) >>= fun seen => compileEFields W rec seen fs

/-- `compileStruct`, struct.go:31-54, for struct type `t` with fields `fs`. -/
def compileEStruct (W : World) (rec : List Ty → Ty → Res (List Ty)) (seen : List Ty) (t : Ty) (fs : List Field) : Res (List Ty) :=
  if seen.contains t then .ok seen else compileEFields W rec (t :: seen) fs

/-- `compilePtr`, ptr.go:8-40, for a pointer to `e`. -/
def compileEPtr (W : World) (rec : List Ty → Ty → Res (List Ty)) (seen : List Ty) (e : Ty) : Res (List Ty) :=
  match W.resolve e with
  | .ptr _ => .err (.unsupported "nested pointer")
  | .bool | .int _ | .f32 | .f64 | .str | .any | .iface _ => .ok seen
  | .uint k => if k = .uptr then rec seen e else .ok seen
  | .map k v => compileEMap W rec seen e k v
  | .struct id => compileEStruct W rec seen e (W.fields id)
  | _ => rec seen e

/-- `compile`, compile.go:14-51, with `compileArray`, array.go:7-25, which starts over with an empty map through
`compileWithCache`. The result is the `compileSeenMap` after the call. Fuel bounds the nesting of calls. -/
def compileE (W : World) : Nat → List Ty → Ty → Res (List Ty)
  | 0, _, _ => .diverge
  | f + 1, seen, t =>
    if W.marOf t then .ok seen
    else if t = .slice (.uint .u8) then .ok seen
    else match W.resolve t with
      | .bool | .int _ | .f32 | .f64 | .str | .any | .iface _ => .ok seen
      | .uint k => if k = .uptr then .err (.unsupported "uintptr") else .ok seen
      | .struct id => compileEStruct W (compileE W f) seen t (W.fields id)
      | .array _ e => compileE W f [] e >>= fun _ => .ok seen
      | .slice e => compileESlice (compileE W f) seen t e
      | .map k v => compileEMap W (compileE W f) seen t k v
      | .ptr e => compileEPtr W (compileE W f) seen e
      | .other | .named _ => .err (.unsupported "type")

/-! ### Encoding -/

/-- `deRefNilEncoder`, ptr.go:42-50; `e` is the element type. -/
def deRefNil (h : Heap) (e : Ty) (enc : Ctx → Bytes → GV → ER Bytes) (c : Ctx) (b : Bytes) : GV → ER Bytes
  | .ptrNil => (c, .ok (appendNull b))
  | .ptr a => enc c b (h.deref e a)
  | _ => (c, .panic .reflectKind)

/-- The common part of `checkStructRecursiveEncoder`, ptr.go:58-77, and `checkRecursiveEncoder`, ptr.go:86-105, for a
value at address `addr`. -/
def checkRecursive (enc : Ctx → Bytes → ER Bytes) (addr : Nat) (c : Ctx) (b : Bytes) : ER Bytes :=
  let depth := c.depth + 1
  let tracked := decide (depth > 1000)
  if tracked && c.seen.contains addr then ({ c with depth := depth - 1 }, .err .recursive)
  else
    match enc { seen := if tracked then addr :: c.seen else c.seen, depth := depth } b with
    | (c', .ok b) => ({ seen := if tracked then c'.seen.filter (· ≠ addr) else c'.seen, depth := c'.depth - 1 }, .ok b)
    | (c', .err e) => ({ seen := if tracked then c'.seen.filter (· ≠ addr) else c'.seen, depth := c'.depth - 1 }, .err e)
    | (c', r) => (c', r)

/-- `checkStructRecursiveEncoder`, ptr.go:52-78. -/
def checkStruct (h : Heap) (e : Ty) (enc : Ctx → Bytes → GV → ER Bytes) (c : Ctx) (b : Bytes) : GV → ER Bytes
  | .ptrNil => (c, .ok (appendNull b))
  | .ptr a => checkRecursive (fun c b => enc c b (h.deref e a)) a c b
  | _ => (c, .panic .reflectKind)

/-- `reflectRecursiveValue`, interface.go:58-67. -/
def reflectRecursive (enc : Ctx → Bytes → ER Bytes) (addr : Nat) (c : Ctx) (b : Bytes) : ER Bytes :=
  if c.seen.contains addr then (c, .err .recursive)
  else
    match enc { c with seen := addr :: c.seen } b with
    | (c', .ok b) => ({ c' with seen := c'.seen.filter (· ≠ addr) }, .ok b)
    | (c', .err e) => ({ c' with seen := c'.seen.filter (· ≠ addr) }, .err e)
    | (c', r) => (c', r)

/-- The element loops of slice.go:25-31, array.go:29-35 and slice_reflect.go:27-33; `enc i` encodes element `i`. -/
def elemsLoop (enc : Nat → Ctx → Bytes → GV → ER Bytes) : Nat → List GV → Ctx → Bytes → ER Bytes
  | _, [], c, b => (c, .ok b)
  | i, v :: vs, c, b => andThen (enc i c (appendIntBytes b i) v) fun c b => elemsLoop enc (i + 1) vs c b

/-- Header, elements and closing brace: slice.go:21-32, array.go:27-37, slice_reflect.go:24-35. -/
def encodeElems (enc : Nat → Ctx → Bytes → GV → ER Bytes) (vs : List GV) (c : Ctx) (b : Bytes) : ER Bytes :=
  andThen (elemsLoop enc 0 vs c (appendArrayBegin b vs.length)) fun c b => (c, .ok (b ++ [cRBrace]))

/-- Map keys: `compileMapKey`, compile.go:53-64, and `mapKeyEncoder`, map_reflect.go:8-20. Maps with keys of other kinds (the
errors here) are rejected before any key is written. -/
def keyText (W : World) (t : Ty) (b : Bytes) (v : GV) : Res Bytes :=
  match W.resolve t, v with
  | .str, .str s => .ok (appendString b s)
  | .int _, .int i => .ok (appendIntBytes b i)
  | .uint k, .uint n => if k = .uptr then .err (.unsupported "map key") else .ok (appendUintBytes b n)
  | _, _ => if W.mapKeyOk t then .panic .reflectKind else .err (.unsupported "map key")

/-- The entry loops of map.go:47-59, map_reflect.go:64-76 and 112-124. -/
def entriesLoop (key : Bytes → GV → Res Bytes) (enc : Nat → Ctx → Bytes → GV → ER Bytes) : Nat → List (GV × GV) → Ctx → Bytes → ER Bytes
  | _, [], c, b => (c, .ok b)
  | i, (k, v) :: es, c, b =>
    andThen (c, key b k) fun c b => andThen (enc i c b v) fun c b => entriesLoop key enc (i + 1) es c b

/-- Header, entries and closing brace: map.go:38-61, map_reflect.go:48-78 and 87-126. -/
def encodeEntries (key : Bytes → GV → Res Bytes) (enc : Nat → Ctx → Bytes → GV → ER Bytes) (es : List (GV × GV)) (c : Ctx) (b : Bytes) : ER Bytes :=
  andThen (entriesLoop key enc 0 es c (appendArrayBegin b es.length)) fun c b => (c, .ok (b ++ [cRBrace]))

/-- The loop at the beginning of `reflectInterfaceValue`, interface.go:17-28, and of `reflectInterfaceValueAsString`,
interface.go:76-87: follow pointers and interfaces. `none` stands for a nil met on the way. -/
def derefAll (W : World) (h : Heap) : Nat → Ty → GV → Res (Option (Ty × GV))
  | 0, _, _ => .diverge
  | f + 1, t, v =>
    match W.resolve t with
    | .ptr e => match v with
      | .ptrNil => .ok none
      | .ptr a => derefAll W h f e (h.deref e a)
      | _ => .panic .reflectKind
    | .any | .iface _ => match v with
      | .ifaceNil => .ok none
      | .iface dt v => derefAll W h f dt v
      | _ => .panic .reflectKind
    | _ => .ok (some (t, v))

/-- `reflectInterfaceValueAsString`, interface.go:75-120. The type switch matches the predeclared types only. -/
def ifaceAsString (W : World) (h : Heap) (f : Nat) (t : Ty) (b : Bytes) (v : GV) : Res Bytes :=
  derefAll W h f t v >>= fun
  | none => .ok (appendNull b)
  | some (t, v) => match t, v with
    | .bool, .bool x => .ok (appendBoolAsString b x)
    | .uint k, .uint n => if k = .uptr then .err (.unsupported "as string") else .ok (appendUintAsString b n)
    | .int _, .int i => .ok (appendIntAsString b i)
    | .f32, .f32 x => .ok (appendFloat32AsString W b x)
    | .f64, .f64 x => .ok (appendFloat64AsString W b x)
    | _, _ => .err (.unsupported "as string")

/-- The encoder returned by `compileAsString`, compile.go:66-85 (which rejects `uintptr` and the kinds not listed, the errors here, when
the type is compiled). -/
def encodeAsString (W : World) (h : Heap) (f : Nat) (t : Ty) (b : Bytes) (v : GV) : Res Bytes :=
  match W.resolve t, v with
  | .bool, .bool x => .ok (appendBoolAsString b x)
  | .int _, .int i => .ok (appendIntAsString b i)
  | .str, .str s => .ok (appendString b s)
  | .uint k, .uint n => if k = .uptr then .err (.unsupported "as string") else .ok (appendUintAsString b n)
  | .f32, .f32 x => .ok (appendFloat32AsString W b x)
  | .f64, .f64 x => .ok (appendFloat64AsString W b x)
  | .any, v => ifaceAsString W h f t b v
  | .iface _, v => ifaceAsString W h f t b v
  | _, _ => if asStringOk W t then .panic .reflectKind else .err (.unsupported "as string")

/-- One field of a struct after its name has been written, struct.go:87-96 with the choice of encoder at 120-153. `rec` runs
the encoder of a type. -/
def encodeField (W : World) (h : Heap) (f : Nat) (rec : Ty → Ctx → Bytes → GV → ER Bytes) (fl : EField) (c : Ctx) (b : Bytes) (v : GV) : ER Bytes :=
  match W.resolve fl.ty with
  | .ptr e =>
    if !fl.str && W.isStruct e then checkStruct h e (rec e) c b v
    else deRefNil h e (if fl.str then fun c b v => (c, encodeAsString W h f e b v) else rec e) c b v
  | _ => if fl.str then (c, encodeAsString W h f fl.ty b v) else rec fl.ty c b v

/-- The field loop of `compileStructFields`, struct.go:73-100; `enc` encodes one field. The results are the struct buffer
and the number of fields written. -/
def fieldsLoop (enc : EField → Ctx → Bytes → GV → ER Bytes) (vs : List GV) : List EField → Ctx → Bytes → Nat → ER (Bytes × Nat)
  | [], c, sb, n => (c, .ok (sb, n))
  | fl :: fls, c, sb, n =>
    match vs[fl.idx]? with
    | none => (c, .panic .reflectKind)
    | some v =>
      if fl.omitEmpty && v.isZero then fieldsLoop enc vs fls c sb n
      else andThen (enc fl c (appendString sb fl.name) v) fun c sb => fieldsLoop enc vs fls c sb (n + 1)

/-- The encoder built by `compileStructFields`, struct.go:63-107, for a struct with `nf` fields. The struct buffer starts
empty (buffer.go:13-18). -/
def encodeStruct (enc : EField → Ctx → Bytes → GV → ER Bytes) (nf : Nat) (fls : List EField) (c : Ctx) (b : Bytes) : GV → ER Bytes
  | .struct vs => if vs.length ≠ nf then (c, .panic .reflectKind) else andThen (fieldsLoop enc vs fls c [] 0) fun c (sb, n) => (c, .ok (appendArrayBegin b n ++ sb ++ [cRBrace]))
  | _ => (c, .panic .reflectKind)

/-- The contents of a byte slice (reflect.Value.Bytes). -/
def bytesOf : List GV → Option Bytes
  | [] => some []
  | .uint x :: vs => if x < 256 then (bytesOf vs).map (UInt8.ofNat x :: ·) else none
  | _ :: _ => none

/-- `encodeBytes`, bytes.go:10-17. -/
def encodeBytes (h : Heap) (b : Bytes) : GV → Res Bytes
  | .sliceNil => .ok (appendString b [])
  | .slice a n => match bytesOf (h.elems (.uint .u8) a n) with
    | some s => .ok (appendString b s)
    | none => .panic .reflectKind
  | _ => .panic .reflectKind

/-- The scalar encoders, chosen by kind: compile.go:24-35, ptr.go:12-23, interface.go:31-44. `none` for other kinds. -/
def encodeScalar (W : World) (t : Ty) (b : Bytes) (v : GV) : Option (Res Bytes) :=
  match W.resolve t with
  | .bool => some (match v with | .bool x => .ok (appendBool b x) | _ => .panic .reflectKind)
  | .int _ => some (match v with | .int i => .ok (appendIntBytes b i) | _ => .panic .reflectKind)
  | .uint .uptr => none
  | .uint _ => some (match v with | .uint n => .ok (appendUintBytes b n) | _ => .panic .reflectKind)
  | .f32 => some (match v with | .f32 x => .ok (appendFloat32 W b x) | _ => .panic .reflectKind)
  | .f64 => some (match v with | .f64 x => .ok (appendFloat64 W b x) | _ => .panic .reflectKind)
  | .str => some (match v with | .str s => .ok (appendString b s) | _ => .panic .reflectKind)
  | _ => none

/-- The recursive calls an encoder makes. `comp p t` runs the encoder compiled for `t`; `held p t` runs
`reflectInterfaceValue`. -/
structure Rec where
  comp : Path → Ty → Ctx → Bytes → GV → ER Bytes
  held : Path → Ty → Ctx → Bytes → GV → ER Bytes

/-- `reflectSlice` and `reflectConcreteSlice`, slice_reflect.go:7-45. `cf` bounds the nesting of compilation. -/
def reflectSlice (W : World) (h : Heap) (cf : Nat) (r : Rec) (p : Path) (t e : Ty) (v : GV) (c : Ctx) (b : Bytes) : ER Bytes :=
  if !W.isIface e then andThen (c, compileE W cf [] t) fun c _ => r.comp p t c b v
  else match v with
    | .sliceNil => (c, .ok (appendNull b))
    | .slice a n => encodeElems (fun i => r.held (i :: p) e) (h.elems e a n) c b
    | _ => (c, .panic .reflectKind)

/-- `reflectMap` and `reflectConcreteMap`, map_reflect.go:22-128. -/
def reflectMap (W : World) (h : Heap) (cf : Nat) (r : Rec) (p : Path) (k e : Ty) (v : GV) (c : Ctx) (b : Bytes) : ER Bytes :=
  if !W.mapKeyOk k then (c, .err (.unsupported "map key"))
  else match v with
    | .mapNil => (c, .ok (appendNull b))
    | .map a =>
      let es := h.iter k e p a
      if es.isEmpty then (c, .ok (appendEmptyArray b))
      else if W.isIface e then encodeEntries (keyText W k) (fun i => r.held (i :: p) e) es c b
      else andThen (c, compileE W cf [] e) fun c _ => encodeEntries (keyText W k) (fun i => r.comp (i :: p) e) es c b
    | _ => (c, .panic .reflectKind)

/-- The address used by `reflectRecursiveValue` (reflect.Value.UnsafePointer of a slice or map): 0 for nil. -/
def GV.addr : GV → Nat
  | .slice a _ => a
  | .map a => a
  | _ => 0

/-- `reflectInterfaceValue`, interface.go:16-56. -/
def reflectValue (W : World) (h : Heap) (cf f : Nat) (r : Rec) (p : Path) (t : Ty) (c : Ctx) (b : Bytes) (v : GV) : ER Bytes :=
  andThen (c, derefAll W h f t v) fun c o =>
  match o with
  | none => (c, .ok (appendNull b))
  | some (t, v) =>
    match encodeScalar W t b v with
    | some r => (c, r)
    | none =>
      match W.resolve t with
      | .slice e => reflectRecursive (reflectSlice W h cf r p t e v) v.addr c b
      | .map k e => reflectRecursive (reflectMap W h cf r p k e v) v.addr c b
      | .struct _ => andThen (c, compileE W cf [] t) fun c _ => r.comp p t c b v
      | _ => (c, .err (.unsupported "interface value"))

/-- The encoders built by `compile` for kinds other than pointers, compile.go:23-45, without the tests for Marshaler and
`[]byte`: scalars, `compileStruct`, `compileArray` (array.go:26-38), `compileSlice` (slice.go:19-35), `compileMap`
(map.go:37-64), `compileInterface`. -/
def encodeKind (W : World) (h : Heap) (f : Nat) (r : Rec) (p : Path) (t : Ty) (c : Ctx) (b : Bytes) (v : GV) : ER Bytes :=
  match encodeScalar W t b v with
  | some r => (c, r)
  | none =>
    match W.resolve t with
    | .struct id => encodeStruct (fun fl => encodeField W h f (r.comp (fl.idx :: p)) fl) (W.fields id).length (efields W 0 (W.fields id)) c b v
    | .array n e => match v with
      | .arr vs => if vs.length = n then encodeElems (fun i => r.comp (i :: p) e) vs c b else (c, .panic .reflectKind)
      | _ => (c, .panic .reflectKind)
    | .slice e => match v with
      | .sliceNil => (c, .ok (appendNull b))
      | .slice a n => checkRecursive (encodeElems (fun i => r.comp (i :: p) e) (h.elems e a n)) a c b
      | _ => (c, .panic .reflectKind)
    | .map k e => match v with
      | .mapNil => (c, .ok (appendNull b))
      | .map a => checkRecursive (encodeEntries (keyText W k) (fun i => r.comp (i :: p) e) (h.iter k e p a)) a c b
      | _ => (c, .panic .reflectKind)
    | .any | .iface _ => r.held p t c b v
    | _ => (c, .err (.unsupported "type"))   -- rejected when the type is compiled

/-- The encoder built by `compileMarshaler`, marshal_php.go:13-22: a nil interface has no method to call, a nil pointer
cannot be copied for a value receiver. An interface is replaced by the value it holds. -/
def callMarshaler (W : World) (h : Heap) (t : Ty) (b : Bytes) (v : GV) : Res Bytes :=
  let done := fun (r : Res Bytes) => r >>= fun raw => .ok (b ++ raw)
  match t, v with
  | .ptr (.named id), .ptrNil => if (W.named id).mar = .value then .panic .nilDeref else done (h.marshal t v)
  | _, .ifaceNil => .panic .nilDeref
  | _, .iface dt dv => match dt, dv with
    | .ptr (.named id), .ptrNil => if (W.named id).mar = .value then .panic .nilDeref else done (h.marshal dt dv)
    | _, _ => done (h.marshal dt dv)
  | _, _ => done (h.marshal t v)

/-- The encoder that `compile` (compile.go:14-51, with `compilePtr`, ptr.go:8-40) builds for type `t` (first component), and
`reflectInterfaceValue` (second component); fuel bounds the nesting of calls, `cf` that of compilation. -/
def encF (W : World) (h : Heap) (cf : Nat) : Nat → Rec
  | 0 => { comp := fun _ _ c _ _ => (c, .diverge), held := fun _ _ c _ _ => (c, .diverge) }
  | f + 1 =>
    let r := encF W h cf f
    { held := fun p t c b v => reflectValue W h cf (f + 1) r p t c b v
      comp := fun p t c b v =>
        if W.marOf t then (c, callMarshaler W h t b v)
        else if t = .slice (.uint .u8) then (c, encodeBytes h b v)
        else match W.resolve t with
          | .ptr e => match W.resolve e with
            | .ptr _ => (c, .err (.unsupported "nested pointer"))   -- rejected when the type is compiled
            | .any | .iface _ => r.held p t c b v
            | .struct _ => checkStruct h e (encodeKind W h f r p e) c b v
            | .bool | .int _ | .f32 | .f64 | .str | .map _ _ => deRefNil h e (encodeKind W h f r p e) c b v
            | .uint .uptr => deRefNil h e (r.comp p e) c b v
            | .uint _ => deRefNil h e (encodeKind W h f r p e) c b v
            | _ => deRefNil h e (r.comp p e) c b v
          | _ => encodeKind W h f r p t c b v }

/-- `Marshal` and `encode`, marshal.go:7-37, with the context taken from the pool; the argument is `none` for nil, otherwise
its dynamic type and value. The result is copied out of the buffer, so it is not affected by later calls. -/
def marshal (W : World) (h : Heap) (cf fuel : Nat) (c : Ctx) : Option (Ty × GV) → ER Bytes
  | none => (c, .ok (appendNull []))
  | some (t, v) => andThen (c, compileE W cf [] t) fun c _ => (encF W h cf fuel).comp [] t c [] v

end Verif

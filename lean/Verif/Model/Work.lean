import Verif.Model.Encode
/-
How many bytes `Marshal` moves. For every encoder of Model/Encode.lean there is a function here that counts the bytes appended to buffers
during a call of it, and the struct buffers in use at the same time. Texts, contexts and outcomes on the way are those of Model/Encode.lean.

Counted are the bytes appended to `ctx.Buf` and to struct buffers (buffer.go), and the copy of the result. Left out: what `append` moves when
a buffer grows, the small buffer that floats with the `,string` option pass through (float.go:73-79), errors, what preparing a type takes, and
what methods of the program do. What an encoder appended before it failed is counted for the steps that succeeded.
-/
namespace Verif

/-- Bytes appended, and the largest number of struct buffers (buffer.go:5-22) taken from the pool at the same time. -/
structure Work where
  bytes : Nat
  bufs : Nat
deriving DecidableEq, Repr

/-- One step after another. -/
def Work.then (w w' : Work) : Work := { bytes := w.bytes + w'.bytes, bufs := max w.bufs w'.bufs }

/-- Nothing is appended. -/
def Work.none : Work := { bytes := 0, bufs := 0 }

/-- A step that extends `b` to the buffer of its outcome by appending the missing bytes once. -/
def appended (b : Bytes) (r : Res Bytes) : Work :=
  match r with
  | .ok b' => { bytes := b'.length - b.length, bufs := 0 }
  | _ => Work.none

/-- Sequencing: what follows a step is counted if the step succeeds (Go error/panic propagation). -/
def workOk {α : Type} (r : ER α) (k : Ctx → α → Work) : Work :=
  match r with
  | (c, .ok a) => k c a
  | _ => Work.none

/-- `deRefNilEncoder`, ptr.go:42-50. -/
def deRefNilWork (h : Heap) (e : Ty) (wk : Ctx → Bytes → GV → Work) (c : Ctx) (b : Bytes) : GV → Work
  | .ptrNil => appended b (.ok (appendNull b))
  | .ptr a => wk c b (h.deref e a)
  | _ => Work.none

/-- `checkStructRecursiveEncoder`, ptr.go:58-77, and `checkRecursiveEncoder`, ptr.go:86-105, for a value at address `addr`. -/
def checkRecursiveWork (wk : Ctx → Bytes → Work) (addr : Nat) (c : Ctx) (b : Bytes) : Work :=
  let depth := c.depth + 1
  let tracked := decide (depth > 1000)
  if tracked && c.seen.contains addr then Work.none
  else wk { seen := if tracked then addr :: c.seen else c.seen, depth := depth } b

/-- `checkStructRecursiveEncoder`, ptr.go:52-78. -/
def checkStructWork (h : Heap) (e : Ty) (wk : Ctx → Bytes → GV → Work) (c : Ctx) (b : Bytes) : GV → Work
  | .ptrNil => appended b (.ok (appendNull b))
  | .ptr a => checkRecursiveWork (fun c b => wk c b (h.deref e a)) a c b
  | _ => Work.none

/-- `reflectRecursiveValue`, interface.go:58-67. -/
def reflectRecursiveWork (wk : Ctx → Bytes → Work) (addr : Nat) (c : Ctx) (b : Bytes) : Work :=
  if c.seen.contains addr then Work.none else wk { c with seen := addr :: c.seen } b

/-- The element loops of slice.go:25-31, array.go:29-35 and slice_reflect.go:27-33. -/
def elemsLoopWork (enc : Nat → Ctx → Bytes → GV → ER Bytes) (wk : Nat → Ctx → Bytes → GV → Work) : Nat → List GV → Ctx → Bytes → Work
  | _, [], _, _ => Work.none
  | i, v :: vs, c, b =>
    let b1 := appendIntBytes b i
    ((appended b (.ok b1)).then (wk i c b1 v)).then (workOk (enc i c b1 v) fun c b => elemsLoopWork enc wk (i + 1) vs c b)

/-- Header, elements and closing brace: slice.go:21-32, array.go:27-37, slice_reflect.go:24-35. -/
def encodeElemsWork (enc : Nat → Ctx → Bytes → GV → ER Bytes) (wk : Nat → Ctx → Bytes → GV → Work) (vs : List GV) (c : Ctx) (b : Bytes) : Work :=
  let b1 := appendArrayBegin b vs.length
  ((appended b (.ok b1)).then (elemsLoopWork enc wk 0 vs c b1)).then
    (workOk (elemsLoop enc 0 vs c b1) fun _ b => appended b (.ok (b ++ [cRBrace])))

/-- The entry loops of map.go:47-59, map_reflect.go:64-76 and 112-124. -/
def entriesLoopWork (key : Bytes → GV → Res Bytes) (enc : Nat → Ctx → Bytes → GV → ER Bytes) (wk : Nat → Ctx → Bytes → GV → Work) :
    Nat → List (GV × GV) → Ctx → Bytes → Work
  | _, [], _, _ => Work.none
  | i, (k, v) :: es, c, b =>
    (appended b (key b k)).then (workOk (c, key b k) fun c b =>
      (wk i c b v).then (workOk (enc i c b v) fun c b => entriesLoopWork key enc wk (i + 1) es c b))

/-- Header, entries and closing brace: map.go:38-61, map_reflect.go:48-78 and 87-126. -/
def encodeEntriesWork (key : Bytes → GV → Res Bytes) (enc : Nat → Ctx → Bytes → GV → ER Bytes) (wk : Nat → Ctx → Bytes → GV → Work)
    (es : List (GV × GV)) (c : Ctx) (b : Bytes) : Work :=
  let b1 := appendArrayBegin b es.length
  ((appended b (.ok b1)).then (entriesLoopWork key enc wk 0 es c b1)).then
    (workOk (entriesLoop key enc 0 es c b1) fun _ b => appended b (.ok (b ++ [cRBrace])))

/-- One field of a struct after its name has been written, struct.go:87-96 with the choice of encoder at 120-153. -/
def encodeFieldWork (W : World) (h : Heap) (f : Nat) (wk : Ty → Ctx → Bytes → GV → Work) (fl : EField) (c : Ctx) (b : Bytes) (v : GV) : Work :=
  match W.resolve fl.ty with
  | .ptr e =>
    if !fl.str && W.isStruct e then checkStructWork h e (wk e) c b v
    else deRefNilWork h e (if fl.str then fun _ b v => appended b (encodeAsString W h f e b v) else wk e) c b v
  | _ => if fl.str then appended b (encodeAsString W h f fl.ty b v) else wk fl.ty c b v

/-- The field loop of `compileStructFields`, struct.go:73-100, on the struct buffer. -/
def fieldsLoopWork (enc : EField → Ctx → Bytes → GV → ER Bytes) (wk : EField → Ctx → Bytes → GV → Work) (vs : List GV) : List EField → Ctx → Bytes → Work
  | [], _, _ => Work.none
  | fl :: fls, c, sb =>
    match vs[fl.idx]? with
    | none => Work.none
    | some v =>
      if fl.omitEmpty && v.isZero then fieldsLoopWork enc wk vs fls c sb
      else
        let sb1 := appendString sb fl.name
        ((appended sb (.ok sb1)).then (wk fl c sb1 v)).then (workOk (enc fl c sb1 v) fun c sb => fieldsLoopWork enc wk vs fls c sb)

/-- The encoder built by `compileStructFields`, struct.go:63-107: the fields are written to a struct buffer (line 67), which is then appended
to the buffer of the caller (line 103). -/
def encodeStructWork (enc : EField → Ctx → Bytes → GV → ER Bytes) (wk : EField → Ctx → Bytes → GV → Work) (nf : Nat) (fls : List EField)
    (c : Ctx) (b : Bytes) : GV → Work
  | .struct vs => if vs.length ≠ nf then Work.none else
    let w := fieldsLoopWork enc wk vs fls c []
    Work.then { w with bufs := w.bufs + 1 } (workOk (fieldsLoop enc vs fls c [] 0) fun _ (sb, n) => appended b (.ok (appendArrayBegin b n ++ sb ++ [cRBrace])))
  | _ => Work.none

/-- The counts of the recursive calls an encoder makes, as `Rec`. -/
structure WRec where
  comp : Path → Ty → Ctx → Bytes → GV → Work
  held : Path → Ty → Ctx → Bytes → GV → Work

/-- `reflectSlice` and `reflectConcreteSlice`, slice_reflect.go:7-45. -/
def reflectSliceWork (W : World) (h : Heap) (cf : Nat) (r : Rec) (wr : WRec) (p : Path) (t e : Ty) (v : GV) (c : Ctx) (b : Bytes) : Work :=
  if !W.isIface e then workOk (c, compileE W cf [] t) fun c _ => wr.comp p t c b v
  else match v with
    | .sliceNil => appended b (.ok (appendNull b))
    | .slice a n => encodeElemsWork (fun i => r.held (i :: p) e) (fun i => wr.held (i :: p) e) (h.elems e a n) c b
    | _ => Work.none

/-- `reflectMap` and `reflectConcreteMap`, map_reflect.go:22-128. -/
def reflectMapWork (W : World) (h : Heap) (cf : Nat) (r : Rec) (wr : WRec) (p : Path) (k e : Ty) (v : GV) (c : Ctx) (b : Bytes) : Work :=
  if !W.mapKeyOk k then Work.none
  else match v with
    | .mapNil => appended b (.ok (appendNull b))
    | .map a =>
      let es := h.iter k e p a
      if es.isEmpty then appended b (.ok (appendEmptyArray b))
      else if W.isIface e then encodeEntriesWork (keyText W k) (fun i => r.held (i :: p) e) (fun i => wr.held (i :: p) e) es c b
      else workOk (c, compileE W cf [] e) fun c _ =>
        encodeEntriesWork (keyText W k) (fun i => r.comp (i :: p) e) (fun i => wr.comp (i :: p) e) es c b
    | _ => Work.none

/-- `reflectInterfaceValue`, interface.go:16-56. -/
def reflectValueWork (W : World) (h : Heap) (cf f : Nat) (r : Rec) (wr : WRec) (p : Path) (t : Ty) (c : Ctx) (b : Bytes) (v : GV) : Work :=
  workOk (c, derefAll W h f t v) fun c o =>
  match o with
  | none => appended b (.ok (appendNull b))
  | some (t, v) =>
    match encodeScalar W t b v with
    | some r => appended b r
    | none =>
      match W.resolve t with
      | .slice e => reflectRecursiveWork (reflectSliceWork W h cf r wr p t e v) v.addr c b
      | .map k e => reflectRecursiveWork (reflectMapWork W h cf r wr p k e v) v.addr c b
      | .struct _ => workOk (c, compileE W cf [] t) fun c _ => wr.comp p t c b v
      | _ => Work.none

/-- The encoders built by `compile` for kinds other than pointers, compile.go:23-45. -/
def encodeKindWork (W : World) (h : Heap) (f : Nat) (r : Rec) (wr : WRec) (p : Path) (t : Ty) (c : Ctx) (b : Bytes) (v : GV) : Work :=
  match encodeScalar W t b v with
  | some r => appended b r
  | none =>
    match W.resolve t with
    | .struct id => encodeStructWork (fun fl => encodeField W h f (r.comp (fl.idx :: p)) fl) (fun fl => encodeFieldWork W h f (wr.comp (fl.idx :: p)) fl)
        (W.fields id).length (efields W 0 (W.fields id)) c b v
    | .array n e => match v with
      | .arr vs => if vs.length = n then encodeElemsWork (fun i => r.comp (i :: p) e) (fun i => wr.comp (i :: p) e) vs c b else Work.none
      | _ => Work.none
    | .slice e => match v with
      | .sliceNil => appended b (.ok (appendNull b))
      | .slice a n => checkRecursiveWork (encodeElemsWork (fun i => r.comp (i :: p) e) (fun i => wr.comp (i :: p) e) (h.elems e a n)) a c b
      | _ => Work.none
    | .map k e => match v with
      | .mapNil => appended b (.ok (appendNull b))
      | .map a => checkRecursiveWork (encodeEntriesWork (keyText W k) (fun i => r.comp (i :: p) e) (fun i => wr.comp (i :: p) e) (h.iter k e p a)) a c b
      | _ => Work.none
    | .any | .iface _ => wr.held p t c b v
    | _ => Work.none

/-- The encoder that `compile` (compile.go:14-51, with `compilePtr`, ptr.go:8-40) builds for type `t` (first component), and
`reflectInterfaceValue` (second component). -/
def encFWork (W : World) (h : Heap) (cf : Nat) : Nat → WRec
  | 0 => { comp := fun _ _ _ _ _ => Work.none, held := fun _ _ _ _ _ => Work.none }
  | f + 1 =>
    let r := encF W h cf f
    let wr := encFWork W h cf f
    { held := fun p t c b v => reflectValueWork W h cf (f + 1) r wr p t c b v
      comp := fun p t c b v =>
        if W.marOf t then appended b (callMarshaler W h t b v)
        else if t = .slice (.uint .u8) then appended b (encodeBytes h b v)
        else match W.resolve t with
          | .ptr e => match W.resolve e with
            | .ptr _ => Work.none
            | .any | .iface _ => wr.held p t c b v
            | .struct _ => checkStructWork h e (encodeKindWork W h f r wr p e) c b v
            | .bool | .int _ | .f32 | .f64 | .str | .map _ _ => deRefNilWork h e (encodeKindWork W h f r wr p e) c b v
            | .uint .uptr => deRefNilWork h e (wr.comp p e) c b v
            | .uint _ => deRefNilWork h e (encodeKindWork W h f r wr p e) c b v
            | _ => deRefNilWork h e (wr.comp p e) c b v
          | _ => encodeKindWork W h f r wr p t c b v }

/-- `Marshal`, marshal.go:7-23, and `encode`, 25-37: the encoder, and the copy of the result (lines 16-17). -/
def marshalWork (W : World) (h : Heap) (cf fuel : Nat) (c : Ctx) : Option (Ty × GV) → Work
  | none => { bytes := 2 * (appendNull []).length, bufs := 0 }
  | some (t, v) => workOk (c, compileE W cf [] t) fun c _ =>
    ((encFWork W h cf fuel).comp [] t c [] v).then
      (workOk ((encF W h cf fuel).comp [] t c [] v) fun _ out => appended [] (.ok out))

end Verif

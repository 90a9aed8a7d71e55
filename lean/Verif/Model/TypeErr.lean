import Verif.Model.DecCompile
import Verif.Model.Encode
import Verif.Model.ErrText
/-
Preparing a type, once more, with the contents of the errors: the functions `compile` of both packages as in Model/Encode.lean and
Model/DecCompile.lean, which say of an error only that there is one.
-/
namespace Verif

/-- The errors about types, with what they say. -/
inductive TypeErr where
  /-- "failed to build encoder, unsupported type", encoder/compile.go:50 -/
  | encType (t : Ty)
  /-- `UnsupportedTypeAsMapKeyError`, encoder/error.go:15-21, made in map.go:24; of the key type -/
  | encKey (k : Ty)
  /-- "encoding nested ptr is not supported *…", encoder/ptr.go:11; of the element type -/
  | encPtr (e : Ty)
  /-- "encoding nested ptr is not supported …", encoder/struct.go:127; of the type of the field -/
  | encPtrField (t : Ty)
  /-- "supported for Anonymous struct field has been removed", encoder/struct.go:133; of the type of the field -/
  | encAnon (t : Ty)
  /-- "failed to build encoder for struct field (as string)", encoder/compile.go:82-84 -/
  | encString (t : Ty)
  /-- `UnsupportedTypeError`, errors/error.go:52-58, made in decoder/ptr.go:18-20 of `PointerTo` of the element type -/
  | decPtr (e : Ty)
  /-- `UnsupportedTypeError`, errors/error.go:52-58, made in decoder/wrapped_string.go:38 -/
  | decString (t : Ty)
  /-- "anonymous struct field is not supported", decoder/compile.go:279 -/
  | decAnon
  /-- "found duplicate keys for struct", decoder/compile.go:315; of the struct type, with the key -/
  | decKeys (t : Ty) (key : Bytes)
deriving DecidableEq, Repr

/-- The error as it is seen by the rest of the model, where the contents are left out (Model/Encode.lean, Model/DecCompile.lean; the kind uintptr is
told apart there, by nothing in compile.go:50, so its word depends on the kind). -/
def TypeErr.plain (W : World) : TypeErr → Err
  | .encType t => .unsupported (match W.resolve t with | .uint _ => "uintptr" | _ => "type")
  | .encKey _ => .unsupported "map key"
  | .encPtr _ | .encPtrField _ => .unsupported "nested pointer"
  | .encAnon _ | .decAnon => .unsupported "anonymous struct field"
  | .encString _ => .unsupported "as string"
  | .decPtr _ => .unsupported "pointer to pointer"
  | .decString _ => .unsupported "string option"
  | .decKeys _ _ => .unsupported "duplicate keys"

/-- The texts: encoder/compile.go:50, 82-84, encoder/error.go:19-21, encoder/ptr.go:11, encoder/struct.go:127, 133, errors/error.go:56-58,
decoder/compile.go:279, 315. `PointerTo` of a type is shown as a star and the type. -/
def TypeErr.text (F : Fmt) : TypeErr → Bytes
  | .encType t => lit "failed to build encoder, unsupported type " ++ F.typ (some t) ++ lit " (kind " ++ F.kind t ++ lit ")"
  | .encKey k => lit "php serialize: unsupported type as key of map: " ++ F.typ (some k)
  | .encPtr e => lit "encoding nested ptr is not supported *" ++ F.typ (some e)
  | .encPtrField t => lit "encoding nested ptr is not supported " ++ F.typ (some t)
  | .encAnon t => lit "supported for Anonymous struct field has been removed: " ++ F.typ (some t)
  | .encString t => lit "failed to build encoder for struct field (as string), unsupported type " ++ F.typ (some t) ++ lit " (kind " ++ F.kind t ++ lit ")"
  | .decPtr e => lit "php-serialize: unsupported type: *" ++ F.typ (some e)
  | .decString t => lit "php-serialize: unsupported type: " ++ F.typ (some t)
  | .decAnon => lit "anonymous struct field is not supported"
  | .decKeys t key => lit "found duplicate keys for struct " ++ F.typ (some t) ++ lit ": " ++ key

/-- What preparing a type comes to: the results of `compile`, encoder/compile.go:14 and decoder/compile.go:55. It never panics (`C49`, `C10`); `diverge`
stands for no return, as in `Res`. -/
inductive Prep (α : Type) where
  | ok (a : α)
  | err (e : TypeErr)
  | diverge
deriving DecidableEq, Repr

/-- Go on after a call that returned no error: the `if err != nil { return nil, err }` of encoder/slice.go:15-17, decoder/compile.go:228-230 and the like. -/
def Prep.andThen {α β : Type} (r : Prep α) (k : α → Prep β) : Prep β :=
  match r with
  | .ok a => k a
  | .err e => .err e
  | .diverge => .diverge

/-! ### Encoder -/

/-- `compileSlice`, encoder/slice.go:7-36, like `compileESlice`. -/
def prepESlice (rec : List Ty → Ty → Prep (List Ty)) (seen : List Ty) (t e : Ty) : Prep (List Ty) :=
  if seen.contains t then .ok seen else rec (t :: seen) e

/-- `compileMap`, encoder/map.go:8-65, like `compileEMap`. -/
def prepEMap (W : World) (rec : List Ty → Ty → Prep (List Ty)) (seen : List Ty) (t k v : Ty) : Prep (List Ty) :=
  if seen.contains t then .ok seen
  else if !W.mapKeyOk k then .err (.encKey k)
  else rec (t :: seen) v

/-- The field loop of `compileStructFieldsEncoders`, encoder/struct.go:113-166, like `compileEFields`. -/
def prepEFields (W : World) (rec : List Ty → Ty → Prep (List Ty)) : List Ty → List Field → Prep (List Ty)
  | seen, [] => .ok seen
  | seen, f :: fs =>
    let tag := structTag W f
    if decide (tag.key = [45]) || !f.exported then prepEFields W rec seen fs
    else if W.isPtr f.ty && W.isPtr (fieldElem W f.ty) then .err (.encPtrField f.ty)
    else if f.anon && W.isStruct f.ty then .err (.encAnon f.ty)
    else if tag.isString then
      if asStringOk W (fieldElem W f.ty) then prepEFields W rec seen fs else .err (.encString (fieldElem W f.ty))
    else (rec seen (fieldElem W f.ty)).andThen fun seen => prepEFields W rec seen fs

/-- `compileStruct`, encoder/struct.go:31-54, like `compileEStruct`. -/
def prepEStruct (W : World) (rec : List Ty → Ty → Prep (List Ty)) (seen : List Ty) (t : Ty) (fs : List Field) : Prep (List Ty) :=
  if seen.contains t then .ok seen else prepEFields W rec (t :: seen) fs

/-- `compilePtr`, encoder/ptr.go:8-40, like `compileEPtr`. -/
def prepEPtr (W : World) (rec : List Ty → Ty → Prep (List Ty)) (seen : List Ty) (e : Ty) : Prep (List Ty) :=
  match W.resolve e with
  | .ptr _ => .err (.encPtr e)
  | .bool | .int _ | .f32 | .f64 | .str | .any | .iface _ => .ok seen
  | .uint k => if k = .uptr then rec seen e else .ok seen
  | .map k v => prepEMap W rec seen e k v
  | .struct id => prepEStruct W rec seen e (W.fields id)
  | _ => rec seen e

/-- `compile`, encoder/compile.go:14-51, with `compileArray`, encoder/array.go:7-25, like `compileE`. -/
def prepE (W : World) : Nat → List Ty → Ty → Prep (List Ty)
  | 0, _, _ => .diverge
  | f + 1, seen, t =>
    if W.marOf t then .ok seen
    else if t = .slice (.uint .u8) then .ok seen
    else match W.resolve t with
      | .bool | .int _ | .f32 | .f64 | .str | .any | .iface _ => .ok seen
      | .uint k => if k = .uptr then .err (.encType t) else .ok seen
      | .struct id => prepEStruct W (prepE W f) seen t (W.fields id)
      | .array _ e => (prepE W f [] e).andThen fun _ => .ok seen
      | .slice e => prepESlice (prepE W f) seen t e
      | .map k v => prepEMap W (prepE W f) seen t k v
      | .ptr e => prepEPtr W (prepE W f) seen e
      | .other | .named _ => .err (.encType t)

/-! ### Decoder -/

/-- `newWrappedStringDecoder`, decoder/wrapped_string.go:23-49, with `wrapString`, 138-142: the type named is that of the innermost decoder looked at. -/
def wrapType (W : World) (t : Ty) : Ty :=
  match W.unmOf t, W.resolve t with
  | none, .ptr e => e
  | _, _ => t

/-- The field loop of `compileStruct`, decoder/compile.go:271-306, like `compileDFields`. -/
def prepDFields (W : World) (rec : Ty → Prep Unit) : List Field → Prep Unit
  | [] => .ok ()
  | f :: fs =>
    if isIgnored f then prepDFields W rec fs
    else if embedded W f then .err .decAnon
    else
      (rec f.ty).andThen fun _ =>
      if (structTag W f).isString && stringTagOk W f.ty && !canWrap W f.ty then .err (.decString (wrapType W f.ty))
      else prepDFields W rec fs

/-- The loop at the end of `compileStruct`, decoder/compile.go:312-320: the first key that came up before, if there is one. -/
def firstDup : List Bytes → List Bytes → Option Bytes
  | _, [] => none
  | seen, k :: ks => if seen.contains k then some k else firstDup (k :: seen) ks

/-- `compile`, decoder/compile.go:55-110, with the functions it calls, like `compileD`. -/
def prepD (W : World) : Nat → List Ty → Ty → Prep Unit
  | 0, _, _ => .diverge
  | f + 1, busy, t =>
    match W.unmOf t, W.resolve t with
    | some _, _ => .ok ()
    | none, .ptr e =>
      (prepD W f busy e).andThen fun _ => if W.isPtr e then .err (.decPtr e) else .ok ()
    | none, .struct id =>
      if busy.contains t then .ok ()
      else
        (prepDFields W (prepD W f (t :: busy)) (W.fields id)).andThen fun _ =>
        match firstDup [] ((fieldSets W 0 (W.fields id)).map (·.key)) with
        | some k => .err (.decKeys t k)
        | none => .ok ()
    | none, .slice e => if W.isByte e then .ok () else prepD W f busy e
    | none, .array _ e => prepD W f busy e
    | none, .map k v =>
      (match W.unmOf k, W.resolve k with
        | some _, _ => .ok ()
        | none, .str => .ok ()
        | none, _ => prepD W f busy k : Prep Unit).andThen fun _ => prepD W f busy v
    | none, _ => .ok ()

end Verif

import Verif.Model.Decode
/-
Model of the type checks that /repo/internal/decoder/compile.go makes before anything is decoded. The decoder objects
themselves are represented by the types (see Model/Decode.lean); what remains of compilation is whether it returns a
decoder, returns an error, or never returns.
-/
namespace Verif

/-- The check for embedded structs in `compileStruct`, compile.go:278-282. -/
def embedded (W : World) (f : Field) : Bool :=
  f.anon && match W.resolve f.ty with
    | .struct _ => true
    | .ptr e => match W.resolve e with
      | .struct _ => true
      | _ => false
    | _ => false

/-- `newWrappedStringDecoder`, wrapped_string.go:23-49: only bool, integer and float decoders, or a pointer to one of
those, can be wrapped. -/
def canWrap (W : World) (t : Ty) : Bool :=
  match W.unmOf t, W.resolve t with
  | none, .ptr e => wrappable W e
  | _, _ => wrappable W t

/-- The duplicate-key check at the end of `compileStruct`, compile.go:308-317. -/
def noDupKeys : List Bytes → Bool
  | [] => true
  | k :: ks => !ks.contains k && noDupKeys ks

/-- The field loop of `compileStruct`, compile.go:271-306; `rec` compiles the type of a field. -/
def compileDFields (W : World) (rec : Ty → Res Unit) : List Field → Res Unit
  | [] => .ok ()
  | f :: fs =>
    if isIgnored f then compileDFields W rec fs
    else if embedded W f then .err (.unsupported "anonymous struct field")
    else
      rec f.ty >>= fun _ =>
      if (structTag W f).isString && stringTagOk W f.ty && !canWrap W f.ty then .err (.unsupported "string option")
      else compileDFields W rec fs

/-- `compile`, compile.go:55-110, with `compilePtr` 158-164 (and newPtrDecoder, ptr.go:16-21), `compileSlice` 226-233,
`compileArray` 235-242, `compileMap` 244-254, `compileMapKey` 132-156, `compileStruct` 260-325. `busy` holds the struct
types in `structTypeToDecoder`, that is, those whose compilation has begun and not ended. Fuel bounds the nesting of
calls. -/
def compileD (W : World) : Nat → List Ty → Ty → Res Unit
  | 0, _, _ => .diverge
  | f + 1, busy, t =>
    match W.unmOf t, W.resolve t with
    | some _, _ => .ok ()
    | none, .ptr e =>
      compileD W f busy e >>= fun _ => if W.isPtr e then .err (.unsupported "pointer to pointer") else .ok ()
    | none, .struct id =>
      if busy.contains t then .ok ()
      else
        compileDFields W (compileD W f (t :: busy)) (W.fields id) >>= fun _ =>
        if noDupKeys ((fieldSets W 0 (W.fields id)).map (·.key)) then .ok () else .err (.unsupported "duplicate keys")
    | none, .slice e => if W.isByte e then .ok () else compileD W f busy e
    | none, .array _ e => compileD W f busy e
    | none, .map k v =>
      (match W.unmOf k, W.resolve k with
        | some _, _ => .ok ()
        | none, .str => .ok ()
        | none, _ => compileD W f busy k) >>= fun _ => compileD W f busy v
    | none, _ => .ok ()

end Verif

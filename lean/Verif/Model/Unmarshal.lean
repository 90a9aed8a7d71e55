import Verif.Model.DecCompile
/-
Model of /repo/unmarshal.go.
-/
namespace Verif

/-- The second argument of `Unmarshal`, as far as unmarshal.go:29-36 distinguishes it. -/
inductive Dst where
  /-- a nil interface -/
  | nilIface
  /-- a value that is not a pointer -/
  | nonPtr
  /-- a nil pointer -/
  | nilPtr
  /-- a pointer to a variable of type `t` that holds `v` -/
  | ptr (t : Ty) (v : Val)

/-- `validateEndBuf`, unmarshal.go:54-63. -/
def validateEndBuf (src : Bytes) (c : Nat) : Res Unit :=
  if src.length = c then .ok ()
  else idx src c >>= fun b => .err (.trailing b (c + 1))

/-- `unmarshal` for a non-nil pointer, unmarshal.go:37-51: the variable afterwards and the outcome. `fuel` bounds the
nesting of `compile` calls; the decoder cache of CompileToGetDecoder (compile.go:21-35) is modelled in Model/Cache.lean. -/
def unmarshalInto (W : World) (fuel : Nat) (data : Bytes) (t : Ty) (v : Val) : Val × Res Unit :=
  onOk v (compileD W fuel [] t) fun _ =>
  match decodeF W data (data.length + 1) t 0 0 v with
  | (v', r) => onOk v' r fun c => (v', validateEndBuf data c)

/-- `Unmarshal` and `unmarshal`, unmarshal.go:21-52, with `validateValue` 65-70. Returns the variable pointed to
afterwards (if there is one) and the outcome. -/
def unmarshal (W : World) (fuel : Nat) (data : Bytes) (dst : Dst) : Option Val × Res Unit :=
  let before := match dst with | .ptr _ v => some v | _ => none
  if data.length = 0 then (before, .err .emptyInput)
  else match dst with
    | .nilIface => (none, .panic .zeroValue)
    | .nonPtr => (none, .err .invalidUnmarshal)
    | .nilPtr => (none, .err .invalidUnmarshal)
    | .ptr t v => match unmarshalInto W fuel data t v with
      | (v', r) => (some v', r)

end Verif

/-
Basic vocabulary of the model: bytes, outcomes of Go calls, checked indexing and slicing.
-/
namespace Verif

/-- Go `byte`. -/
abbrev Byte := UInt8

/-- Go `[]byte` / `string` contents. Capacities and sharing are not part of this type;
they are modelled separately in `Model/Alias.lean`. -/
abbrev Bytes := List UInt8

/-- Reasons for a Go run-time panic that the modelled code can produce. -/
inductive Panic where
  /-- index out of range -/
  | index
  /-- slice bounds out of range -/
  | slice
  /-- a `reflect.Value` method called on a value of the wrong kind -/
  | reflectKind
  /-- `reflect.Value.Type` on the zero `Value` (unmarshal.go:32 with a nil destination) -/
  | zeroValue
  /-- `reflect.MakeSlice` with a negative length or an allocation size out of range -/
  | makeSlice
  /-- hash of unhashable type, raised by `SetMapIndex` -/
  | unhashable
  /-- nil pointer dereference / method call on a nil interface -/
  | nilDeref
  /-- panic raised by user code -/
  | user
deriving DecidableEq, Repr

/-- Signed integer kinds (reflect.Int8 … reflect.Int64, reflect.Int); cases of compile.go:80-89. -/
inductive IKind where
  | i8 | i16 | i32 | i64 | int
deriving DecidableEq, Repr

/-- Unsigned integer kinds; cases of compile.go:78-79, 90-99. -/
inductive UKind where
  | u8 | u16 | u32 | u64 | uint | uptr
deriving DecidableEq, Repr

/-- Go types, as far as the code distinguishes them by `reflect.Kind` (compile.go:55-110). Struct types and declared
(named) types are referred to by number, so recursive types are representable. `any` is an interface type without
methods, `iface` one with methods, `other` stands for channels, functions, complex numbers and unsafe pointers. -/
inductive Ty where
  | bool
  | int (k : IKind)
  | uint (k : UKind)
  | f32
  | f64
  | str
  | slice (e : Ty)
  | array (n : Nat) (e : Ty)
  | map (k v : Ty)
  | ptr (e : Ty)
  | struct (id : Nat)
  | any
  | iface (id : Nat)
  | other
  | named (id : Nat)
deriving DecidableEq, Repr

/-- The names that a decoder carries for its errors: of the struct type and of its field (the last two parameters of the constructors in
/repo/internal/decoder, e.g. int.go:13-14). -/
structure Names where
  strct : Bytes
  field : Bytes
deriving DecidableEq, Repr

/-- `Struct`, `Field` and `Type` of an `UnmarshalTypeError`, error.go:33-39. A `Type` that the model does not know (one given by user code) is `none`. -/
structure Blame where
  names : Names
  type : Option Ty
deriving DecidableEq, Repr

/-- What an error speaks of: fixed words; the text of a number, as in the `Value` that `intDecoder.typeError` (int.go:26-28) and
`uintDecoder.typeError` (uint.go:27-29) write; or the argument of a function of strconv whose error is handed on
(float.go:66, wrapped_string.go:81). -/
inductive What where
  | lit (s : String)
  | number (txt : Bytes)
  | strconv (fn : String) (txt : Bytes)
deriving DecidableEq, Repr

instance : Coe String What := ⟨.lit⟩

/-- The value in an `overflowError`, error.go:132-135: an int64 (int.go:144), a uint64 (uint.go:72) or a float64 (float.go:70). -/
inductive Over where
  | int (i : Int)
  | uint (n : Nat)
  | float (x : UInt64)
deriving DecidableEq, Repr

/-- Errors built by /repo/internal/errors/error.go:69-139 and by `fmt.Errorf` calls; message texts are
kept as tags (Model/ErrText makes them texts), type names are dropped. -/
inductive Err where
  /-- `ErrSyntax`, error.go:69-71 -/
  | syntaxErr (msg : What) (off : Int)
  /-- `ErrExceededMaxDepth`, error.go:73-78 -/
  | maxDepth (c : Byte) (off : Int)
  /-- `ErrUnexpectedStart`, error.go:80-85 -/
  | unexpectedStart (what : String) (off : Int) (c : Byte)
  /-- `ErrUnexpectedEnd`, error.go:87-92 -/
  | unexpectedEnd (what : String) (off : Int)
  /-- `ErrUnexpected`, error.go:94-96 -/
  | unexpected (what : String) (off : Int) (c : Byte)
  /-- `ErrInvalidCharacter`, error.go:98-109 -/
  | invalidChar (c : Byte) (what : String) (off : Int)
  /-- `ErrInvalidBeginningOfValue`, error.go:111-116 -/
  | beginValue (c : Byte) (off : Int)
  /-- `ErrInvalidBeginningOfArray`, error.go:118-123 -/
  | beginArray (c : Byte) (off : Int)
  /-- `ErrSyntax` as made by validateEndBuf, unmarshal.go:59-62: "invalid character … after top-level value" -/
  | trailing (c : Byte) (off : Int)
  /-- `ErrOverflow`, error.go:125-130: the value, and the type of the destination, of which the error names the kind -/
  | overflow (v : Over) (ty : Ty)
  /-- `UnmarshalTypeError`, error.go:33-39; its `Struct`, `Field` and `Type` are known in Model/DecObj only -/
  | typeError (what : What) (off : Int) (blame : Option Blame := none)
  /-- `InvalidUnmarshalError`, error.go:8-10 -/
  | invalidUnmarshal
  /-- `UnsupportedTypeError` and the other compile-time errors of both packages -/
  | unsupported (what : String)
  /-- the "empty bytes" error of unmarshal.go:22-24 -/
  | emptyInput
  /-- "php: try to encode recursive value", ptr.go:65,93 and interface.go:61 -/
  | recursive
  /-- an error returned by user code -/
  | user (n : Nat)
deriving DecidableEq, Repr

/-- Outcome of a Go call: a result, a returned error, a run-time panic, or no return at all
(the model's fuel is exhausted). -/
inductive Res (α : Type) where
  | ok (a : α)
  | err (e : Err)
  | panic (p : Panic)
  | diverge
deriving DecidableEq, Repr

namespace Res

/-- Sequencing: the Go idiom `x, err := f(); if err != nil { return err }`; a panic propagates.
Models statement sequencing of Go (no file in /repo). -/
@[inline] protected def bind {α β : Type} (x : Res α) (f : α → Res β) : Res β :=
  match x with
  | .ok a => f a
  | .err e => .err e
  | .panic p => .panic p
  | .diverge => .diverge

instance : Monad Res where
  pure := .ok
  bind := Res.bind

@[simp] theorem bind_ok {α β} (a : α) (f : α → Res β) : (Res.ok a >>= f) = f a := rfl
@[simp] theorem bind_err {α β} (e : Err) (f : α → Res β) : ((Res.err e : Res α) >>= f) = .err e := rfl
@[simp] theorem bind_panic {α β} (e : Panic) (f : α → Res β) : ((Res.panic e : Res α) >>= f) = .panic e := rfl
@[simp] theorem bind_diverge {α β} (f : α → Res β) : ((Res.diverge : Res α) >>= f) = .diverge := rfl

theorem bind_eq_ok {α β} {x : Res α} {f : α → Res β} {b : β} :
    (x >>= f) = .ok b ↔ ∃ a, x = .ok a ∧ f a = .ok b := by
  cases x <;> simp

/-- A returned error is replaced (Go: `if err != nil { err = f(err) }`; no file in /repo). -/
def mapErr {α} (f : Err → Err) : Res α → Res α
  | .err e => .err (f e)
  | r => r

@[simp] theorem mapErr_eq_ok {α} {f : Err → Err} {r : Res α} {a : α} : r.mapErr f = .ok a ↔ r = .ok a := by cases r <;> simp [mapErr]
@[simp] theorem mapErr_ok {α} {f : Err → Err} {a : α} : (Res.ok a).mapErr f = .ok a := rfl

/-- The call returned, normally or with an error (observation on outcomes, no file in /repo). -/
def Returns {α} : Res α → Prop
  | .ok _ => True
  | .err _ => True
  | _ => False

@[simp] theorem returns_ok {α} (a : α) : (Res.ok a).Returns := trivial
@[simp] theorem returns_err {α} (e : Err) : (Res.err e : Res α).Returns := trivial
@[simp] theorem returns_panic {α} (p : Panic) : ¬ (Res.panic p : Res α).Returns := id
@[simp] theorem returns_diverge {α} : ¬ (Res.diverge : Res α).Returns := id

theorem returns_bind {α β} {x : Res α} {f : α → Res β} (hx : x.Returns) (hf : ∀ a, x = .ok a → (f a).Returns) :
    (x >>= f).Returns := by
  cases x <;> simp_all

theorem returns_ite {α} {c : Prop} [Decidable c] {x y : Res α} (hx : c → x.Returns) (hy : ¬ c → y.Returns) :
    (if c then x else y).Returns := by
  split <;> simp_all

theorem Returns.cases {α} {x : Res α} (h : x.Returns) : (∃ a, x = .ok a) ∨ ∃ e, x = .err e := by
  cases x <;> simp_all

end Res

/-- Go `b[i]`: panics when out of range. `i` is a natural number because the modelled cursors
start at 0 and only grow. -/
def idx (b : Bytes) (i : Nat) : Res Byte :=
  match b[i]? with
  | some x => .ok x
  | none => .panic .index

/-- Go `b[i]` where the length has been checked before (`hasByte`), as in the arguments of `ErrExceededMaxDepth`, slice.go:58, array.go:39,
map.go:38, struct.go:56. -/
def byteAt (b : Bytes) (i : Nat) : Byte := b[i]?.getD 0

/-- Go `b[lo:hi]`: panics unless `lo <= hi <= len(b)`. (Go allows `hi` up to the capacity; all buffers
sliced by the modelled code have `cap = len`, see unmarshal.go:37.) -/
def sub (b : Bytes) (lo hi : Nat) : Res Bytes :=
  if lo ≤ hi ∧ hi ≤ b.length then .ok ((b.drop lo).take (hi - lo)) else .panic .slice

/-- int64 wrap-around of a mathematical integer (Go spec, integer overflow). -/
def wrap64 (x : Int) : Int := (x + 2 ^ 63) % 2 ^ 64 - 2 ^ 63

/-! ASCII codes used by the format. -/
abbrev cMinus : Byte := 45
abbrev c0 : Byte := 48
abbrev c1 : Byte := 49
abbrev cColon : Byte := 58
abbrev cSemi : Byte := 59
abbrev cQuote : Byte := 34
abbrev cLBrace : Byte := 123
abbrev cRBrace : Byte := 125
abbrev cO : Byte := 79
abbrev cN : Byte := 78
abbrev ca : Byte := 97
abbrev cb : Byte := 98
abbrev cd : Byte := 100
abbrev ci : Byte := 105
abbrev cs : Byte := 115

end Verif

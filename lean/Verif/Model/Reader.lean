import Verif.Model.Unmarshal
/-
Which bytes of its buffer a decoder looks at, and in what order. Every function of Model/Lex.lean and Model/Decode.lean that takes the buffer
has a counterpart here that takes the length of the buffer only and asks for single bytes.

A slice of the buffer is not a look at its bytes. They are looked at when they are used: once when a text is parsed, converted to a string,
used as a key or stored (a `[]byte` is stored without copying, which counts as one look), and once when it is passed to a method of the program.
Left out: the second look of `parseInt64` at leading zeros (int.go:58-60), the byte repeated in an error message, and what methods do.
-/
namespace Verif

/-- A computation that looks at bytes of a buffer: it is done, or it asks for the byte at a position (Go `b[i]`; no file in /repo). -/
inductive Reader (α : Type) where
  | done (a : α)
  | look (i : Nat) (k : Option Byte → Reader α)

namespace Reader

/-- One computation after another (Go statement sequencing). -/
def bind {α β : Type} (f : α → Reader β) : Reader α → Reader β
  | .done a => f a
  | .look i k => .look i fun x => bind f (k x)

/-- What a computation comes to if the buffer is `b` (Go index expression). -/
def outcome {α : Type} (b : Bytes) : Reader α → α
  | .done a => a
  | .look i k => outcome b (k b[i]?)

/-- The positions that a computation looks at if the buffer is `b`, in order and with repetitions (Go index expression; an index out of range looks at nothing). -/
def seen {α : Type} (b : Bytes) : Reader α → List Nat
  | .done _ => []
  | .look i k => if i < b.length then i :: seen b (k b[i]?) else seen b (k b[i]?)

/-- Sequencing with error and panic propagation, as `Res.bind` (Go `if err != nil { return err }`). -/
def andThen {α β : Type} (x : Reader (Res α)) (f : α → Reader (Res β)) : Reader (Res β) :=
  x.bind fun
    | .ok a => f a
    | .err e => .done (.err e)
    | .panic p => .done (.panic p)
    | .diverge => .done .diverge

/-- Sequencing with the destination left behind, as `onOk` of Model/Decode.lean. -/
def onOk {α β : Type} (rv : Val) (x : Reader (Res α)) (f : α → Reader (Val × Res β)) : Reader (Val × Res β) :=
  x.bind fun
    | .ok a => f a
    | .err e => .done (rv, .err e)
    | .panic p => .done (rv, .panic p)
    | .diverge => .done (rv, .diverge)

/-- Go `b[i]`. -/
def byte (i : Nat) : Reader (Res Byte) :=
  .look i fun
    | some x => .done (.ok x)
    | none => .done (.panic .index)

/-- The bytes at `i`, `i + 1`, …, `i + n - 1`, one look each (a loop over a slice). -/
def bytes (i : Nat) : Nat → Reader Bytes
  | 0 => .done []
  | n + 1 => .look i fun x => (bytes (i + 1) n).bind fun r => .done (x.toList ++ r)

end Reader

/-- Go `b[lo:hi]` of a buffer of length `n`: the two ends, or a panic. -/
def subR (n lo hi : Nat) : Res (Nat × Nat) := if lo ≤ hi ∧ hi ≤ n then .ok (lo, hi) else .panic .slice

/-- The bytes of a slice that was read together with a cursor are looked at. -/
def fetch (x : Reader (Res ((Nat × Nat) × Nat))) : Reader (Res (Bytes × Nat)) :=
  x.andThen fun (w, e) => (Reader.bytes w.1 (w.2 - w.1)).bind fun t => .done (.ok (t, e))

/-! ### context.go -/

/-- `hasByte`, context.go:52-54. -/
def hasByteR (n c : Nat) : Bool := decide (c < n)

/-- `hasBytes`, context.go:56-58. -/
def hasBytesR (n : Nat) (c size : Int) : Bool := decide (0 ≤ c ∧ 0 ≤ size ∧ c ≤ (n : Int) - size)

/-- The loops `for hasByte(buf, cursor) && p(buf[cursor]) { cursor++ }`, context.go:71-73, 309-311, 339-341; at most `f` bytes are left. -/
def scanR (p : Byte → Bool) : Nat → Nat → Reader Nat
  | 0, c => .done c
  | f + 1, c => .look c fun
    | some x => if p x then scanR p f (c + 1) else .done c
    | none => .done c

/-- `skipLengthWithBothColon`, context.go:61-88. -/
def skipLengthR (n c : Nat) : Reader (Res Nat) :=
  if !hasByteR n c then .done (.err (.unexpectedEnd "length" c)) else
  (Reader.byte c).andThen fun b =>
  if b ≠ cColon then .done (.err (.unexpected "':' before length" c b)) else
  let start := c + 1
  (scanR isDigit (n - start) start).bind fun c =>
  if c = start then .done (.err (.syntaxErr "length requires at least one digit" c)) else
  if !hasByteR n c then .done (.err (.unexpectedEnd "length" c)) else
  (Reader.byte c).andThen fun b =>
  if b ≠ cColon then .done (.err (.unexpected "':' after length" c b)) else
  .done (.ok (c + 1))

/-- The outcome of `parseInt64` in `readLength`, context.go:239-243. -/
def lengthOf (c : Nat) (txt : Bytes) (e : Nat) : Res (Int × Nat) :=
  match parseInt64 txt with
  | .ok length => if length < 0 then .err (.syntaxErr "invalid length" (c + 1)) else .ok (length, e)
  | .err _ => .err (.syntaxErr "invalid length" (c + 1))
  | .panic p => .panic p
  | .diverge => .diverge

/-- `readLength`, context.go:234-244, and `readLengthInt`, 247-258. -/
def readLengthR (n c : Nat) : Reader (Res (Int × Nat)) :=
  (fetch ((skipLengthR n c).andThen fun e => (Reader.done (subR n (c + 1) (e - 1))).andThen fun w => .done (.ok (w, e)))).andThen fun (t, e) =>
  .done (lengthOf c t e)

/-- `skipClassName`, context.go:91-114. -/
def skipClassNameR (n c : Nat) : Reader (Res Nat) :=
  if !hasByteR n c then .done (.err (.unexpectedEnd "object" c)) else
  (Reader.byte c).andThen fun b =>
  if b ≠ cO then .done (.err (.unexpectedEnd "object" c)) else
  (readLengthR n (c + 1)).andThen fun (classLen, start) =>
  if !hasByteR n start then .done (.err (.unexpectedEnd "class name" start)) else
  (Reader.byte start).andThen fun b =>
  if b ≠ cQuote then .done (.err (.unexpectedEnd "class name" start)) else
  let e := wrap64 ((start : Int) + classLen + 1)
  if !hasBytesR n e 2 then .done (.err (.unexpectedEnd "class name" e)) else
  (Reader.byte e.toNat).andThen fun b =>
  if b ≠ cQuote then .done (.err (.unexpected "class name quoted '\"'" e b)) else
  (Reader.byte (e.toNat + 1)).andThen fun b =>
  if b ≠ cColon then .done (.err (.unexpected "':' after class name" (e + 1) b)) else
  .done (.ok e.toNat)

/-- `readString`, context.go:261-288: the place of the content and the cursor after ';'. -/
def readStringR (n c : Nat) : Reader (Res ((Nat × Nat) × Nat)) :=
  (readLengthR n c).andThen fun (sLen, e) =>
  if !hasByteR n e then .done (.err (.unexpectedEnd "string" e)) else
  (Reader.byte e).andThen fun b =>
  if b ≠ cQuote then .done (.err (.unexpected "string quoted '\"'" e b)) else
  let start := e + 1
  if !hasBytesR n start (wrap64 (sLen + 2)) then .done (.err (.unexpectedEnd "string" start)) else
  let e := start + sLen.toNat
  (Reader.byte e).andThen fun b =>
  if b ≠ cQuote then .done (.err (.unexpected "string quoted '\"'" e b)) else
  let c := e + 1
  (Reader.byte c).andThen fun b =>
  if b ≠ cSemi then .done (.err (.unexpected "string end ';'" c b)) else
  (Reader.done (subR n start e)).andThen fun w => .done (.ok (w, c + 1))

/-- `readIntegerBytes`, context.go:290-322. -/
def readIntegerR (n c : Nat) : Reader (Res ((Nat × Nat) × Nat)) :=
  if !hasByteR n c then .done (.err (.unexpectedEnd "integer" c)) else
  (Reader.byte c).andThen fun b =>
  if b ≠ ci then .done (.err (.unexpected "'i' to start an integer" c b)) else
  if !hasBytesR n c 3 then .done (.err (.unexpectedEnd "integer" c)) else
  (Reader.byte (c + 1)).andThen fun b =>
  if b ≠ cColon then .done (.err (.unexpected "int separator ':'" (c + 1) b)) else
  let start := c + 2
  (Reader.byte start).andThen fun b =>
  let digitStart := if b = cMinus then start + 1 else start
  (scanR isDigit (n - digitStart) digitStart).bind fun c =>
  if c = digitStart then .done (.err (.syntaxErr "integer requires at least one digit" c)) else
  if !hasByteR n c then .done (.err (.unexpectedEnd "integer" c)) else
  (Reader.byte c).andThen fun b =>
  if b ≠ cSemi then .done (.err (.unexpected "';' after integer" c b)) else
  (Reader.done (subR n start c)).andThen fun w => .done (.ok (w, c + 1))

/-- `readFloatBytes`, context.go:324-349. -/
def readFloatR (n c : Nat) : Reader (Res ((Nat × Nat) × Nat)) :=
  if !hasByteR n c then .done (.err (.unexpectedEnd "float" c)) else
  (Reader.byte c).andThen fun b =>
  if b ≠ cd then .done (.err (.unexpected "'d' to start a float" c b)) else
  if !hasBytesR n c 3 then .done (.err (.unexpectedEnd "float" c)) else
  (Reader.byte (c + 1)).andThen fun b =>
  if b ≠ cColon then .done (.err (.unexpected "float separator ':'" (c + 1) b)) else
  let start := c + 2
  (scanR (fun x => x != cSemi) (n - start) start).bind fun c =>
  if c = start then .done (.err (.syntaxErr "float requires a value" c)) else
  if !hasByteR n c then .done (.err (.unexpectedEnd "float" c)) else
  (Reader.done (subR n start c)).andThen fun w => .done (.ok (w, c + 1))

/-- `readBool`, context.go:351-378. -/
def readBoolR (n c : Nat) : Reader (Res Bool) :=
  if !hasBytesR n c 4 then .done (.err (.unexpectedEnd "bool" c)) else
  (Reader.byte c).andThen fun b =>
  if b ≠ cb then .done (.err (.invalidChar b "bool" c)) else
  (Reader.byte (c + 1)).andThen fun b =>
  if b ≠ cColon then .done (.err (.invalidChar b "bool" c)) else
  (Reader.byte (c + 2)).andThen fun b =>
  if b ≠ c1 ∧ b ≠ c0 then .done (.err (.invalidChar b "bool" c)) else
  let v := decide (b = c1)
  (Reader.byte (c + 3)).andThen fun b =>
  if b ≠ cSemi then .done (.err (.invalidChar b "bool" (c + 3))) else
  .done (.ok v)

/-- `validateNull`, context.go:223-231. -/
def validateNullR (n c : Nat) : Reader (Res Unit) :=
  if c + 1 ≥ n then .done (.err (.unexpectedEnd "null" c)) else
  (Reader.byte (c + 1)).andThen fun b =>
  if b ≠ cSemi then .done (.err (.invalidChar b "null" c)) else
  .done (.ok ())

/-- `validateEmptyArray`, context.go:204-221. -/
def validateEmptyArrayR (n c : Nat) : Reader (Res Unit) :=
  if c + 4 > n then .done (.err (.unexpectedEnd "array" c)) else
  (Reader.byte (c + 1)).andThen fun b =>
  if b ≠ cColon then .done (.err (.unexpected "':' before array length" (c + 1) b)) else
  (Reader.byte (c + 2)).andThen fun b =>
  if b ≠ cLBrace then .done (.err (.beginArray b (c + 2))) else
  (Reader.byte (c + 3)).andThen fun b =>
  if b ≠ cRBrace then .done (.err (.unexpected "empty array end with '}'" (c + 3) b)) else
  .done (.ok ())

/-- The outcome of `parseInt64` in `readInt`, int.go:158-162. -/
def indexOf (c : Nat) (txt : Bytes) (e : Nat) : Res (Nat × Nat) :=
  match parseInt64 txt with
  | .ok v => if v < 0 then .err (.syntaxErr "invalid array index" (c + 2)) else .ok (v.toNat, e)
  | .err _ => .err (.syntaxErr "invalid array index" (c + 2))
  | .panic p => .panic p
  | .diverge => .diverge

/-- `readInt` (array index), int.go:152-163. -/
def readIntR (n c : Nat) : Reader (Res (Nat × Nat)) := (fetch (readIntegerR n c)).andThen fun (t, e) => .done (indexOf c t e)

/-- `skipInt`, context.go:119-122: the text is not looked at again. -/
def skipIntR (n c : Nat) : Reader (Res Nat) := (readIntegerR n c).andThen fun (_, e) => .done (.ok e)

/-- `skipString`, context.go:124-130: the content is not looked at. -/
def skipStringR (n c : Nat) : Reader (Res Nat) :=
  if !hasByteR n c then .done (.err (.unexpectedEnd "string" c)) else
  (Reader.byte c).andThen fun b =>
  if b ≠ cs then .done (.err (.unexpectedEnd "string" c)) else
  (readStringR n (c + 1)).andThen fun (_, e) => .done (.ok e)

/-- The loop `for range length { skipValue; skipValue }`, context.go:148-157. -/
def skipPairsR (skip : Nat → Reader (Res Nat)) : Nat → Nat → Reader (Res Nat)
  | 0, c => .done (.ok c)
  | m + 1, c =>
    (skip c).andThen fun c =>
    (skip c).andThen fun c =>
    skipPairsR skip m c

/-- `skipArray`, context.go:132-165. -/
def skipArrayR (skip : Nat → Reader (Res Nat)) (n c depth : Nat) : Reader (Res Nat) :=
  if depth > maxDepth then .done (.err (.maxDepth ca c)) else
  (readLengthR n c).andThen fun (length, e) =>
  let c := e
  if !hasByteR n c then .done (.err (.unexpectedEnd "array" c)) else
  (Reader.byte c).andThen fun b =>
  if b ≠ cLBrace then .done (.err (.beginArray b c)) else
  (skipPairsR skip length.toNat (c + 1)).andThen fun c =>
  if !hasByteR n c then .done (.err (.unexpectedEnd "array" c)) else
  (Reader.byte c).andThen fun b =>
  if b ≠ cRBrace then .done (.err (.unexpected "'}' after array" c b)) else
  .done (.ok (c + 1))

/-- `skipValue`, context.go:167-201, with fuel for the recursion. -/
def skipValueFR : Nat → Nat → Nat → Nat → Reader (Res Nat)
  | 0, _, _, _ => .done .diverge
  | f + 1, n, c, depth =>
    if !hasByteR n c then .done (.err (.unexpectedEnd "value" c)) else
    (Reader.byte c).andThen fun b =>
    if b = cO then
      (skipClassNameR n c).andThen fun e =>
      skipArrayR (fun c => skipValueFR f n c (depth + 1)) n (e + 1) (depth + 1)
    else if b = ca then
      skipArrayR (fun c => skipValueFR f n c (depth + 1)) n (c + 1) (depth + 1)
    else if b = cs then skipStringR n c
    else if b = cd then (readFloatR n c).andThen fun (_, e) => .done (.ok e)
    else if b = ci then skipIntR n c
    else if b = cb then (readBoolR n c).andThen fun _ => .done (.ok (c + 4))
    else if b = cN then (validateNullR n c).andThen fun _ => .done (.ok (c + 2))
    else .done (.err (.beginValue b c))

/-- `skipValue` as called from outside, context.go:167-201. -/
def skipValueR (n c depth : Nat) : Reader (Res Nat) := skipValueFR (n + 1) n c depth

/-! ### Scalars -/

/-- `intDecoder.decodeByte`, int.go:111-122, and `uintDecoder.decodeBytes`, uint.go:39-50. The text is parsed by all callers. -/
def intBytesR (n c : Nat) : Reader (Res (Option Bytes × Nat)) :=
  if !hasByteR n c then .done (.err (.unexpectedEnd "integer" c)) else
  (Reader.byte c).andThen fun b =>
  if b = cN then (validateNullR n c).andThen fun _ => .done (.ok (none, c + 2))
  else (fetch (readIntegerR n c)).andThen fun (t, e) => .done (.ok (some t, e))

/-- `intDecoder.Decode`, int.go:124-135. -/
def intDecodeR (k : IKind) (n c : Nat) (rv : Val) : Reader DR :=
  (intBytesR n c).onOk rv fun (ob, c) =>
  match ob with
  | none => .done (rv, .ok c)
  | some t => .done (processInt k t c rv)

/-- `uintDecoder.Decode`, uint.go:52-63. -/
def uintDecodeR (k : UKind) (n c : Nat) (rv : Val) : Reader DR :=
  (intBytesR n c).onOk rv fun (ob, c) =>
  match ob with
  | none => .done (rv, .ok c)
  | some t => .done (processUint k t c rv)

/-- `floatDecoder.decodeByte`, float.go:20-37. The text is parsed by all callers. -/
def floatBytesR (n c : Nat) : Reader (Res (Option Bytes × Nat)) :=
  if !hasByteR n c then .done (.err (.unexpectedEnd "float" c)) else
  (Reader.byte c).andThen fun b =>
  if b = cN then (validateNullR n c).andThen fun _ => .done (.ok (none, c + 2))
  else if b = cd then (fetch (readFloatR n c)).andThen fun (t, e) => .done (.ok (some t, e))
  else .done (.err (.unexpected "float start with 'd' or 'N'" c b))

/-- `floatDecoder.Decode`, float.go:39-50. -/
def floatDecodeR (W : World) (is32 : Bool) (n c : Nat) (rv : Val) : Reader DR :=
  (floatBytesR n c).onOk rv fun (ob, c) =>
  match ob with
  | none => .done (rv, .ok c)
  | some t => .done (processFloat W is32 t c rv)

/-- `boolDecoder.Decode`, bool.go:18-41. -/
def boolDecodeR (n c : Nat) (rv : Val) : Reader DR :=
  if !hasByteR n c then .done (rv, .err (.unexpectedEnd "bool" c)) else
  (Reader.byte c).onOk rv fun b =>
  if b = cb then (readBoolR n c).onOk rv fun v => .done (.bool v, .ok (c + 4))
  else if b = cN then (validateNullR n c).onOk rv fun _ => .done (rv, .ok (c + 2))
  else .done (rv, .err (.unexpectedEnd "bool" c))

/-- `stringDecoder.decodeByte`, string.go:44-74. The content is used by all callers: converted, parsed, looked up or stored. -/
def stringBytesR (n c : Nat) : Reader (Res (Option Bytes × Nat)) :=
  if !hasByteR n c then .done (.err (.unexpectedEnd "string" c)) else
  (Reader.byte c).andThen fun b =>
  if b = cN then (validateNullR n c).andThen fun _ => .done (.ok (none, c + 2))
  else if b = cb then .done (.err (.typeError "bool" c))
  else if b = cd then .done (.err (.typeError "float" c))
  else if b = cs then (fetch (readStringR n (c + 1))).andThen fun (s, e) => .done (.ok (some s, e))
  else if b = ci then .done (.err (.typeError "number" c))
  else .done (.err (.beginValue b c))

/-- `stringDecoder.Decode`, string.go:31-42. -/
def stringDecodeR (n c : Nat) (rv : Val) : Reader DR :=
  (stringBytesR n c).onOk rv fun (ob, c) =>
  match ob with
  | none => .done (rv, .ok c)
  | some s => .done (.str s, .ok c)

/-- `wrappedStringDecoder.Decode`, wrapped_string.go:51-67. -/
def wrappedDecodeR (W : World) (t : Ty) (n c : Nat) (rv : Val) : Reader DR :=
  (stringBytesR n c).onOk rv fun (ob, e) =>
  match ob with
  | none => .done (rv, .ok e)
  | some s => match decodeString W t s c rv with
    | (rv', r) => .done (onOk rv' r fun _ => (rv', .ok e))

/-! ### Pointers, slices and arrays -/

/-- `ptrDecoder.Decode`, ptr.go:30-53. -/
def ptrDecodeR (inner : Nat → Nat → Val → Reader DR) (zeroE : Val) (n c depth : Nat) (rv : Val) : Reader DR :=
  (Reader.byte c).onOk rv fun b =>
  if b = cN then (validateNullR n c).onOk rv fun _ => .done (.ptrNil, .ok (c + 2))
  else
    match rv with
    | .ptrNil => (inner c depth zeroE).bind fun (v, r) => .done (.ptr v, r)
    | .ptr v0 => (inner c depth v0).bind fun (v, r) => .done (.ptr v, r)
    | _ => .done (rv, .panic .reflectKind)

/-- The element loop of `sliceDecoder.Decode`, slice.go:109-142. -/
def sliceLoopR (dec : Nat → Val → Reader DR) (zeroE : Val) (esize n : Nat) : Nat → Nat → List Val → Val → Reader DR
  | 0, _, _, rv => .done (rv, .diverge)
  | f + 1, c, slice, rv =>
    if !hasByteR n c then .done (rv, .err (.unexpectedEnd "array" c)) else
    (readIntR n c).onOk rv fun (i, c) =>
    if !hasByteR n c then .done (rv, .err (.unexpectedEnd "array value" c)) else
    let grow := decide (i ≥ slice.length)
    if grow && !makeSliceOk esize (wrap64 (i + 1)) then .done (rv, .panic .makeSlice) else
    let slice := if grow then slice ++ List.replicate (i + 1 - slice.length) zeroE else slice
    match slice[i]? with
    | none => .done (rv, .panic .index)
    | some v0 =>
      (dec c v0).bind fun (v, r) =>
        let slice' := slice.set i v
        (Reader.done r).onOk (if grow then rv else .slice slice') fun c =>
        let rv := .slice slice'
        if !hasByteR n c then .done (rv, .err (.unexpectedEnd "array" c)) else
        (Reader.byte c).onOk rv fun b =>
        if b = cRBrace then .done (rv, .ok (c + 1)) else
        sliceLoopR dec zeroE esize n f c slice' rv

/-- `sliceDecoder.Decode`, slice.go:51-148. -/
def sliceDecodeR (dec : Nat → Nat → Val → Reader DR) (zeroE : Val) (esize n c depth : Nat) (rv : Val) : Reader DR :=
  if !hasByteR n c then .done (rv, .err (.unexpectedEnd "slice" c)) else
  let depth := depth + 1
  if depth > maxDepth then (Reader.byte c).onOk rv fun b => .done (rv, .err (.maxDepth b c)) else
  (Reader.byte c).onOk rv fun b =>
  if b = cN then (validateNullR n c).onOk rv fun _ => .done (.sliceNil, .ok (c + 2))
  else if b = ca then
    let c := c + 1
    if !hasByteR n c then .done (rv, .err (.unexpectedEnd "array length" c)) else
    (Reader.byte c).onOk rv fun b =>
    if b ≠ cColon then .done (rv, .err (.unexpected "':' before array length" c b)) else
    let c := c + 1
    if !hasByteR n c then .done (rv, .err (.unexpectedEnd "array length" c)) else
    (Reader.byte c).onOk rv fun b =>
    if b = c0 then (validateEmptyArrayR n c).onOk rv fun _ => .done (.sliceNil, .ok (c + 4))
    else
      (readLengthR n (c - 1)).onOk rv fun (arrLen, c) =>
      if !hasByteR n c then .done (rv, .err (.unexpectedEnd "array" c)) else
      (Reader.byte c).onOk rv fun b =>
      if b ≠ cLBrace then .done (rv, .err (.beginArray b c)) else
      if !makeSliceOk esize arrLen then .done (rv, .panic .makeSlice) else
      sliceLoopR (fun c v => dec c depth v) zeroE esize n (n + 1) (c + 1) [] rv
  else if b = cMinus ∨ isDigit b then .done (rv, .err (.typeError "number" c))
  else .done (rv, .err (.unexpectedEnd "slice" c))

/-- `bytesDecoder.Decode` and `decodeBinary`, bytes.go:38-67. -/
def bytesDecodeR (dec : Nat → Nat → Val → Reader DR) (zeroE : Val) (n c depth : Nat) (rv : Val) : Reader DR :=
  (Reader.byte c).onOk rv fun b =>
  if b = ca then sliceDecodeR dec zeroE 1 n c depth rv
  else
    (stringBytesR n c).onOk rv fun (ob, c) =>
    match ob with
    | none => .done (rv, .ok c)
    | some s => .done (bytesVal s, .ok c)

/-- The element loop of `arrayDecoder.Decode`, array.go:82-123. -/
def arrayLoopR (dec : Nat → Val → Reader DR) (skip : Nat → Reader (Res Nat)) (n : Nat) : Nat → Nat → List Val → Reader DR
  | 0, _, vs => .done (.arr vs, .diverge)
  | f + 1, c, vs =>
    if !hasByteR n c then .done (.arr vs, .err (.unexpectedEnd "array" c)) else
    (readIntR n c).onOk (.arr vs) fun (i, c) =>
    if !hasByteR n c then .done (.arr vs, .err (.unexpectedEnd "array value" c)) else
    (match vs[i]? with
      | some v0 => (dec c v0).bind fun (v, r) => .done (vs.set i v, r)
      | none => (skip c).bind fun r => .done (vs, r) : Reader (List Val × Res Nat)).bind fun (vs, r) =>
      (Reader.done r).onOk (.arr vs) fun c =>
      if !hasByteR n c then .done (.arr vs, .err (.unexpectedEnd "array" c)) else
      (Reader.byte c).onOk (.arr vs) fun b =>
      if b = cRBrace then .done (.arr vs, .ok (c + 1)) else
      arrayLoopR dec skip n f c vs

/-- `arrayDecoder.Decode`, array.go:32-127. -/
def arrayDecodeR (dec : Nat → Nat → Val → Reader DR) (zeroE : Val) (l n c depth : Nat) (rv : Val) : Reader DR :=
  if !hasByteR n c then .done (rv, .err (.unexpectedEnd "array" c)) else
  let depth := depth + 1
  if depth > maxDepth then (Reader.byte c).onOk rv fun b => .done (rv, .err (.maxDepth b c)) else
  (Reader.byte c).onOk rv fun b =>
  if b = cN then (validateNullR n c).onOk rv fun _ => .done (rv, .ok (c + 2))
  else if b = ca then
    let c := c + 1
    if !hasByteR n c then .done (rv, .err (.unexpectedEnd "array length" c)) else
    (Reader.byte c).onOk rv fun b =>
    if b ≠ cColon then .done (rv, .err (.unexpected "':' before array length" c b)) else
    let zeros := List.replicate l zeroE
    let rv := .arr zeros
    let c := c + 1
    if !hasByteR n c then .done (rv, .err (.unexpectedEnd "array length" c)) else
    (Reader.byte c).onOk rv fun b =>
    if b = c0 then (validateEmptyArrayR n c).onOk rv fun _ => .done (rv, .ok (c + 4))
    else
      (readLengthR n (c - 1)).onOk rv fun (_, c) =>
      if !hasByteR n c then .done (rv, .err (.unexpectedEnd "array" c)) else
      (Reader.byte c).onOk rv fun b =>
      if b ≠ cLBrace then .done (rv, .err (.beginArray b c)) else
      arrayLoopR (fun c v => dec c depth v) (fun c => skipValueR n c depth) n (n + 1) (c + 1) zeros
  else .done (rv, .err (.unexpectedEnd "array" c))

/-! ### Maps and interfaces -/

/-- The entry loop of `mapDecoder.Decode`, map.go:87-118. -/
def mapLoopR (keyDec : Nat → Reader DR) (valDec : Nat → Reader DR) (n : Nat) : Nat → Nat → List (Val × Val) → Reader DR
  | 0, _, es => .done (.map es, .diverge)
  | f + 1, c, es =>
    if !hasByteR n c then .done (.map es, .err (.unexpectedEnd "map" c)) else
    (keyDec c).bind fun (k, r) =>
      (Reader.done r).onOk (.map es) fun c =>
      if !hasByteR n c then .done (.map es, .err (.unexpectedEnd "map value" c)) else
      (valDec c).bind fun (v, r) =>
        (Reader.done r).onOk (.map es) fun c =>
        if !k.hashable then .done (.map es, .panic .unhashable) else
        let es := mapInsert k v es
        if !hasByteR n c then .done (.map es, .err (.unexpectedEnd "map" c)) else
        (Reader.byte c).onOk (.map es) fun b =>
        if b = cRBrace then .done (.map es, .ok (c + 1)) else
        mapLoopR keyDec valDec n f c es

/-- The start of an array or object, map.go:49-61 and struct.go:65-75: the cursor at the ':' before the length. `bad` is the error for other bytes. -/
def startR (n c : Nat) (b : Byte) (bad : Err) : Reader (Res Nat) :=
  if b = cO then (skipClassNameR n c).andThen fun e => .done (.ok (e + 1))
  else if b = ca then .done (.ok (c + 1))
  else .done (.err bad)

/-- `mapDecoder.Decode`, map.go:31-119. -/
def mapDecodeR (keyDec valDec : Nat → Nat → Reader DR) (n c depth : Nat) (rv : Val) : Reader DR :=
  if !hasByteR n c then .done (rv, .err (.unexpectedEnd "map" c)) else
  let depth := depth + 1
  if depth > maxDepth then (Reader.byte c).onOk rv fun b => .done (rv, .err (.maxDepth b c)) else
  (Reader.byte c).onOk rv fun b =>
  if b = cN then (validateNullR n c).onOk rv fun _ => .done (.mapNil, .ok (c + 2))
  else
    (startR n c b (.unexpectedStart "map" c b)).onOk rv fun c =>
    (readLengthR n c).onOk rv fun (_, c) =>
    if !hasByteR n c then .done (rv, .err (.unexpectedEnd "map" c)) else
    (Reader.byte c).onOk rv fun b =>
    if b ≠ cLBrace then .done (rv, .err (.unexpected "{ character for map value" c b)) else
    match mapEntries rv with
    | none => .done (rv, .panic .reflectKind)
    | some es =>
      let c := c + 1
      if !hasByteR n c then .done (.map es, .err (.unexpectedEnd "map" c)) else
      (Reader.byte c).onOk (.map es) fun b =>
      if b = cRBrace then .done (.map es, .ok (c + 1)) else
      mapLoopR (fun c => keyDec c depth) (fun c => valDec c depth) n (n + 1) c es

/-- `mapKeyDecoder.Decode`, interface.go:247-273. -/
def anyKeyDecodeR (n c : Nat) : Reader DR :=
  (Reader.byte c).onOk .ifaceNil fun b =>
  if b = cs then
    (stringDecodeR n c (.str [])).bind fun (v, r) => .done (onOk .ifaceNil r fun c => (.iface .str v, .ok c))
  else if b = ci then
    (intDecodeR .i64 n c (.int 0)).bind fun (v, r) => .done (onOk .ifaceNil r fun c => (.iface (.int .i64) v, .ok c))
  else .done (.ifaceNil, .err (.unexpected "array key" c b))

/-- `interfaceDecoder.decodeEmptyInterface`, interface.go:173-240. -/
def anyDecodeR (W : World) (anyDec : Nat → Nat → Reader DR) (n c depth : Nat) (rv : Val) : Reader DR :=
  (Reader.byte c).onOk rv fun b =>
  if b = cO then
    (mapDecodeR (fun c _ => stringDecodeR n c (.str [])) anyDec n c depth .mapNil).bind fun (v, r) =>
      .done (onOk rv r fun c => (.iface (.map .str .any) v, .ok c))
  else if b = ca then
    (mapDecodeR (fun c _ => anyKeyDecodeR n c) anyDec n c depth .mapNil).bind fun (v, r) =>
      .done (onOk rv r fun c => (.iface (.map .any .any) v, .ok c))
  else if b = cd then
    (floatDecodeR W false n c (.f64 0)).bind fun (v, r) => .done (onOk rv r fun c => (.iface .f64 v, .ok c))
  else if b = cs then
    (fetch (readStringR n (c + 1))).onOk rv fun (s, e) => .done (.iface .str (.str s), .ok e)
  else if b = ci then
    (intDecodeR .i64 n c (.int 0)).bind fun (v, r) => .done (onOk rv r fun c => (.iface (.int .i64) v, .ok c))
  else if b = cb then
    (readBoolR n c).onOk rv fun v => .done (.iface .bool (.bool v), .ok (c + 4))
  else if b = cN then
    (validateNullR n c).onOk rv fun _ => .done (.ifaceNil, .ok (c + 2))
  else .done (rv, .err (.beginValue b c))

/-- `skipValue` and the slice that is passed to a method, unmarshal_php.go:47-52 and interface.go:105-110. The
tests of the slice that come before the call (unmarshal_php.go:53-84, interface.go:111-117) count with the method. -/
def argumentR (n c depth : Nat) : Reader (Res (Bytes × Nat)) :=
  fetch ((skipValueR n c depth).andThen fun e => (Reader.done (subR n c e)).andThen fun w => .done (.ok (w, e)))

/-- `decodePHPUnmarshaler`, interface.go:104-122. -/
def dynDecodeR (W : World) (t : Ty) (v : Val) (n c depth : Nat) (rv : Val) : Reader DR :=
  (argumentR n c depth).onOk rv fun (src, e) => .done <|
  if src = [cN, cSemi] then (.ifaceNil, .ok e) else
  onOk rv (unquoteBytes src) fun o =>
  let src := o.getD src
  match W.unmarshalDyn t v src with
  | (v', r) => onOk (.iface t v') r fun _ => (.iface t v', .ok e)

/-- `interfaceDecoder.Decode` for an interface type with methods, interface.go:136-148. -/
def ifaceDecodeR (W : World) (n c depth : Nat) (rv : Val) : Reader DR :=
  match (match rv with | .iface t v => if W.dynUnm t then some (t, v) else none | _ => none) with
  | some (t, v) => dynDecodeR W t v n c depth rv
  | none =>
    (Reader.byte c).onOk rv fun b =>
    if b = cN then (validateNullR n c).onOk rv fun _ => .done (.ifaceNil, .ok (c + 2))
    else .done (rv, .err (.typeError "interface" c))

/-- `unmarshalPHPDecoder.Decode`, unmarshal_php.go:45-95. -/
def unmarshalDecodeR (W : World) (id n c depth : Nat) (rv : Val) : Reader DR :=
  (argumentR n c depth).onOk rv fun (src, e) => .done <|
  if src.head? = some 91 then (rv, .err (.typeError "array" c)) else
  if src.head? = some cLBrace then (rv, .err (.typeError "object" c)) else
  if src.head? = some cMinus ∨ (src.head?.any isDigit) = true then (rv, .err (.typeError "number" c)) else
  if src = [cN, cSemi] then (W.namedZero id, .ok e) else
  onOk rv (unquoteBytes src) fun o =>
  let src := o.getD src
  onOk rv ((W.unmarshal id src).mapErr (annotate c)) fun v => (v, .ok e)

/-! ### Structs -/

/-- `decodeKey`, struct.go:33-47. -/
def decodeKeyR (sets : List FieldSet) (n c : Nat) : Reader (Res (Option FieldSet × Nat)) :=
  (stringBytesR n c).andThen fun (ob, c) => .done (.ok (sets.find? (fun s => decide (s.key = ob.getD [])), c))

/-- The entry loop of `structDecoder.Decode`, struct.go:105-146. -/
def structLoopR (sets : List FieldSet) (dec : FieldSet → Nat → Val → Reader DR) (skip : Nat → Reader (Res Nat)) (n : Nat) :
    Nat → Nat → List Val → Reader DR
  | 0, _, vs => .done (.struct vs, .diverge)
  | f + 1, c, vs =>
    if !hasByteR n c then .done (.struct vs, .err (.unexpectedEnd "object" c)) else
    (decodeKeyR sets n c).onOk (.struct vs) fun (fld, c) =>
    if !hasByteR n c then .done (.struct vs, .err (.unexpectedEnd "object value" c)) else
    (match fld with
      | some s => match vs[s.idx]? with
        | some v0 => (dec s c v0).bind fun (v, r) => .done (vs.set s.idx v, r)
        | none => .done (vs, .panic .reflectKind)
      | none => (skip c).bind fun r => .done (vs, r) : Reader (List Val × Res Nat)).bind fun (vs, r) =>
      (Reader.done r).onOk (.struct vs) fun c =>
      if !hasByteR n c then .done (.struct vs, .err (.unexpectedEnd "object" c)) else
      (Reader.byte c).onOk (.struct vs) fun b =>
      if b = cRBrace then .done (.struct vs, .ok (c + 1)) else
      structLoopR sets dec skip n f c vs

/-- `structDecoder.Decode`, struct.go:49-147. -/
def structDecodeR (sets : List FieldSet) (dec : FieldSet → Nat → Nat → Val → Reader DR) (n c depth : Nat) (rv : Val) : Reader DR :=
  if !hasByteR n c then .done (rv, .err (.unexpectedEnd "object" c)) else
  let depth := depth + 1
  if depth > maxDepth then (Reader.byte c).onOk rv fun b => .done (rv, .err (.maxDepth b c)) else
  (Reader.byte c).onOk rv fun b =>
  if b = cN then (validateNullR n c).onOk rv fun _ => .done (rv, .ok (c + 2))
  else
    (startR n c b (.beginValue b c)).onOk rv fun c =>
    if !hasByteR n c then .done (rv, .err (.unexpectedEnd "object length" c)) else
    (Reader.byte c).onOk rv fun b =>
    if b ≠ cColon then .done (rv, .err (.beginValue b c)) else
    (skipLengthR n c).onOk rv fun c =>
    if !hasByteR n c then .done (rv, .err (.unexpectedEnd "object" c)) else
    (Reader.byte c).onOk rv fun b =>
    if b ≠ cLBrace then .done (rv, .err (.beginArray b c)) else
    let c := c + 1
    if !hasByteR n c then .done (rv, .err (.unexpectedEnd "object" c)) else
    (Reader.byte c).onOk rv fun b =>
    if b = cRBrace then .done (rv, .ok (c + 1)) else
    match rv with
    | .struct vs =>
      structLoopR sets (fun s c v => dec s c depth v) (fun c => skipValueR n c depth) n (n + 1) c vs
    | _ => .done (rv, .panic .reflectKind)

/-! ### Dispatch -/

/-- A decoder applied to a map key of pointer kind, compile.go:144-155; see `ptrKeyDecode`. -/
def ptrKeyDecodeR (scratch : Reader DR) (n c : Nat) : Reader DR :=
  (Reader.byte c).onOk .ptrNil fun b =>
  if b = cN then (validateNullR n c).onOk .ptrNil fun _ => .done (.ptrNil, .ok (c + 2))
  else scratch.bind fun (_, r) => .done (onOk .ptrNil r fun _ => (.ptrNil, .panic .reflectKind))

/-- Key decoders chosen by `compileMapKey`, compile.go:132-156. -/
def keyDecodeR (W : World) (anyDec : Nat → Nat → Reader DR) (n : Nat) (k : Ty) (c depth : Nat) : Reader DR :=
  match W.unmOf k with
  | some id => unmarshalDecodeR W id n c depth (W.zero k)
  | none => match W.resolve k with
    | .str => stringDecodeR n c (W.zero k)
    | .bool => boolDecodeR n c (W.zero k)
    | .int kd => intDecodeR kd n c (W.zero k)
    | .uint kd => uintDecodeR kd n c (W.zero k)
    | .any => anyDecodeR W anyDec n c depth (W.zero k)
    | .iface _ => ifaceDecodeR W n c depth (W.zero k)
    | .ptr e => match W.unmOf e with
      | some _ => .done (invalidDecode c (W.zero k))
      | none => match W.resolve e with
        | .str => ptrKeyDecodeR (stringDecodeR n c (.str [])) n c
        | .bool => ptrKeyDecodeR (boolDecodeR n c (.bool false)) n c
        | .int _ => ptrKeyDecodeR (intDecodeR .i64 n c (.int 0)) n c
        | .uint _ => ptrKeyDecodeR (uintDecodeR .u64 n c (.uint 0)) n c
        | .any | .iface _ => ptrKeyDecodeR (anyDecodeR W anyDec n c depth .ifaceNil) n c
        | _ => .done (invalidDecode c (W.zero k))
    | _ => .done (invalidDecode c (W.zero k))

/-- The decoder of a struct field, compile.go:290-295 and wrapped_string.go:23-49. -/
def fieldDecodeR (W : World) (rec : Ty → Nat → Nat → Val → Reader DR) (n : Nat) (s : FieldSet) (c depth : Nat) (rv : Val) : Reader DR :=
  if s.str then
    match W.resolve s.ty with
    | .ptr e =>
      if wrappable W e then ptrDecodeR (fun c _ v => wrappedDecodeR W e n c v) (W.zero e) n c depth rv
      else .done (rv, .err (.unsupported "string option"))
    | _ =>
      if wrappable W s.ty then wrappedDecodeR W s.ty n c rv
      else .done (rv, .err (.unsupported "string option"))
  else rec s.ty c depth rv

/-- The decoder chosen by `compile`, compile.go:55-110, for a type that is not a pointer. -/
def decodeNonPtrR (W : World) (rec : Ty → Nat → Nat → Val → Reader DR) (n : Nat) (t : Ty) (c depth : Nat) (rv : Val) : Reader DR :=
  match W.unmOf t with
  | some id => unmarshalDecodeR W id n c depth rv
  | none => match W.resolve t with
    | .bool => boolDecodeR n c rv
    | .int k => intDecodeR k n c rv
    | .uint k => uintDecodeR k n c rv
    | .f32 => floatDecodeR W true n c rv
    | .f64 => floatDecodeR W false n c rv
    | .str => stringDecodeR n c rv
    | .slice e =>
      if W.isByte e then bytesDecodeR (rec e) (W.zero e) n c depth rv
      else sliceDecodeR (rec e) (W.zero e) (W.elemSize e) n c depth rv
    | .array l e => arrayDecodeR (rec e) (W.zero e) l n c depth rv
    | .map k v =>
      mapDecodeR (keyDecodeR W (fun c d => rec .any c d .ifaceNil) n k) (fun c d => rec v c d (W.zero v)) n c depth rv
    | .struct id => structDecodeR (fieldSets W 0 (W.fields id)) (fieldDecodeR W rec n) n c depth rv
    | .any => anyDecodeR W (fun c d => rec .any c d .ifaceNil) n c depth rv
    | .iface _ => ifaceDecodeR W n c depth rv
    | .other => .done (invalidDecode c rv)
    | .ptr _ => .done (rv, .err (.unsupported "pointer to pointer"))
    | .named _ => .done (rv, .err (.unsupported "declared type"))

/-- `Decoder.Decode` of the decoder that `compile` (compile.go:55-110) builds for type `t`. -/
def decodeFR (W : World) (n : Nat) : Nat → Ty → Nat → Nat → Val → Reader DR
  | 0, _, _, _, rv => .done (rv, .diverge)
  | f + 1, t, c, depth, rv =>
    match W.unmOf t, W.resolve t with
    | none, .ptr e =>
      if W.isPtr e then .done (rv, .err (.unsupported "pointer to pointer"))
      else ptrDecodeR (decodeNonPtrR W (decodeFR W n f) n e) (W.zero e) n c depth rv
    | _, _ => decodeNonPtrR W (decodeFR W n f) n t c depth rv

/-- `validateEndBuf`, unmarshal.go:54-63. -/
def validateEndBufR (n c : Nat) : Reader (Res Unit) :=
  if n = c then .done (.ok ())
  else (Reader.byte c).andThen fun b => .done (.err (.trailing b (c + 1)))

/-- `unmarshal` for a non-nil pointer, unmarshal.go:37-51: what is done with the copy of the input, of length `n`, made in line 37. -/
def unmarshalR (W : World) (fuel n : Nat) (t : Ty) (v : Val) : Reader (Val × Res Unit) :=
  (Reader.done (compileD W fuel [] t)).onOk v fun _ =>
  (decodeFR W n (n + 1) t 0 0 v).bind fun (v', r) =>
  (Reader.done r).onOk v' fun c => (validateEndBufR n c).bind fun r => .done (v', r)

end Verif

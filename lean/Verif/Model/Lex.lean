import Verif.Model.Base
/-
Model of /repo/internal/decoder/context.go and the integer parser of /repo/internal/decoder/int.go.

Cursors are natural numbers: in the code they start at 0 and only grow by amounts bounded by len(buf)+4,
so int64 overflow is impossible except for the additions of a length read from the input
(`start + classLen + 1`, `sLen + 2`), which are modelled with `wrap64`.
The cursor returned together with a non-nil error is never used by callers and is dropped.
-/
namespace Verif

/-- `maxDecodeNestingDepth`, /repo/internal/decoder/type.go:13. -/
abbrev maxDepth : Nat := 10000

/-- `isInteger` (context.go:38,47-49) and `numTable` (int.go:92-105): both tables are true exactly on '0'..'9'. -/
def isDigit (c : Byte) : Bool := decide (48 ≤ c ∧ c ≤ 57)

/-- `hasByte`, context.go:52-54 (cursor is never negative at its call sites). -/
def hasByte (buf : Bytes) (cursor : Nat) : Bool := decide (cursor < buf.length)

/-- `hasBytes`, context.go:56-58, with int64 arguments as integers. -/
def hasBytes (buf : Bytes) (cursor size : Int) : Bool :=
  decide (0 ≤ cursor ∧ 0 ≤ size ∧ cursor ≤ (buf.length : Int) - size)

/-- Number of loop iterations of `for hasByte(buf, cursor) && p(buf[cursor]) { cursor++ }`, run down the
remaining bytes `buf[cursor:]` (context.go:71-73, 309-311, 339-341). -/
def spanLen (p : Byte → Bool) : Bytes → Nat
  | [] => 0
  | c :: cs => if p c then spanLen p cs + 1 else 0

/-- The loop `for hasByte(buf, cursor) && isInteger[buf[cursor]] { cursor++ }`,
context.go:71-73 and 309-311. Returns the final cursor. -/
def scanDigits (buf : Bytes) (cursor : Nat) : Nat := cursor + spanLen isDigit (buf.drop cursor)

/-- The loop `for hasByte(buf, cursor) && buf[cursor] != ';' { cursor++ }`, context.go:339-341. -/
def scanToSemi (buf : Bytes) (cursor : Nat) : Nat := cursor + spanLen (fun c => c != cSemi) (buf.drop cursor)

/-- `pow10i64`, int.go:40-43 (19 entries). -/
def pow10i64 : List Nat :=
  [10^0, 10^1, 10^2, 10^3, 10^4, 10^5, 10^6, 10^7, 10^8, 10^9,
   10^10, 10^11, 10^12, 10^13, 10^14, 10^15, 10^16, 10^17, 10^18]

/-- The loop `for len(buf) > 0 && buf[0] == '0' { buf = buf[1:] }`, int.go:58-60. -/
def stripZeros : Bytes → Bytes
  | [] => []
  | c :: cs => if c = c0 then stripZeros cs else c :: cs

/-- The accumulation loop of `parseInt64`, int.go:68-74; `n` is len(buf), `i` the loop index.
`uint64` arithmetic is modelled modulo 2^64. -/
def parseLoop (n : Nat) : Nat → Bytes → Nat → Res Nat
  | _, [], value => .ok value
  | i, c :: cs, value =>
    if !isDigit c then .err (.syntaxErr "invalid integer" 0)
    else match pow10i64[n - i - 1]? with
      | none => .panic .index
      | some p => parseLoop n (i + 1) cs ((value + ((c - 48).toNat * p) % 2 ^ 64) % 2 ^ 64)

/-- `parseInt64`, int.go:45-90. -/
def parseInt64 (buf : Bytes) : Res Int :=
  match buf with
  | [] => .err (.syntaxErr "invalid integer" 0)
  | c :: cs =>
    let negative := decide (c = cMinus)
    let buf := if negative then cs else c :: cs
    if negative && buf.isEmpty then .err (.syntaxErr "invalid integer" 0)
    else
      let buf := stripZeros buf
      if buf.length = 0 then .ok 0
      else if buf.length > pow10i64.length then .err (.syntaxErr "integer overflow" 0)
      else
        parseLoop buf.length 0 buf 0 >>= fun value =>
        let limit : Nat := if negative then 2 ^ 63 else 2 ^ 63 - 1
        if value > limit then .err (.syntaxErr "integer overflow" 0)
        else if negative then
          if value = 2 ^ 63 then .ok (-(2 ^ 63)) else .ok (-(value : Int))
        else .ok (value : Int)

/-- `skipLengthWithBothColon`, context.go:61-88. -/
def skipLengthWithBothColon (buf : Bytes) (cursor : Nat) : Res Nat :=
  if !hasByte buf cursor then .err (.unexpectedEnd "length" cursor) else
  idx buf cursor >>= fun b =>
  if b ≠ cColon then .err (.unexpected "':' before length" cursor b) else
  let start := cursor + 1
  let cursor := scanDigits buf start
  if cursor = start then .err (.syntaxErr "length requires at least one digit" cursor) else
  if !hasByte buf cursor then .err (.unexpectedEnd "length" cursor) else
  idx buf cursor >>= fun b =>
  if b ≠ cColon then .err (.unexpected "':' after length" cursor b) else
  .ok (cursor + 1)

/-- `readLength`, context.go:234-244. Result: (length, end). -/
def readLength (buf : Bytes) (cursor : Nat) : Res (Int × Nat) :=
  skipLengthWithBothColon buf cursor >>= fun e =>
  sub buf (cursor + 1) (e - 1) >>= fun txt =>
  match parseInt64 txt with
  | .ok length => if length < 0 then .err (.syntaxErr "invalid length" (cursor + 1)) else .ok (length, e)
  | .err _ => .err (.syntaxErr "invalid length" (cursor + 1))
  | .panic p => .panic p
  | .diverge => .diverge

/-- `readLengthInt`, context.go:247-258. `int` is 64 bits wide, so the conversion check of line 254 is
vacuous and the function coincides with `readLength`. -/
def readLengthInt (buf : Bytes) (cursor : Nat) : Res (Int × Nat) := readLength buf cursor

/-- `skipClassName`, context.go:91-114. The addition on line 103 wraps. -/
def skipClassName (buf : Bytes) (cursor : Nat) : Res Nat :=
  if !hasByte buf cursor then .err (.unexpectedEnd "object" cursor) else
  idx buf cursor >>= fun b =>
  if b ≠ cO then .err (.unexpectedEnd "object" cursor) else
  readLength buf (cursor + 1) >>= fun (classLen, start) =>
  if !hasByte buf start then .err (.unexpectedEnd "class name" start) else
  idx buf start >>= fun b =>
  if b ≠ cQuote then .err (.unexpectedEnd "class name" start) else
  let e := wrap64 ((start : Int) + classLen + 1)
  if !hasBytes buf e 2 then .err (.unexpectedEnd "class name" e) else
  idx buf e.toNat >>= fun b =>
  if b ≠ cQuote then .err (.unexpected "class name quoted '\"'" e b) else
  idx buf (e.toNat + 1) >>= fun b =>
  if b ≠ cColon then .err (.unexpected "':' after class name" (e + 1) b) else
  .ok e.toNat

/-- `readString`, context.go:261-288; cursor points at the ':' before the length.
The sum `sLen+2` on line 273 wraps. Result: (content, cursor after ';'). -/
def readString (buf : Bytes) (cursor : Nat) : Res (Bytes × Nat) :=
  readLength buf cursor >>= fun (sLen, e) =>
  if !hasByte buf e then .err (.unexpectedEnd "string" e) else
  idx buf e >>= fun b =>
  if b ≠ cQuote then .err (.unexpected "string quoted '\"'" e b) else
  let start := e + 1
  if !hasBytes buf start (wrap64 (sLen + 2)) then .err (.unexpectedEnd "string" start) else
  let e := start + sLen.toNat
  idx buf e >>= fun b =>
  if b ≠ cQuote then .err (.unexpected "string quoted '\"'" e b) else
  let cursor := e + 1
  idx buf cursor >>= fun b =>
  if b ≠ cSemi then .err (.unexpected "string end ';'" cursor b) else
  sub buf start e >>= fun s =>
  .ok (s, cursor + 1)

/-- `readIntegerBytes`, context.go:290-322. Result: (text, cursor after ';'). -/
def readIntegerBytes (buf : Bytes) (cursor : Nat) : Res (Bytes × Nat) :=
  if !hasByte buf cursor then .err (.unexpectedEnd "integer" cursor) else
  idx buf cursor >>= fun b =>
  if b ≠ ci then .err (.unexpected "'i' to start an integer" cursor b) else
  if !hasBytes buf cursor 3 then .err (.unexpectedEnd "integer" cursor) else
  idx buf (cursor + 1) >>= fun b =>
  if b ≠ cColon then .err (.unexpected "int separator ':'" (cursor + 1) b) else
  let start := cursor + 2
  idx buf start >>= fun b =>
  let digitStart := if b = cMinus then start + 1 else start
  let cursor := scanDigits buf digitStart
  if cursor = digitStart then .err (.syntaxErr "integer requires at least one digit" cursor) else
  if !hasByte buf cursor then .err (.unexpectedEnd "integer" cursor) else
  idx buf cursor >>= fun b =>
  if b ≠ cSemi then .err (.unexpected "';' after integer" cursor b) else
  sub buf start cursor >>= fun s =>
  .ok (s, cursor + 1)

/-- `readFloatBytes`, context.go:324-349. Result: (text, cursor after ';'). -/
def readFloatBytes (buf : Bytes) (cursor : Nat) : Res (Bytes × Nat) :=
  if !hasByte buf cursor then .err (.unexpectedEnd "float" cursor) else
  idx buf cursor >>= fun b =>
  if b ≠ cd then .err (.unexpected "'d' to start a float" cursor b) else
  if !hasBytes buf cursor 3 then .err (.unexpectedEnd "float" cursor) else
  idx buf (cursor + 1) >>= fun b =>
  if b ≠ cColon then .err (.unexpected "float separator ':'" (cursor + 1) b) else
  let start := cursor + 2
  let cursor := scanToSemi buf start
  if cursor = start then .err (.syntaxErr "float requires a value" cursor) else
  if !hasByte buf cursor then .err (.unexpectedEnd "float" cursor) else
  sub buf start cursor >>= fun s =>
  .ok (s, cursor + 1)

/-- `readBool`, context.go:351-378. -/
def readBool (buf : Bytes) (cursor : Nat) : Res Bool :=
  if !hasBytes buf cursor 4 then .err (.unexpectedEnd "bool" cursor) else
  idx buf cursor >>= fun b =>
  if b ≠ cb then .err (.invalidChar b "bool" cursor) else
  idx buf (cursor + 1) >>= fun b =>
  if b ≠ cColon then .err (.invalidChar b "bool" cursor) else
  idx buf (cursor + 2) >>= fun b =>
  if b ≠ c1 ∧ b ≠ c0 then .err (.invalidChar b "bool" cursor) else
  let v := decide (b = c1)
  idx buf (cursor + 3) >>= fun b =>
  if b ≠ cSemi then .err (.invalidChar b "bool" (cursor + 3)) else
  .ok v

/-- `validateNull`, context.go:223-231. -/
def validateNull (buf : Bytes) (cursor : Nat) : Res Unit :=
  if cursor + 1 ≥ buf.length then .err (.unexpectedEnd "null" cursor) else
  idx buf (cursor + 1) >>= fun b =>
  if b ≠ cSemi then .err (.invalidChar b "null" cursor) else
  .ok ()

/-- `validateEmptyArray`, context.go:204-221. -/
def validateEmptyArray (buf : Bytes) (cursor : Nat) : Res Unit :=
  if cursor + 4 > buf.length then .err (.unexpectedEnd "array" cursor) else
  idx buf (cursor + 1) >>= fun b =>
  if b ≠ cColon then .err (.unexpected "':' before array length" (cursor + 1) b) else
  idx buf (cursor + 2) >>= fun b =>
  if b ≠ cLBrace then .err (.beginArray b (cursor + 2)) else
  idx buf (cursor + 3) >>= fun b =>
  if b ≠ cRBrace then .err (.unexpected "empty array end with '}'" (cursor + 3) b) else
  .ok ()

/-- `readInt` (array index), int.go:152-163. `int` is 64 bits wide. -/
def readInt (buf : Bytes) (cursor : Nat) : Res (Nat × Nat) :=
  readIntegerBytes buf cursor >>= fun (txt, e) =>
  match parseInt64 txt with
  | .ok v => if v < 0 then .err (.syntaxErr "invalid array index" (cursor + 2)) else .ok (v.toNat, e)
  | .err _ => .err (.syntaxErr "invalid array index" (cursor + 2))
  | .panic p => .panic p
  | .diverge => .diverge

/-- `skipInt`, context.go:119-122. -/
def skipInt (buf : Bytes) (cursor : Nat) : Res Nat :=
  readIntegerBytes buf cursor >>= fun (_, e) => .ok e

/-- `skipString`, context.go:124-130. -/
def skipString (buf : Bytes) (cursor : Nat) : Res Nat :=
  if !hasByte buf cursor then .err (.unexpectedEnd "string" cursor) else
  idx buf cursor >>= fun b =>
  if b ≠ cs then .err (.unexpectedEnd "string" cursor) else
  readString buf (cursor + 1) >>= fun (_, e) => .ok e

/-- The loop `for range length { skipValue; skipValue }`, context.go:148-157. -/
def skipPairs (skip : Nat → Res Nat) : Nat → Nat → Res Nat
  | 0, cursor => .ok cursor
  | n + 1, cursor =>
    skip cursor >>= fun cursor =>
    skip cursor >>= fun cursor =>
    skipPairs skip n cursor

/-- `skipArray`, context.go:132-165; `skip` is the recursive `skipValue` at this depth. -/
def skipArray (skip : Nat → Res Nat) (buf : Bytes) (cursor depth : Nat) : Res Nat :=
  if depth > maxDepth then .err (.maxDepth ca cursor) else
  readLength buf cursor >>= fun (length, e) =>
  let cursor := e
  if !hasByte buf cursor then .err (.unexpectedEnd "array" cursor) else
  idx buf cursor >>= fun b =>
  if b ≠ cLBrace then .err (.beginArray b cursor) else
  skipPairs skip length.toNat (cursor + 1) >>= fun cursor =>
  if !hasByte buf cursor then .err (.unexpectedEnd "array" cursor) else
  idx buf cursor >>= fun b =>
  if b ≠ cRBrace then .err (.unexpected "'}' after array" cursor b) else
  .ok (cursor + 1)

/-- `skipValue`, context.go:167-201, with fuel for the recursion. -/
def skipValueF : Nat → Bytes → Nat → Nat → Res Nat
  | 0, _, _, _ => .diverge
  | f + 1, buf, cursor, depth =>
    if !hasByte buf cursor then .err (.unexpectedEnd "value" cursor) else
    idx buf cursor >>= fun b =>
    if b = cO then
      skipClassName buf cursor >>= fun e =>
      skipArray (fun c => skipValueF f buf c (depth + 1)) buf (e + 1) (depth + 1)
    else if b = ca then
      skipArray (fun c => skipValueF f buf c (depth + 1)) buf (cursor + 1) (depth + 1)
    else if b = cs then skipString buf cursor
    else if b = cd then readFloatBytes buf cursor >>= fun (_, e) => .ok e
    else if b = ci then skipInt buf cursor
    else if b = cb then readBool buf cursor >>= fun _ => .ok (cursor + 4)
    else if b = cN then validateNull buf cursor >>= fun _ => .ok (cursor + 2)
    else .err (.beginValue b cursor)

/-- `skipValue` as called from outside, context.go:167-201. The fuel is one more than the buffer length;
`skipValue_terminates` shows it is never exhausted. -/
def skipValue (buf : Bytes) (cursor depth : Nat) : Res Nat :=
  skipValueF (buf.length + 1) buf cursor depth

end Verif

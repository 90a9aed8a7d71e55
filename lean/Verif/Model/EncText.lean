import Verif.Model.Types
/-
Model of the functions of /repo/internal/encoder that append the text of one scalar to a buffer.
-/
namespace Verif

/-- Decimal digits of a number, least significant first (strconv.formatBits); fuel `n + 1` is always enough. -/
def digitsRev : Nat → Nat → Bytes
  | 0, _ => []
  | f + 1, n => UInt8.ofNat (48 + n % 10) :: if n < 10 then [] else digitsRev f (n / 10)

/-- strconv.AppendUint(b, n, 10). -/
def appendUint (b : Bytes) (n : Nat) : Bytes := b ++ (digitsRev (n + 1) n).reverse

/-- strconv.AppendInt(b, i, 10). -/
def appendInt (b : Bytes) (i : Int) : Bytes :=
  if i < 0 then b ++ [cMinus] ++ (digitsRev (i.natAbs + 1) i.natAbs).reverse else appendUint b i.natAbs

/-- `appendEmptyArray`, common.go:5-7: `a:0:{}`. -/
def appendEmptyArray (b : Bytes) : Bytes := b ++ [ca, cColon, c0, cColon, cLBrace, cRBrace]

/-- `appendNull`, common.go:9-11. -/
def appendNull (b : Bytes) : Bytes := b ++ [cN, cSemi]

/-- `appendStringHead`, common.go:13-17. -/
def appendStringHead (b : Bytes) (n : Int) : Bytes := appendInt (b ++ [cs, cColon]) n ++ [cColon]

/-- `appendArrayBegin`, common.go:19-23. -/
def appendArrayBegin (b : Bytes) (n : Int) : Bytes := appendInt (b ++ [ca, cColon]) n ++ [cColon, cLBrace]

/-- `appendPhpStringVariable`, string.go:15-22 (called by `encodeString`, string.go:11-13). -/
def appendString (b : Bytes) (s : Bytes) : Bytes :=
  appendInt (b ++ [cs, cColon]) s.length ++ [cColon, cQuote] ++ s ++ [cQuote, cSemi]

/-- `encodeBool`, bool.go:7-16. -/
def appendBool (b : Bytes) (v : Bool) : Bytes := b ++ [cb, cColon] ++ [if v then c1 else c0] ++ [cSemi]

/-- `appendIntBytes`, int.go:12-16. -/
def appendIntBytes (b : Bytes) (i : Int) : Bytes := appendInt (b ++ [ci, cColon]) i ++ [cSemi]

/-- `encodeUint`, uint.go:8-12. -/
def appendUintBytes (b : Bytes) (n : Nat) : Bytes := appendUint (b ++ [ci, cColon]) n ++ [cSemi]

/-- `appendBoolAsString`, bool_as_string.go:15-20: `s:4:"true";` or `s:5:"false";`. -/
def appendBoolAsString (b : Bytes) (v : Bool) : Bytes :=
  if v then b ++ [115, 58, 52, 58, 34, 116, 114, 117, 101, 34, 59]
  else b ++ [115, 58, 53, 58, 34, 102, 97, 108, 115, 101, 34, 59]

/-- The loop of `iterativeDigitsCount`, int_as_string.go:59-62; Go's `/` truncates. -/
def countLoop : Nat → Int → Int → Int
  | 0, _, n => n
  | f + 1, x, n => if x ≠ 0 then countLoop f (x.tdiv 10) (n + 1) else n

/-- `iterativeDigitsCount`, int_as_string.go:53-65. The fuel is always enough. -/
def intDigitsCount (x : Int) : Int := countLoop (x.natAbs + 1) x (if x ≤ 0 then 1 else 0)

/-- `uintDigitsCount`, uint_at_string.go:24-36. -/
def uintDigitsCount (x : Nat) : Int := if x = 0 then 1 else countLoop (x + 1) x 0

/-- `appendIntAsString`, int_as_string.go:46-51. -/
def appendIntAsString (b : Bytes) (i : Int) : Bytes :=
  appendInt (appendStringHead b (intDigitsCount i) ++ [cQuote]) i ++ [cQuote, cSemi]

/-- `appendUintAsString`, uint_at_string.go:16-22. -/
def appendUintAsString (b : Bytes) (n : Nat) : Bytes :=
  appendUint (appendStringHead b (uintDigitsCount n) ++ [cQuote]) n ++ [cQuote, cSemi]

/-! ### Floats

A float is its IEEE bits; comparisons of absolute values are comparisons of the bits without the sign. -/

/-- math.Abs on the bits of a float64. -/
def abs64 (x : UInt64) : UInt64 := x &&& 0x7FFFFFFFFFFFFFFF

/-- math.Abs on the bits of a float32. -/
def abs32 (x : UInt32) : UInt32 := x &&& 0x7FFFFFFF

/-- math.IsNaN. -/
def isNaN64 (x : UInt64) : Bool := decide (0x7FF0000000000000 < abs64 x)

/-- math.IsNaN of the float64 equal to a float32. -/
def isNaN32 (x : UInt32) : Bool := decide (0x7F800000 < abs32 x)

/-- The choice of format at float.go:44-51 and 112-119: `'e'` for absolute values below 1e-6 (except 0) or from 1e21;
comparisons with NaN are false. -/
def useE64 (x : UInt64) : Bool :=
  !isNaN64 x && decide (abs64 x ≠ 0) && (decide (abs64 x < 0x3EB0C6F7A0B5ED8D) || decide (0x444B1AE4D6E2EF50 ≤ abs64 x))

/-- The choice of format at float.go:24-33 and 91-100, with the constants rounded to float32. -/
def useE32 (x : UInt32) : Bool :=
  !isNaN32 x && decide (abs32 x ≠ 0) && (decide (abs32 x < 0x358637BD) || decide (0x6258D727 ≤ abs32 x))

/-- `appendSpecialFloat`, float.go:58-69, given the tests' outcomes; `none` if none applies. -/
def specialFloat (nan posInf negInf : Bool) : Option Bytes :=
  if nan then some [100, 58, 78, 65, 78, 59]
  else if posInf then some [100, 58, 73, 78, 70, 59]
  else if negInf then some [100, 58, 45, 73, 78, 70, 59]
  else none

/-- `appendFloat64`, float.go:40-56 (called by `encodeFloat64`, 14-16). -/
def appendFloat64 (W : World) (b : Bytes) (x : UInt64) : Bytes :=
  match specialFloat (isNaN64 x) (decide (x = 0x7FF0000000000000)) (decide (x = 0xFFF0000000000000)) with
  | some s => b ++ s
  | none => b ++ [cd, cColon] ++ W.fmtF64 (useE64 x) x ++ [cSemi]

/-- `appendFloat32`, float.go:20-38 (called by `encodeFloat32`, 10-12; the conversions float32 → float64 → float32
around it do not change the number). -/
def appendFloat32 (W : World) (b : Bytes) (x : UInt32) : Bytes :=
  match specialFloat (isNaN32 x) (decide (x = 0x7F800000)) (decide (x = 0xFF800000)) with
  | some s => b ++ s
  | none => b ++ [cd, cColon] ++ W.fmtF32 (useE32 x) x ++ [cSemi]

/-- The common tail of `appendFloat32AsString` and `appendFloat64AsString`, float.go:102-108, 121-127. -/
def appendTextAsString (b : Bytes) (s : Bytes) : Bytes :=
  appendStringHead b s.length ++ [cQuote] ++ s ++ [cQuote, cSemi]

/-- `appendFloat64AsString`, float.go:111-128. -/
def appendFloat64AsString (W : World) (b : Bytes) (x : UInt64) : Bytes := appendTextAsString b (W.fmtF64 (useE64 x) x)

/-- `appendFloat32AsString`, float.go:90-109. -/
def appendFloat32AsString (W : World) (b : Bytes) (x : UInt32) : Bytes := appendTextAsString b (W.fmtF32 (useE32 x) x)

end Verif

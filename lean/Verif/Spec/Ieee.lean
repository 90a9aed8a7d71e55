import Verif.Spec.Float
/-
Specification of floating point numbers (IEEE 754, binary64 and binary32) in exact arithmetic, of the numbers that decimal
texts stand for, and of what strconv and the conversions of Go do with them: they give the nearest number.
-/
namespace Verif.Spec
open Verif

/-- The number with the bits `n` (sign bit 0) of a float64, in units of 2^-1074, the smallest positive float64. The bits of
infinity count as 2^1024, the bound from which numbers are rounded to infinity half-way. -/
def units64 (n : Nat) : Nat := if n < 2 ^ 52 then n else (2 ^ 52 + n % 2 ^ 52) * 2 ^ (n / 2 ^ 52 - 1)

/-- The same for a float32, in units of 2^-149, the smallest positive float32; infinity counts as 2^128. -/
def units32 (n : Nat) : Nat := if n < 2 ^ 23 then n else (2 ^ 23 + n % 2 ^ 23) * 2 ^ (n / 2 ^ 23 - 1)

/-- The bits of infinity. -/
abbrev inf64 : Nat := 0x7FF0000000000000

/-- The bits of infinity. -/
abbrev inf32 : Nat := 0x7F800000

/-- Distance of two numbers. -/
def gap (a b : Nat) : Nat := (a - b) + (b - a)

/-- `n` are the bits of the float64 nearest to the number `num/den`; of two that are equally near, the one with even bits. -/
def Near64 (num den n : Nat) : Prop :=
  n ≤ inf64 ∧ ∀ m, m ≤ inf64 → m ≠ n →
    gap (num * 2 ^ 1074) (units64 n * den) < gap (num * 2 ^ 1074) (units64 m * den) ∨
    (gap (num * 2 ^ 1074) (units64 n * den) = gap (num * 2 ^ 1074) (units64 m * den) ∧ n % 2 = 0)

/-- `n` are the bits of the float32 nearest to the number `num/den`; of two that are equally near, the one with even bits. -/
def Near32 (num den n : Nat) : Prop :=
  n ≤ inf32 ∧ ∀ m, m ≤ inf32 → m ≠ n →
    gap (num * 2 ^ 149) (units32 n * den) < gap (num * 2 ^ 149) (units32 m * den) ∨
    (gap (num * 2 ^ 149) (units32 n * den) = gap (num * 2 ^ 149) (units32 m * den) ∧ n % 2 = 0)

/-- The bits without the sign. -/
def mag64 (x : UInt64) : Nat := x.toNat % 2 ^ 63

/-- The sign bit. -/
def neg64 (x : UInt64) : Bool := decide (2 ^ 63 ≤ x.toNat)

/-- The bits without the sign. -/
def mag32 (x : UInt32) : Nat := x.toNat % 2 ^ 31

/-- The sign bit. -/
def neg32 (x : UInt32) : Bool := decide (2 ^ 31 ≤ x.toNat)

/-- A sign and the bits of the rest. -/
def float64 (neg : Bool) (n : Nat) : UInt64 := UInt64.ofNat (if neg then 2 ^ 63 + n else n)

/-- A sign and the bits of the rest. -/
def float32 (neg : Bool) (n : Nat) : UInt32 := UInt32.ofNat (if neg then 2 ^ 31 + n else n)

/-! ### Decimal texts -/

/-- An ASCII digit. -/
def isDig (c : Byte) : Bool := decide (IsDigit c)

/-- The exponent: nothing, or `e` (strconv) or `E` (PHP), a sign and one to four digits. -/
def expoOf : Bytes → Option Int
  | [] => some 0
  | c :: sg :: ds =>
    if (c = 101 ∨ c = 69) ∧ (sg = 43 ∨ sg = 45) ∧ ds ≠ [] ∧ ds.all isDig = true ∧ ds.length ≤ 4 then
      some (if sg = 45 then -(digitsVal ds : Int) else digitsVal ds)
    else none
  | _ => none

/-- The digits after the point, if there is one, and the rest of the text. -/
def fracOf : Bytes → Option (Bytes × Bytes)
  | 46 :: s => if s.takeWhile isDig = [] then none else some (s.takeWhile isDig, s.dropWhile isDig)
  | s => some ([], s)

/-- A text without sign, such as `7.038531e-26`, as `(m, e)`: it stands for the number `m * 10^e`. -/
def unsignedOf (s : Bytes) : Option (Nat × Int) :=
  if s.takeWhile isDig = [] then none else
  match fracOf (s.dropWhile isDig) with
  | none => none
  | some (fd, r) => (expoOf r).map fun e => (digitsVal (s.takeWhile isDig ++ fd), e - (fd.length : Int))

/-- A decimal text as `(neg, m, e)`: it stands for `m * 10^e`, negated if `neg`. These are the texts that strconv writes and
the decimal texts of PHP, up to the number of digits of the exponent. -/
def decimalOf : Bytes → Option (Bool × Nat × Int)
  | 45 :: s => (unsignedOf s).map fun p => (true, p)
  | s => (unsignedOf s).map fun p => (false, p)

/-- Numerator of `m * 10^e`. -/
def decNum (m : Nat) (e : Int) : Nat := m * 10 ^ e.toNat

/-- Denominator of `m * 10^e`. -/
def decDen (e : Int) : Nat := 10 ^ (-e).toNat

/-! ### strconv -/

/-- What the documentation of strconv and the Go specification say about floats.
`parse`, `range`: ParseFloat gives the nearest float64, an error if that is infinite.
`fmt64`, `fmt32`: AppendFloat with precision -1 writes a decimal text that is nearer to the number than to any other.
`toF32`: conversion to float32 gives the nearest one.
The rest is about infinities and NaN. -/
structure Strconv (W : World) : Prop where
  parse : ∀ {s neg m e n}, decimalOf s = some (neg, m, e) → Near64 (decNum m e) (decDen e) n → n < inf64 →
    W.parseF64 s = some (float64 neg n)
  range : ∀ {s neg m e}, decimalOf s = some (neg, m, e) → Near64 (decNum m e) (decDen e) inf64 → W.parseF64 s = none
  fmt64 : ∀ {x}, Finite64 x → ∀ sci, ∃ m e, decimalOf (W.fmtF64 sci x) = some (neg64 x, m, e) ∧ Near64 (decNum m e) (decDen e) (mag64 x)
  fmt32 : ∀ {x}, Finite32 x → ∀ sci, ∃ m e, decimalOf (W.fmtF32 sci x) = some (neg32 x, m, e) ∧ Near32 (decNum m e) (decDen e) (mag32 x)
  short64 : ∀ sci x, (W.fmtF64 sci x).length < 2 ^ 62
  short32 : ∀ sci x, (W.fmtF32 sci x).length < 2 ^ 62
  toF32 : ∀ {x n}, Finite64 x → Near32 (units64 (mag64 x)) (2 ^ 1074) n → W.toF32 x = float32 (neg64 x) n
  special : Convert32 W

end Verif.Spec

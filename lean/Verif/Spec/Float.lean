import Verif.Spec.Encode
/-
Specification vocabulary for floats: what strconv is assumed to do for a value.
-/
namespace Verif.Spec
open Verif

/-- Neither a NaN nor an infinity. -/
def Finite64 (x : UInt64) : Prop := x &&& 0x7FFFFFFFFFFFFFFF < 0x7FF0000000000000

/-- Neither a NaN nor an infinity. -/
def Finite32 (x : UInt32) : Prop := x &&& 0x7FFFFFFF < 0x7F800000

/-- The same number: the same bits, or both NaN. -/
def SameF64 (x y : UInt64) : Prop := x = y ∨ (NaN64 x ∧ NaN64 y)

/-- The same number. -/
def SameF32 (x y : UInt32) : Prop := x = y ∨ (NaN32 x ∧ NaN32 y)

/-- One of PHP's names for special values. -/
def SpecialName (s : Bytes) : Prop := s = [73, 78, 70] ∨ s = [45, 73, 78, 70] ∨ s = [78, 65, 78]

/-- A number written by strconv: not empty, no semicolon, not one of the special names. -/
def NumberText (s : Bytes) : Prop := s ≠ [] ∧ 59 ∉ s ∧ ¬ SpecialName s

/-- strconv formats the float64 faithfully: ParseFloat of the shortest text gives it back, bit for bit. -/
def Faithful64 (W : World) (x : UInt64) : Prop :=
  ∀ txt, FmtText64 W x txt → NumberText txt ∧ W.parseF64 txt = some x

/-- Reading the shortest text of the float32 as a float64 and converting that gives it back. strconv promises this only
for reading it as a float32. -/
def Faithful32 (W : World) (x : UInt32) : Prop :=
  ∀ txt, FmtText32 W x txt → NumberText txt ∧ ∃ y, W.parseF64 txt = some y ∧ Fits32 y ∧ W.toF32 y = x

/-- Conversion of infinities and of the NaN of package math to float32. -/
structure Convert32 (W : World) : Prop where
  inf : W.toF32 0x7FF0000000000000 = 0x7F800000
  negInf : W.toF32 0xFFF0000000000000 = 0xFF800000
  nan : NaN32 (W.toF32 0x7FF8000000000001)

/-- strconv's texts of floats are not empty and contain no semicolon. -/
structure FloatTextsOk (W : World) : Prop where
  f64 : ∀ e x, W.fmtF64 e x ≠ [] ∧ 59 ∉ W.fmtF64 e x
  f32 : ∀ e x, W.fmtF32 e x ≠ [] ∧ 59 ∉ W.fmtF32 e x

end Verif.Spec

import Verif.Model.Base
/-
What the text between the quotes of a JSON string stands for, as in encoding/json: the specification of `unquoteBytes`
(/repo/internal/decoder/unmarshal_php.go:97-232). UTF-8 is that of Lean's core library.
-/
namespace Verif

/-- UTF-8 of a character. -/
abbrev utf8 (c : Char) : Bytes := String.utf8EncodeChar c

/-- The value of a hexadecimal digit, in either case. -/
def HexIs (b : Byte) (d : Nat) : Prop :=
  d < 16 ∧ ((d < 10 ∧ b.toNat = 48 + d) ∨ (10 ≤ d ∧ b.toNat = 97 + (d - 10)) ∨ (10 ≤ d ∧ b.toNat = 65 + (d - 10)))

/-- `s` is `\u`, four hexadecimal digits that make the number `n`, and the rest `r`. -/
def HexEsc (s : Bytes) (n : Nat) (r : Bytes) : Prop :=
  ∃ a b c d x y z w, s = 92 :: 117 :: a :: b :: c :: d :: r ∧ HexIs a x ∧ HexIs b y ∧ HexIs c z ∧ HexIs d w ∧
    n = x * 4096 + y * 256 + z * 16 + w

/-- The escapes of one letter: itself and what it stands for. -/
def letterEscapes : List (Byte × Byte) :=
  [(34, 34), (92, 92), (47, 47), (39, 39), (98, 8), (102, 12), (110, 10), (114, 13), (116, 9)]

/-- The text `s` between two quotes stands for the bytes `t`. -/
inductive Unesc : Bytes → Bytes → Prop
  | done : Unesc [] []
  /-- a character that is no quote, backslash or control character stands for itself -/
  | char {c : Char} {s t : Bytes} : 32 ≤ c.toNat → c ≠ '"' → c ≠ '\\' → Unesc s t → Unesc (utf8 c ++ s) (utf8 c ++ t)
  /-- a byte with which no character begins here stands for U+FFFD -/
  | bad {b : Byte} {s t : Bytes} : (∀ c u, b :: s ≠ utf8 c ++ u) → Unesc s t → Unesc (b :: s) (utf8 (Char.ofNat 0xFFFD) ++ t)
  | letter {x y : Byte} {s t : Bytes} : (x, y) ∈ letterEscapes → Unesc s t → Unesc (92 :: x :: s) (y :: t)
  | hex {s r t : Bytes} {c : Char} : HexEsc s c.toNat r → Unesc r t → Unesc s (utf8 c ++ t)
  /-- a pair of surrogates stands for one character -/
  | pair {s r1 r t : Bytes} {h l : Nat} {c : Char} : HexEsc s (0xD800 + h) r1 → HexEsc r1 (0xDC00 + l) r → h < 0x400 → l < 0x400 →
      c.toNat = 0x10000 + h * 0x400 + l → Unesc r t → Unesc s (utf8 c ++ t)
  /-- a surrogate without its half stands for U+FFFD -/
  | lone {s r t : Bytes} {n : Nat} : HexEsc s n r → 0xD800 ≤ n → n < 0xE000 → (n < 0xDC00 → ∀ l r', l < 0x400 → ¬ HexEsc r (0xDC00 + l) r') →
      Unesc r t → Unesc s (utf8 (Char.ofNat 0xFFFD) ++ t)

end Verif

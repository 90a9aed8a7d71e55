import Verif.Model.Base
/-
Model of `unquoteBytes` and `getu4`, /repo/internal/decoder/unmarshal_php.go:97-232, and of the functions of unicode/utf8 and
unicode/utf16 they call.
-/
namespace Verif

/-- A continuation byte of UTF-8 in the given range (utf8.acceptRanges, Go standard library). -/
def inRange8 (c lo hi : Byte) : Bool := decide (lo ≤ c ∧ c ≤ hi)

/-- utf8.DecodeRune (Go standard library, documented behaviour): the first rune and its length in bytes; `(0xFFFD, 1)` for an
encoding that is not valid, `(0xFFFD, 0)` for no bytes. -/
def decodeRune (p : Bytes) : Nat × Nat :=
  match p with
  | [] => (0xFFFD, 0)
  | c0 :: r =>
    if c0 < 0x80 then (c0.toNat, 1)
    else if c0 < 0xC2 then (0xFFFD, 1)
    else if c0 < 0xE0 then
      match r with
      | c1 :: _ => if inRange8 c1 0x80 0xBF then (c0.toNat % 32 * 64 + c1.toNat % 64, 2) else (0xFFFD, 1)
      | _ => (0xFFFD, 1)
    else if c0 < 0xF0 then
      match r with
      | c1 :: c2 :: _ =>
        if inRange8 c1 (if c0 = 0xE0 then 0xA0 else 0x80) (if c0 = 0xED then 0x9F else 0xBF) && inRange8 c2 0x80 0xBF then
          (c0.toNat % 16 * 4096 + c1.toNat % 64 * 64 + c2.toNat % 64, 3)
        else (0xFFFD, 1)
      | _ => (0xFFFD, 1)
    else if c0 < 0xF5 then
      match r with
      | c1 :: c2 :: c3 :: _ =>
        if inRange8 c1 (if c0 = 0xF0 then 0x90 else 0x80) (if c0 = 0xF4 then 0x8F else 0xBF) && inRange8 c2 0x80 0xBF && inRange8 c3 0x80 0xBF then
          (c0.toNat % 8 * 262144 + c1.toNat % 64 * 4096 + c2.toNat % 64 * 64 + c3.toNat % 64, 4)
        else (0xFFFD, 1)
      | _ => (0xFFFD, 1)
    else (0xFFFD, 1)

/-- The bytes written by utf8.EncodeRune (Go standard library); surrogates and numbers beyond 0x10FFFF become 0xFFFD. -/
def runeBytes (r : Nat) : Bytes :=
  if r < 0x80 then [UInt8.ofNat r]
  else if r < 0x800 then [UInt8.ofNat (0xC0 + r / 64), UInt8.ofNat (0x80 + r % 64)]
  else if 0x10FFFF < r ∨ (0xD800 ≤ r ∧ r < 0xE000) then [0xEF, 0xBF, 0xBD]
  else if r < 0x10000 then [UInt8.ofNat (0xE0 + r / 4096), UInt8.ofNat (0x80 + r / 64 % 64), UInt8.ofNat (0x80 + r % 64)]
  else [UInt8.ofNat (0xF0 + r / 262144), UInt8.ofNat (0x80 + r / 4096 % 64), UInt8.ofNat (0x80 + r / 64 % 64), UInt8.ofNat (0x80 + r % 64)]

/-- utf16.IsSurrogate (Go standard library). -/
def isSurrogate (r : Nat) : Bool := decide (0xD800 ≤ r ∧ r < 0xE000)

/-- utf16.DecodeRune (Go standard library); `none` is the -1 of `getu4`. -/
def decodePair (r1 : Nat) (r2 : Option Nat) : Nat :=
  match r2 with
  | none => 0xFFFD
  | some r2 =>
    if 0xD800 ≤ r1 ∧ r1 < 0xDC00 ∧ 0xDC00 ≤ r2 ∧ r2 < 0xE000 then (r1 - 0xD800) * 1024 + (r2 - 0xDC00) + 0x10000 else 0xFFFD

/-- The digit switch of `getu4`, unmarshal_php.go:219-228. -/
def hexDigit (c : Byte) : Option Nat :=
  if 48 ≤ c ∧ c ≤ 57 then some (c.toNat - 48)
  else if 97 ≤ c ∧ c ≤ 102 then some (c.toNat - 97 + 10)
  else if 65 ≤ c ∧ c ≤ 70 then some (c.toNat - 65 + 10)
  else none

/-- The loop of `getu4`, unmarshal_php.go:218-230. -/
def hexLoop : Bytes → Nat → Option Nat
  | [], r => some r
  | c :: s, r => match hexDigit c with
    | none => none
    | some d => hexLoop s (r * 16 + d)

/-- `getu4`, unmarshal_php.go:213-232; `none` is the result -1. -/
def getu4 (s : Bytes) : Option Nat :=
  match s with
  | 92 :: 117 :: a :: b :: c :: d :: _ => hexLoop [a, b, c, d] 0
  | _ => none

/-- `b[w] = c`, checked. -/
def putByte (b : Bytes) (w : Nat) (c : Byte) : Res Bytes := if w < b.length then .ok (b.set w c) else .panic .index

/-- `utf8.EncodeRune(b[w:], r)`: the buffer and the number of bytes written. EncodeRune checks the last byte first. -/
def putRune (b : Bytes) (w r : Nat) : Res (Bytes × Nat) :=
  let bs := runeBytes r
  if w + bs.length ≤ b.length then .ok (b.take w ++ bs ++ b.drop (w + bs.length), bs.length) else .panic .index

/-- The first loop of `unquoteBytes`, unmarshal_php.go:109-122: position of the first byte that needs attention. -/
def plainLoop (s : Bytes) : Nat → Nat → Res Nat
  | 0, _ => .diverge
  | f + 1, r =>
    if r < s.length then
      idx s r >>= fun c =>
      if c = 92 ∨ c = 34 ∨ c < 32 then .ok r
      else if c < 0x80 then plainLoop s f (r + 1)
      else
        let (rr, size) := decodeRune (s.drop r)
        if rr = 0xFFFD ∧ size = 1 then .ok r else plainLoop s f (r + size)
    else .ok r

/-- The escapes of one byte, unmarshal_php.go:147-171. -/
def simpleEscape (c : Byte) : Option Byte :=
  if c = 34 ∨ c = 92 ∨ c = 47 ∨ c = 39 then some c
  else if c = 98 then some 8
  else if c = 102 then some 12
  else if c = 110 then some 10
  else if c = 114 then some 13
  else if c = 116 then some 9
  else none

/-- The test for room, unmarshal_php.go:130-137. -/
def moreRoom (b : Bytes) (w : Nat) : Bytes :=
  if (b.length : Int) - 8 ≤ w then b.take w ++ List.replicate ((b.length + 4) * 2 - (b.take w).length) 0 else b

/-- The second loop of `unquoteBytes`, unmarshal_php.go:129-210, with the buffer `b` and the positions `r` and `w`. The result
`none` is `return` without a value. The calls of `getu4` and `DecodeRune` at a position `r` below `s.length` take `s[r:]`
without a check; that after `r += 6` is checked. -/
def unquoteLoop (s : Bytes) : Nat → Nat → Bytes → Nat → Res (Option Bytes)
  | 0, _, _, _ => .diverge
  | f + 1, r, b, w =>
    if r < s.length then
      let b := moreRoom b w
      idx s r >>= fun c =>
      if c = 92 then
        let r := r + 1
        if s.length ≤ r then .ok none else
        idx s r >>= fun c =>
        match simpleEscape c with
        | some x => putByte b w x >>= fun b => unquoteLoop s f (r + 1) b (w + 1)
        | none =>
          if c = 117 then
            let r := r - 1
            match getu4 (s.drop r) with
            | none => .ok none
            | some rr =>
              let r := r + 6
              if isSurrogate rr then
                if s.length < r then .panic .slice else
                let dec := decodePair rr (getu4 (s.drop r))
                if dec ≠ 0xFFFD then
                  putRune b w dec >>= fun (b, n) => unquoteLoop s f (r + 6) b (w + n)
                else putRune b w 0xFFFD >>= fun (b, n) => unquoteLoop s f r b (w + n)
              else putRune b w rr >>= fun (b, n) => unquoteLoop s f r b (w + n)
          else .ok none
      else if c = 34 ∨ c < 32 then .ok none
      else if c < 0x80 then putByte b w c >>= fun b => unquoteLoop s f (r + 1) b (w + 1)
      else
        let (rr, size) := decodeRune (s.drop r)
        putRune b w rr >>= fun (b, n) => unquoteLoop s f (r + size) b (w + n)
    else sub b 0 w >>= fun t => .ok (some t)

/-- `unquoteBytes`, unmarshal_php.go:97-211. -/
def unquoteBytes (s : Bytes) : Res (Option Bytes) :=
  if s.length < 2 ∨ s.head? ≠ some 34 ∨ s.getLast? ≠ some 34 then .ok none else
  sub s 1 (s.length - 1) >>= fun s =>
  plainLoop s (s.length + 1) 0 >>= fun r =>
  if r = s.length then .ok (some s) else
  sub s 0 r >>= fun p =>
  let b := p ++ List.replicate (s.length + 8 - p.length) 0
  unquoteLoop s (s.length + 1) r b p.length

end Verif

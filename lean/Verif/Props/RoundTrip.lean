import Verif.Proofs.RoundScalar
import Verif.Props.DemoEnc
/-
Scalars survive a round trip: C01–C05. `MarshalGives W h (some (t, v)) r` says that `Marshal` of the value `v` of type `t`
returns `r`. Types that implement Marshaler or Unmarshaler are excluded (`marOf`, `Plain`).
-/
namespace Verif
open Spec

/-- C01: for every signed kind and value, `Marshal` succeeds and `Unmarshal` gives the value back, whatever the variable
held before. -/
theorem C01_int_roundtrip (W : World) (h : Heap) (t : Ty) (k : IKind) (ht : Plain W t (.int k)) (hm : W.marOf t = false)
    (i : Int) (hi : InRange k i) (fuel : Nat) (hf : 0 < fuel) (old : Val) :
    ∃ tx, MarshalGives W h (some (t, .int i)) (.ok tx) ∧ unmarshal W fuel tx (.ptr t old) = (some (.int i), .ok ()) := by
  refine ⟨_, marshal_scalar hm (.int ht.2), unmarshal_doc ?_ (scalarLike_compile (b := []) (.inl (.inr (.inl ⟨k, ht⟩))) hf _)
    (.int ht (intText_spec i) hi)⟩
  have := inRange_i64 hi
  have := intText_length this.1 this.2
  simp only [Doc.text, List.length_append, List.length_cons, List.length_nil]
  omega

example : Plain Demo.W (.int .i64) (.int .i64) ∧ Demo.W.marOf (.int .i64) = false ∧ InRange .i64 (-9223372036854775808) ∧
    (marshal Demo.W Demo.heap 1 1 Ctx.clean (some (.int .i64, .int (-9223372036854775808)))).2 = .ok (b! "i:-9223372036854775808;") :=
  ⟨⟨rfl, rfl⟩, rfl, by unfold InRange; decide, by rfl⟩

/-- C02: the same for every unsigned kind `Marshal` supports, that is all but `uintptr`. -/
theorem C02_uint_roundtrip (W : World) (h : Heap) (t : Ty) (k : UKind) (ht : Plain W t (.uint k)) (hk : k ≠ .uptr)
    (hm : W.marOf t = false) (n : Nat) (hn : InURange k n) (fuel : Nat) (hf : 0 < fuel) (old : Val) :
    ∃ tx, MarshalGives W h (some (t, .uint n)) (.ok tx) ∧ unmarshal W fuel tx (.ptr t old) = (some (.uint n), .ok ()) := by
  have := natText_length64 (uint_lt64 hn)
  have hd : DecDoc W t maxDepth (.int (natText n)) old (.uint (digitsVal (natText n))) :=
    .uint ht (natText_digits n) (by rw [natText_val]; exact hn)
  rw [natText_val] at hd
  refine ⟨_, marshal_scalar hm (.uint ht.2 hk), unmarshal_doc ?_ (scalarLike_compile (b := []) (.inl (.inr (.inr (.inl ⟨k, ht⟩)))) hf _) hd⟩
  simp only [Doc.text, List.length_append, List.length_cons, List.length_nil]
  omega

example : Plain Demo.W (.uint .u64) (.uint .u64) ∧ Demo.W.marOf (.uint .u64) = false ∧ InURange .u64 18446744073709551615 ∧
    (marshal Demo.W Demo.heap 1 1 Ctx.clean (some (.uint .u64, .uint 18446744073709551615))).2 = .ok (b! "i:18446744073709551615;") :=
  ⟨⟨rfl, rfl⟩, rfl, by decide, by rfl⟩

/-- C02: `uintptr` is the exception; `Marshal` rejects it. -/
theorem C02_uintptr_rejected (W : World) (h : Heap) (n : Nat) :
    MarshalGives W h (some (.uint .uptr, .uint n)) (.err (.unsupported "uintptr")) :=
  marshalGives_of (cf := 1) (f := 1) (by simp) rfl

/-- C03: strings survive a round trip byte for byte. -/
theorem C03_string_roundtrip (W : World) (h : Heap) (t : Ty) (ht : Plain W t .str) (hm : W.marOf t = false)
    (s : Bytes) (hs : s.length < 2 ^ 62) (fuel : Nat) (hf : 0 < fuel) (old : Val) :
    ∃ tx, MarshalGives W h (some (t, .str s)) (.ok tx) ∧ unmarshal W fuel tx (.ptr t old) = (some (.str s), .ok ()) :=
  ⟨_, marshal_scalar hm (.str ht.2), unmarshal_doc (strDoc_length hs) (scalarLike_compile (b := []) (.inr (.inl ht)) hf _)
    (.str ht (lenText_natText (by omega)))⟩

example : Plain Demo.W .str .str ∧ Demo.W.marOf .str = false ∧ (b! "a\";}\x00é").length < 2 ^ 62 ∧
    (marshal Demo.W Demo.heap 1 1 Ctx.clean (some (.str, .str (b! "a\";}\x00é")))).2 = .ok (b! "s:7:\"a\";}\x00é\";") :=
  ⟨⟨rfl, rfl⟩, rfl, by decide, by rfl⟩

/-- C03: byte slices survive a round trip byte for byte; a nil one comes back empty. -/
theorem C03_bytes_roundtrip (W : World) (h : Heap) (v : GV) (s : Bytes)
    (hv : (v = .sliceNil ∧ s = []) ∨ ∃ a, v = .slice a s.length ∧ h.elems (.uint .u8) a s.length = s.map fun c => .uint c.toNat)
    (hs : s.length < 2 ^ 62) (fuel : Nat) (hf : 0 < fuel) (old : Val) :
    ∃ tx, MarshalGives W h (some (.slice (.uint .u8), v)) (.ok tx) ∧
      unmarshal W fuel tx (.ptr (.slice (.uint .u8)) old) = (some (.slice (s.map fun c => .uint c.toNat)), .ok ()) := by
  have hp : Plain W (.slice (.uint .u8)) (.slice (.uint .u8)) := ⟨rfl, rfl⟩
  have hsup : Supported W (.slice (.uint .u8)) := ⟨1, [], rfl⟩
  refine ⟨(strDoc s).text, marshalGives_ok_iff.2 ⟨hsup, ?_⟩,
    unmarshal_doc (strDoc_length hs) (scalarLike_compile (b := []) (.inr (.inr ⟨_, hp, rfl, by simp⟩)) hf _) (.bytes hp rfl (lenText_natText (by omega)))⟩
  rcases hv with ⟨rfl, rfl⟩ | ⟨a, rfl, he⟩
  · exact .bytesNil
  · refine .bytes ?_
    rw [he]
    clear he hs
    induction s with
    | nil => rfl
    | cons c s ih =>
      have hc : c.toNat < 256 := c.toNat_lt
      simp only [List.map_cons, bytesOf, hc, if_true, ih, Option.map_some, UInt8.ofNat_toNat]

example : Demo.heap.elems (.uint .u8) 1000 3 = (b! "\";z").map (fun c => .uint c.toNat) ∧
    (marshal Demo.W Demo.heap 1 1 Ctx.clean (some (.slice (.uint .u8), .slice 1000 3))).2 = .ok (b! "s:3:\"\";z\";") :=
  ⟨rfl, by rfl⟩

/-- C04, round trip: booleans are written and read back. The accept set of the reader is `C04_bool_inputs`. -/
theorem C04_bool_roundtrip (W : World) (h : Heap) (t : Ty) (ht : Plain W t .bool) (hm : W.marOf t = false)
    (b : Bool) (fuel : Nat) (hf : 0 < fuel) (old : Val) :
    ∃ tx, MarshalGives W h (some (t, .bool b)) (.ok tx) ∧ unmarshal W fuel tx (.ptr t old) = (some (.bool b), .ok ()) :=
  ⟨_, marshal_scalar hm (.bool ht.2), unmarshal_doc (by simp [Doc.text]) (scalarLike_compile (b := []) (.inl (.inl ht)) hf _) (.bool ht)⟩

example : Plain Demo.W .bool .bool ∧ Demo.W.marOf .bool = false ∧
    (marshal Demo.W Demo.heap 1 1 Ctx.clean (some (.bool, .bool true))).2 = .ok (b! "b:1;") := ⟨⟨rfl, rfl⟩, rfl, rfl⟩

/-- C05 for float64: the value read back is the same, bit for bit, or both are NaN, given that strconv formats the value
faithfully (asked of finite values only: INF, -INF and NAN bypass strconv). -/
theorem C05_float64_roundtrip (W : World) (h : Heap) (t : Ty) (ht : Plain W t .f64) (hm : W.marOf t = false)
    (x : UInt64) (hx : Finite64 x → Faithful64 W x) (hl : Finite64 x → ∀ txt, FmtText64 W x txt → txt.length < 2 ^ 62)
    (fuel : Nat) (hf : 0 < fuel) (old : Val) :
    ∃ tx y, MarshalGives W h (some (t, .f64 x)) (.ok tx) ∧ unmarshal W fuel tx (.ptr t old) = (some (.f64 y), .ok ()) ∧ SameF64 x y := by
  obtain ⟨txt, ho⟩ := floatOut64_total (W := W) x
  obtain ⟨h1, h2, y, h3, h4⟩ := float64_back ho hx
  refine ⟨_, y, marshal_scalar hm (.f64 ht.2 ho), unmarshal_doc ?_
    (scalarLike_compile (b := []) (.inl (.inr (.inr (.inr (.inr ht))))) hf _) (.f64 ht h1 h2 h3), h4⟩
  simp only [Doc.text, List.length_append, List.length_cons, List.length_nil]
  cases ho with
  | finite a b c d => have := hl (finite64_of a b c) _ d; omega
  | _ => simp

example : Plain Demo.W .f64 .f64 ∧ Demo.W.marOf .f64 = false ∧ Faithful64 Demo.W 0x3FE0000000000000 ∧
    (∀ txt, FmtText64 Demo.W 0x3FE0000000000000 txt → txt.length < 2 ^ 62) ∧
    (marshal Demo.W Demo.heap 1 1 Ctx.clean (some (.f64, .f64 0x3FE0000000000000))).2 = .ok (b! "d:0.5;") ∧
    (marshal Demo.W Demo.heap 1 1 Ctx.clean (some (.f64, .f64 0xFFF0000000000000))).2 = .ok (b! "d:-INF;") :=
  ⟨⟨rfl, rfl⟩, rfl, fun txt h => by rw [fmtText64_iff.1 h]; exact ⟨⟨by decide, by decide, by unfold SpecialName; decide⟩, rfl⟩,
    fun txt h => by rw [fmtText64_iff.1 h]; decide, rfl, rfl⟩

/-- C05 for float32, as far as it holds: the value read back is the same if reading its shortest text as a float64 and
converting gives it back. Missing: strconv guarantees this only for ParseFloat with 32 bits, the decoder parses with 64
bits and rounds a second time, see `C05_float32_counterexample`. -/
theorem C05_float32_roundtrip_partial (W : World) (h : Heap) (t : Ty) (ht : Plain W t .f32) (hm : W.marOf t = false) (hc : Convert32 W)
    (x : UInt32) (hx : Finite32 x → Faithful32 W x) (hl : Finite32 x → ∀ txt, FmtText32 W x txt → txt.length < 2 ^ 62)
    (fuel : Nat) (hf : 0 < fuel) (old : Val) :
    ∃ tx y, MarshalGives W h (some (t, .f32 x)) (.ok tx) ∧ unmarshal W fuel tx (.ptr t old) = (some (.f32 y), .ok ()) ∧ SameF32 x y := by
  obtain ⟨txt, ho⟩ := floatOut32_total (W := W) x
  obtain ⟨h1, h2, y, h3, h4, h5⟩ := float32_back ho hx hc
  refine ⟨_, _, marshal_scalar hm (.f32 ht.2 ho), unmarshal_doc ?_
    (scalarLike_compile (b := []) (.inl (.inr (.inr (.inr (.inl ht))))) hf _) (.f32 ht h1 h2 h3 h4), h5⟩
  simp only [Doc.text, List.length_append, List.length_cons, List.length_nil]
  cases ho with
  | finite a b c d => have := hl (finite32_of a b c) _ d; omega
  | _ => simp

/-- A world with strconv's answers for the float32 number 0x15AE43FD. Its shortest text is `7.038531e-26`. The nearest
float64 to that number is 0x3AB5C87FB0000000, which lies half-way between the float32 numbers 0x15AE43FD and 0x15AE43FE and
converts to the second (even mantissa). -/
def Demo.WF : World := { Demo.W with
  fmtF32 := fun _ x => if x = 0x15AE43FD then b! "7.038531e-26" else b! "0.5"
  parseF64 := fun s => if s = b! "7.038531e-26" then some 0x3AB5C87FB0000000 else if s = b! "0.5" then some 0x3FE0000000000000 else none
  toF32 := fun x => if x = 0x3AB5C87FB0000000 then 0x15AE43FE else if x = 0x7FF0000000000000 then 0x7F800000 else
    if x = 0xFFF0000000000000 then 0xFF800000 else if x = 0x7FF8000000000001 then 0x7FC00000 else 0x3F000000 }

example : Plain Demo.WF .f32 .f32 ∧ Demo.WF.marOf .f32 = false ∧ Convert32 Demo.WF ∧ Faithful32 Demo.WF 0x3F000000 ∧
    (∀ txt, FmtText32 Demo.WF 0x3F000000 txt → txt.length < 2 ^ 62) ∧
    (marshal Demo.WF Demo.heap 1 1 Ctx.clean (some (.f32, .f32 0x3F000000))).2 = .ok (b! "d:0.5;") :=
  ⟨⟨rfl, rfl⟩, rfl, ⟨rfl, rfl, by unfold NaN32; decide⟩,
    fun txt h => by rw [fmtText32_iff.1 h]; exact ⟨⟨by decide, by decide, by unfold SpecialName; decide⟩, _, rfl, .inl (by decide), rfl⟩,
    fun txt h => by rw [fmtText32_iff.1 h]; decide, rfl⟩

/-- C05 is false for float32: 0x15AE43FD is written as `7.038531e-26` and read back as 0x15AE43FE. The other clauses check
strconv's answers by exact arithmetic; the numbers are 0x15AE43FD = 0xAE43FD·2^-107, 0x15AE43FE = 0xAE43FE·2^-107 and
0x3AB5C87FB0000000 = 0x15C87FB·2^-108, and neighbouring float64 numbers differ by 2^-136:
the text is nearer to the first than half the distance of float32 numbers, so that ParseFloat with 32 bits would give it back;
it is nearer to the float64 number than half the distance of float64 numbers; the float64 number is the mean of the two. -/
theorem C05_float32_counterexample (h : Heap) :
    (∃ tx, MarshalGives Demo.WF h (some (.f32, .f32 0x15AE43FD)) (.ok tx) ∧
      unmarshal Demo.WF 1 tx (.ptr .f32 (.f32 0)) = (some (.f32 0x15AE43FE), .ok ())) ∧ ¬ SameF32 0x15AE43FD 0x15AE43FE ∧
    (7038531 * 2 ^ 108 - 2 * 0xAE43FD * 10 ^ 32 : Int).natAbs < 10 ^ 32 ∧
    (7038531 * 2 ^ 137 - 0x15C87FB * 2 ^ 29 * 10 ^ 32 : Int).natAbs < 10 ^ 32 ∧
    (2 * 0x15C87FB = 2 * 0xAE43FD + 2 * 0xAE43FE) :=
  ⟨⟨b! "d:7.038531e-26;", marshalGives_of (cf := 1) (f := 1) (by simp) rfl, rfl⟩, by unfold SameF32 NaN32; decide, by decide, by decide, rfl⟩

end Verif

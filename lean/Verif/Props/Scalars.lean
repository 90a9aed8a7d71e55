import Verif.Proofs.ScalarFacts
import Verif.Props.Demo
/-
Properties of decoding into scalar destinations: C04 (decoding half), C08, C09, C35, C41.
`fuel` bounds the nesting of type preparation and is otherwise arbitrary. Input lengths are below 2^63, as in Go.
-/
namespace Verif
open Spec Demo

/-- C04, decoding: `Unmarshal` into a bool succeeds exactly on `b:0;`, `b:1;` and `N;`; the last leaves the variable. -/
theorem C04_bool_inputs (W : World) (t : Ty) (ht : Plain W t .bool) (fuel : Nat) (hf : 0 < fuel) (data : Bytes)
    (hb : data.length < 2 ^ 63) (old v : Val) :
    unmarshal W fuel data (.ptr t old) = (some v, .ok ()) ↔
      (data = [98, 58, 48, 59] ∧ v = .bool false) ∨ (data = [98, 58, 49, 59] ∧ v = .bool true) ∨ (data = [78, 59] ∧ v = old) := by
  rw [unmarshal_ok_iff hb]
  have hs : ScalarLike W t data := .inl (.inl ht)
  constructor
  · rintro ⟨-, d, v', h1, rfl, h3⟩
    cases h1
    rcases (decDoc_bool ht).1 h3 with ⟨rfl, rfl⟩ | ⟨b, rfl, rfl⟩
    · exact .inr (.inr ⟨rfl, rfl⟩)
    · cases b
      · exact .inl ⟨rfl, rfl⟩
      · exact .inr (.inl ⟨rfl, rfl⟩)
  · intro h
    refine ⟨scalarLike_compile hs hf _, ?_⟩
    rcases h with ⟨rfl, rfl⟩ | ⟨rfl, rfl⟩ | ⟨rfl, rfl⟩
    · exact ⟨.bool false, _, rfl, rfl, .bool ht⟩
    · exact ⟨.bool true, _, rfl, rfl, .bool ht⟩
    · exact ⟨.null, _, rfl, rfl, .boolNull ht⟩

example : Plain Demo.W .bool .bool ∧ unmarshal Demo.W 1 (b! "b:1;") (.ptr .bool (.bool false)) = (some (.bool true), .ok ()) :=
  ⟨⟨rfl, rfl⟩, rfl⟩

/-- C08: signed integer decoding is exact. -/
theorem C08_int_decode_exact (W : World) (t : Ty) (k : IKind) (ht : Plain W t (.int k)) (fuel : Nat) (hf : 0 < fuel)
    (txt : Bytes) (hlen : txt.length + 3 < 2 ^ 63) (old : Val) :
    (∀ i, IntText txt i → InRange k i →
      unmarshal W fuel ([105, 58] ++ txt ++ [59]) (.ptr t old) = (some (.int i), .ok ())) ∧
    ((¬ ∃ i, IntText txt i ∧ InRange k i) →
      ∃ e v, unmarshal W fuel ([105, 58] ++ txt ++ [59]) (.ptr t old) = (some v, .err e) ∧ (59 ∉ txt → v = old)) := by
  have hs : ScalarLike W t ([105, 58] ++ txt ++ [59]) := .inl (.inr (.inl ⟨k, ht⟩))
  have hb : ([105, 58] ++ txt ++ [59]).length < 2 ^ 63 := by simp; omega
  constructor
  · intro i h1 h2
    rw [unmarshal_ok_iff hb]
    exact ⟨scalarLike_compile hs hf _, .int txt, _, rfl, rfl, .int ht h1 h2⟩
  · intro hno
    rcases unmarshal_scalar (old := old) hb hf hs with ⟨v, d, -, h2, h3⟩ | ⟨e, h⟩ | ⟨e, v, d, rest, h1, h2, h3, h4⟩
    · exfalso
      rcases (decDoc_int ht).1 h3 with ⟨rfl, -⟩ | ⟨txt', i, rfl, h5, h6, -⟩
      · simp [Doc.text] at h2
      · cases intText_pos_of h2
        exact hno ⟨i, h5, h6⟩
    · exact ⟨e, old, h, fun _ => rfl⟩
    · refine ⟨e, v, h1, fun h59 => ?_⟩
      rcases (decDoc_int ht).1 h4 with ⟨rfl, -⟩ | ⟨txt', i, rfl, h5, h6, -⟩
      · simp [Doc.text] at h3
      · exact (int_doc_prefix h59 h3 h2).elim

example : IntText (b! "-128") (-128) ∧ InRange .i8 (-128) ∧ ¬ InRange .i8 128 := by
  refine ⟨.neg (ds := b! "128") ⟨by simp, by simp; decide⟩, by simp [InRange, intMax], by simp [InRange, intMax]⟩
example : unmarshal Demo.W 1 (b! "i:128;") (.ptr (.int .i8) (.int 7)) = (some (.int 7), .err (.overflow (.int 128) (.int .i8))) := by rfl
/-- The restriction on the last clause of C08 is needed: with a semicolon in the text the first number is stored before the
remaining bytes are reported as an error. -/
theorem C08_semicolon_witness : ∃ e, unmarshal Demo.W 1 (b! "i:5;6;") (.ptr (.int .i64) (.int 7)) = (some (.int 5), .err e) :=
  ⟨_, rfl⟩

/-- C09: unsigned integer decoding is exact; signs are rejected. -/
theorem C09_uint_decode_exact (W : World) (t : Ty) (k : UKind) (ht : Plain W t (.uint k)) (fuel : Nat) (hf : 0 < fuel)
    (txt : Bytes) (hlen : txt.length + 3 < 2 ^ 63) (old : Val) :
    (IsDigits txt → InURange k (digitsVal txt) →
      unmarshal W fuel ([105, 58] ++ txt ++ [59]) (.ptr t old) = (some (.uint (digitsVal txt)), .ok ())) ∧
    (¬ (IsDigits txt ∧ InURange k (digitsVal txt)) →
      ∃ e v, unmarshal W fuel ([105, 58] ++ txt ++ [59]) (.ptr t old) = (some v, .err e) ∧ (59 ∉ txt → v = old)) := by
  have hs : ScalarLike W t ([105, 58] ++ txt ++ [59]) := .inl (.inr (.inr (.inl ⟨k, ht⟩)))
  have hb : ([105, 58] ++ txt ++ [59]).length < 2 ^ 63 := by simp; omega
  constructor
  · intro h1 h2
    rw [unmarshal_ok_iff hb]
    exact ⟨scalarLike_compile hs hf _, .int txt, _, rfl, rfl, .uint ht h1 h2⟩
  · intro hno
    rcases unmarshal_scalar (old := old) hb hf hs with ⟨v, d, -, h2, h3⟩ | ⟨e, h⟩ | ⟨e, v, d, rest, h1, h2, h3, h4⟩
    · exfalso
      rcases (decDoc_uint ht).1 h3 with ⟨rfl, -⟩ | ⟨txt', rfl, h5, h6, -⟩
      · simp [Doc.text] at h2
      · cases intText_pos_of h2
        exact hno ⟨h5, h6⟩
    · exact ⟨e, old, h, fun _ => rfl⟩
    · refine ⟨e, v, h1, fun h59 => ?_⟩
      rcases (decDoc_uint ht).1 h4 with ⟨rfl, -⟩ | ⟨txt', rfl, h5, h6, -⟩
      · simp [Doc.text] at h3
      · exact (int_doc_prefix h59 h3 h2).elim

/-- C09: a minus sign is always rejected, also in front of zero. -/
theorem C09_negative_rejected (W : World) (t : Ty) (k : UKind) (ht : Plain W t (.uint k)) (fuel : Nat) (hf : 0 < fuel)
    (txt : Bytes) (h59 : 59 ∉ txt) (hlen : txt.length + 4 < 2 ^ 63) (old : Val) :
    ∃ e, unmarshal W fuel ([105, 58] ++ (45 :: txt) ++ [59]) (.ptr t old) = (some old, .err e) := by
  have h := (C09_uint_decode_exact W t k ht fuel hf (45 :: txt) (by simp; omega) old).2
  have hno : ¬ (IsDigits (45 :: txt) ∧ InURange k (digitsVal (45 :: txt))) := by
    rintro ⟨⟨-, h⟩, -⟩
    have := h 45 (by simp)
    revert this; decide
  obtain ⟨e, v, h1, h2⟩ := h hno
  rw [h2 (by simp [h59])] at h1
  exact ⟨e, h1⟩

example : unmarshal Demo.W 1 (b! "i:18446744073709551615;") (.ptr (.uint .u64) (.uint 7)) =
    (some (.uint 18446744073709551615), .ok ()) := by rfl
example : ∃ e, unmarshal Demo.W 1 (b! "i:18446744073709551616;") (.ptr (.uint .u64) (.uint 7)) = (some (.uint 7), .err e) :=
  ⟨_, rfl⟩

/-- C41: string decoding accepts exactly `N;` and strings with their exact byte length. -/
theorem C41_string_exact_length (W : World) (t : Ty) (ht : Plain W t .str) (fuel : Nat) (hf : 0 < fuel) (data : Bytes)
    (hb : data.length < 2 ^ 63) (old v : Val) :
    unmarshal W fuel data (.ptr t old) = (some v, .ok ()) ↔
      (data = [78, 59] ∧ v = old) ∨
      ∃ len s, data = [115, 58] ++ len ++ [58, 34] ++ s ++ [34, 59] ∧ LenText len s.length ∧ v = .str s := by
  rw [unmarshal_ok_iff hb]
  have hs : ScalarLike W t data := .inr (.inl ht)
  constructor
  · rintro ⟨-, d, v', h1, rfl, h3⟩
    cases h1
    rcases (decDoc_str ht).1 h3 with ⟨rfl, rfl⟩ | ⟨len, s, rfl, h, rfl⟩
    · exact .inl ⟨rfl, rfl⟩
    · exact .inr ⟨len, s, rfl, h, rfl⟩
  · intro h
    refine ⟨scalarLike_compile hs hf _, ?_⟩
    rcases h with ⟨rfl, rfl⟩ | ⟨len, s, rfl, h, rfl⟩
    · exact ⟨.null, _, rfl, rfl, .strNull ht⟩
    · exact ⟨.str len s, _, rfl, rfl, .str ht h⟩

/-- C41: whatever the declared length, every input that is not accepted gives an error, never a panic. -/
theorem C41_string_never_panics (W : World) (t : Ty) (ht : Plain W t .str) (fuel : Nat) (hf : 0 < fuel) (data : Bytes)
    (hb : data.length < 2 ^ 63) (old : Val) :
    ∃ v, unmarshal W fuel data (.ptr t old) = (some v, .ok ()) ∨ ∃ e, unmarshal W fuel data (.ptr t old) = (some v, .err e) := by
  rcases unmarshal_scalar (old := old) hb hf (.inr (.inl ht)) with ⟨v, d, h, -, -⟩ | ⟨e, h⟩ | ⟨e, v, d, rest, h, -⟩
  · exact ⟨v, .inl h⟩
  · exact ⟨old, .inr ⟨e, h⟩⟩
  · exact ⟨v, .inr ⟨e, h⟩⟩

example : unmarshal Demo.W 1 (b! "s:3:\"a\";\";") (.ptr .str (.str [])) = (some (.str (b! "a\";")), .ok ()) := by rfl
example : ∃ e, unmarshal Demo.W 1 (b! "s:9223372036854775807:\"a\";") (.ptr .str (.str [7])) = (some (.str [7]), .err e) := ⟨_, rfl⟩

/-- Documents a scalar destination can take: one without nesting. -/
def FlatDoc (d : Doc) : Prop :=
  d = .null ∨ (∃ b, d = .bool b) ∨ (∃ t, d = .int t) ∨ (∃ t, d = .float t) ∨ ∃ l s, d = .str l s

/-- C35, except for byte slices fed an array: if `Unmarshal` into a bool, integer, float, string or byte slice fails,
then the variable keeps its old value, unless a complete scalar value has been read and the failure is about the bytes
that follow it. Missing: byte slices with input beginning with `a`, for which the property is false
(`C35_bytes_counterexample`). -/
theorem C35_scalar_unchanged_partial (W : World) (t : Ty)
    (data : Bytes) (hb : data.length < 2 ^ 63)
    (ht : IsScalar W t ∨ Plain W t .str ∨ ∃ e, Plain W t (.slice e) ∧ W.isByte e = true ∧ data.head? ≠ some 97)
    (fuel : Nat) (hf : 0 < fuel) (old v : Val) (r : Res Unit)
    (h : unmarshal W fuel data (.ptr t old) = (some v, r)) (hr : r ≠ .ok ()) :
    (∃ e, r = .err e) ∧ (v = old ∨ ∃ d rest, FlatDoc d ∧ Strict 0 d ∧ rest ≠ [] ∧ data = d.text ++ rest) := by
  rcases unmarshal_scalar (old := old) hb hf ht with ⟨v', d, h1, -, -⟩ | ⟨e, h1⟩ | ⟨e, v', d, rest, h1, h2, h3, h4⟩
  · rw [h] at h1; cases h1; exact absurd rfl hr
  · rw [h] at h1; cases h1; exact ⟨⟨e, rfl⟩, .inl rfl⟩
  · rw [h] at h1; cases h1
    refine ⟨⟨e, rfl⟩, .inr ⟨d, rest, ?_, ?_, h2, h3⟩⟩
    all_goals
      rcases ht with (ht | ⟨k, ht⟩ | ⟨k, ht⟩ | ht | ht) | ht | ⟨e, ht, hbt, hx⟩
      · rcases (decDoc_bool ht).1 h4 with ⟨rfl, -⟩ | ⟨b, rfl, -⟩
        · first | exact .inl rfl | exact .null
        · first | exact .inr (.inl ⟨_, rfl⟩) | exact .bool
      · rcases (decDoc_int ht).1 h4 with ⟨rfl, -⟩ | ⟨txt, i, rfl, h5, -⟩
        · first | exact .inl rfl | exact .null
        · first | exact .inr (.inr (.inl ⟨_, rfl⟩)) | exact .int h5
      · rcases (decDoc_uint ht).1 h4 with ⟨rfl, -⟩ | ⟨txt, rfl, h5, -⟩
        · first | exact .inl rfl | exact .null
        · first | exact .inr (.inr (.inl ⟨_, rfl⟩)) | exact .int (.pos h5)
      · rcases (decDoc_f32 ht).1 h4 with ⟨rfl, -⟩ | ⟨txt, x, rfl, h5, h6, -⟩
        · first | exact .inl rfl | exact .null
        · first | exact .inr (.inr (.inr (.inl ⟨_, rfl⟩))) | exact .float h5 h6
      · rcases (decDoc_f64 ht).1 h4 with ⟨rfl, -⟩ | ⟨txt, x, rfl, h5, h6, -⟩
        · first | exact .inl rfl | exact .null
        · first | exact .inr (.inr (.inr (.inl ⟨_, rfl⟩))) | exact .float h5 h6
      · rcases (decDoc_str ht).1 h4 with ⟨rfl, -⟩ | ⟨len, s, rfl, h5, -⟩
        · first | exact .inl rfl | exact .null
        · first | exact .inr (.inr (.inr (.inr ⟨_, _, rfl⟩))) | exact .str h5
      · have hlax := decDoc_lax h4
        have hnc : ∀ cnt es, d ≠ .arr cnt es := by
          rintro cnt es rfl
          apply hx
          rw [h3]
          simp [Doc.text]
        obtain ⟨hu, hrs⟩ := ht
        cases h4 <;> first
          | (exfalso; simp_all [Plain]; done)
          | (first | exact .inl rfl | exact .null)
          | (first | exact .inr (.inr (.inr (.inr ⟨_, _, rfl⟩))) | exact .str ‹_›)
          | exact absurd rfl (hnc _ _)

example : IsScalar Demo.W .f64 ∧ ∃ e, unmarshal Demo.W 1 (b! "d:x;") (.ptr .f64 (.f64 3)) = (some (.f64 3), .err e) :=
  ⟨.inr (.inr (.inr (.inr ⟨rfl, rfl⟩))), _, rfl⟩

/-- C35 is false for byte slices: an array that breaks off leaves its first elements in the destination. -/
theorem C35_bytes_counterexample :
    Plain Demo.W (.slice (.uint .u8)) (.slice (.uint .u8)) ∧
    ∃ e, unmarshal Demo.W 1 (b! "a:2:{i:0;i:1;x") (.ptr (.slice (.uint .u8)) (.slice [.uint 9])) =
      (some (.slice [.uint 1]), .err e) := ⟨⟨rfl, rfl⟩, _, rfl⟩

end Verif

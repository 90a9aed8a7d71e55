import Verif.Proofs.Final
import Verif.Props.Framing
import Verif.Props.Safety
import Verif.Props.Demo
/-
C55: errors are final, and input that was cut off is reported as such.
-/
namespace Verif
open Spec

/-- C55: an error that does not say that the input ended stays the same, with the same Offset and the same values stored,
whatever bytes follow. -/
theorem C55_final (W : World) (fuel : Nat) (data rest : Bytes) (hb : data.length < 2 ^ 63) (dst : Dst) (o : Option Val) (e : Err)
    (h : unmarshal W fuel data dst = (o, .err e)) (he : ¬ RanOut data e) : unmarshal W fuel (data ++ rest) dst = (o, .err e) :=
  unmarshal_ext hb h (by simp) (by simp) fun e' h' => by cases h'; exact he

example : unmarshal Demo.W 9 (b! "a:2:{i:0;i:5;i:1;x") (.ptr (.array 2 (.int .i64)) (.arr [.int 0, .int 0])) =
    (some (.arr [.int 5, .int 0]), .err (.unexpected "'i' to start an integer" 17 120)) := rfl
example : ¬ RanOut (b! "a:2:{i:0;i:5;i:1;x") (.unexpected "'i' to start an integer" 17 120) := id

/-- C55: so does a panic. -/
theorem C55_panic_final (W : World) (fuel : Nat) (data rest : Bytes) (hb : data.length < 2 ^ 63) (dst : Dst) (o : Option Val)
    (p : Panic) (h : unmarshal W fuel data dst = (o, .panic p)) : unmarshal W fuel (data ++ rest) dst = (o, .panic p) :=
  unmarshal_ext hb h (by simp) (by simp) (by simp)

example : unmarshal Demo.W 3 (b! "a:9223372036854775807:{") (.ptr (.slice (.int .i64)) .sliceNil) = (some .sliceNil, .panic .makeSlice) := rfl

/-- C55: if an input is accepted, then every input cut off from it is refused with an error that says that the input
ended, for the same destination. -/
theorem C55_truncated (W : World) (D : Ty → Prop) (hW : WorldOk W D) (hD : ∀ t, Documented t → D t) (hU : UserReturns W)
    (t : Ty) (fuel : Nat) (data cut : Bytes) (hb : data.length < 2 ^ 63) (old : Val) (hold : HasTy W D t old) (o : Option Val)
    (h : unmarshal W fuel data (.ptr t old) = (o, .ok ())) (hcut : cut <+: data) (hne : cut ≠ data) :
    ∃ o' e, unmarshal W fuel cut (.ptr t old) = (o', .err e) ∧ RanOut cut e := by
  have h13 := C13_truncation W t fuel data cut hb old o h hcut hne t fuel old
  obtain ⟨rest, rfl⟩ := hcut
  have hb1 : cut.length < 2 ^ 63 := by simp only [List.length_append] at hb; omega
  obtain ⟨v, r, h1, -, h2⟩ := unmarshal_good (fuel := fuel) hW hD (hazards_cause hU t cut) hb1 (.inl .refl) hold
  have hc := ((unmarshal_ok_iff hb).1 h).1
  refine ⟨some v, ?_⟩
  have key := fun hdv he => unmarshal_ext (rest := rest) hb1 h1 (fun h' => h13 (some v) (by rw [h1, h'])) hdv he
  rw [h] at key
  cases r with
  | ok u => exact absurd h1 (h13 _)
  | err e =>
    refine ⟨e, h1, Classical.byContradiction fun hn => ?_⟩
    exact absurd (key (by simp) fun e' h' => by cases h'; exact hn) (by simp)
  | panic p => exact absurd (key (by simp) (by simp)) (by simp)
  | diverge =>
    rcases h2 with h2 | ⟨-, h2⟩
    · exact h2.elim
    · rw [hc] at h2; cases h2

example : (unmarshal Demo.W 9 (b! "a:1:{i:0;s:1:\"x\";}") (.ptr (.slice .str) .sliceNil)).2 = .ok () ∧
    unmarshal Demo.W 9 (b! "a:1:{i:") (.ptr (.slice .str) .sliceNil) = (some .sliceNil, .err (.unexpectedEnd "integer" 5)) ∧
    unmarshal Demo.W 9 (b! "a:") (.ptr (.slice .str) .sliceNil) = (some .sliceNil, .err (.unexpectedEnd "array length" 2)) ∧
    unmarshal Demo.W 9 (b! "a:1:{i:0;s:") (.ptr (.slice .str) .sliceNil) =
      (some .sliceNil, .err (.syntaxErr "length requires at least one digit" 11)) ∧
    unmarshal Demo.W 9 (b! "i:-") (.ptr (.int .i64) (.int 0)) = (some (.int 0), .err (.syntaxErr "integer requires at least one digit" 3)) :=
  ⟨rfl, rfl, rfl, rfl, rfl⟩

/-- Beyond C55: an error that says that the input ended does not mean that it was cut off. Bools and slices say so of a
first byte that starts no value of theirs (bool.go:40, slice.go:146), whatever follows. -/
theorem C55_end_misreported (rest : Bytes) :
    unmarshal Demo.W 1 (120 :: rest) (.ptr .bool (.bool false)) = (some (.bool false), .err (.unexpectedEnd "bool" 0)) ∧
    unmarshal Demo.W 9 (120 :: rest) (.ptr (.slice .str) .sliceNil) = (some .sliceNil, .err (.unexpectedEnd "slice" 0)) := by
  constructor <;> rfl

end Verif

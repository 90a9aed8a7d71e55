import Verif.Props.DemoFacts
import Verif.Proofs.Nesting
/-
Safety of `Unmarshal` on every input: C10 (panics), C11 (termination), C46 (validity of the destination), C48
(destinations of fixed shape).
-/
namespace Verif
open Spec Demo

/-- C10, complete list of the panics: whatever the input and the destination type, if `Unmarshal` with a non-nil
pointer panics then one of the circumstances of `PanicCause` is present. Method calls of the user are assumed to
return. -/
theorem C10_panics_listed (W : World) (D : Ty → Prop) (hW : WorldOk W D) (hD : ∀ t, Documented t → D t) (hU : UserReturns W)
    (t : Ty) (data : Bytes) (hb : data.length < 2 ^ 63) (fuel : Nat) (old : Val) (hold : HasTy W D t old) (p : Panic)
    (h : (unmarshal W fuel data (.ptr t old)).2 = .panic p) : PanicCause W t data p := by
  obtain ⟨v, r, h1, -, h2⟩ := unmarshal_good (fuel := fuel) hW hD (hazards_cause hU t data) hb (.inl .refl) hold
  rw [h1] at h
  simp only at h
  subst h
  rcases h2 with h2 | ⟨h2, -⟩
  · exact h2
  · cases h2

/-- C10, partial: no panic if no map of the destination type is keyed by `any`, a pointer or an Unmarshaler type, and no
number in the input is too large for a slice of the type. Missing: those types and inputs, for which the property is
false (see the counterexamples below). -/
theorem C10_no_panic_partial (W : World) (D : Ty → Prop) (hW : WorldOk W D) (hD : ∀ t, Documented t → D t) (hU : UserReturns W)
    (t : Ty) (hk : SafeKeys W t) (data : Bytes) (hb : data.length < 2 ^ 63)
    (hs : ∀ t' e, Reach W t t' → Plain W t' (.slice e) → ¬ Oversized (esize W e) data)
    (fuel : Nat) (old : Val) (hold : HasTy W D t old) (p : Panic) : (unmarshal W fuel data (.ptr t old)).2 ≠ .panic p := by
  intro h
  cases C10_panics_listed W D hW hD hU t data hb fuel old hold p h with
  | slice h1 h2 h3 => exact hs _ _ h1 h2 h3
  | key h1 h2 h3 =>
    obtain ⟨k1, k2, k3⟩ := hk _ _ _ h1 h2
    rcases h3 with h3 | ⟨p, h3⟩ | h3
    · exact k1 h3
    · exact k2 p h3
    · exact h3 k3
  | ptrKey h1 h2 h3 => exact (hk _ _ _ h1 h2).2.1 _ h3

theorem demo_reach_any {t : Ty} (h : Reach Demo.W .any t) : t = .any := by
  induction h with
  | refl => rfl
  | step _ hc ih =>
    subst ih
    cases hc with
    | field h => exact absurd h.2 (by simp [World.resolve])
    | _ h => exact absurd h.2 (by simp [World.resolve])

/-- The hypotheses of `C10_no_panic_partial` hold for a destination of type `any` and every input. -/
example : SafeKeys Demo.W .any ∧ ∀ data t' e, Reach Demo.W .any t' → Plain Demo.W t' (.slice e) → ¬ Oversized (esize Demo.W e) data := by
  refine ⟨fun t' k v h hp => ?_, fun data t' e h hp => ?_⟩ <;> cases demo_reach_any h <;> exact absurd hp.2 (by simp [World.resolve])
example : HasTy Demo.W Documented .any .ifaceNil ∧ ∃ e, unmarshal Demo.W 9 (b! "a:9223372036854775807:{i:1;") (.ptr .any .ifaceNil) = (some .ifaceNil, .err e) :=
  ⟨.anyNil rfl, _, rfl⟩

/-- C10 is false: a declared length that is too large makes `reflect.MakeSlice` panic. -/
theorem C10_length_counterexample :
    unmarshal Demo.W 3 (b! "a:9223372036854775807:{") (.ptr (.slice (.int .i64)) .sliceNil) = (some .sliceNil, .panic .makeSlice) := rfl

/-- C10 is false: index MaxInt64 makes `reflect.MakeSlice` panic, since one more wraps around. -/
theorem C10_index_counterexample :
    unmarshal Demo.W 3 (b! "a:1:{i:9223372036854775807;i:1;}") (.ptr (.slice (.int .i64)) .sliceNil) =
      (some .sliceNil, .panic .makeSlice) := rfl

/-- C10 is false: an array as key of a `map[any]T` panics because maps cannot be hashed. -/
theorem C10_anyKey_counterexample :
    unmarshal Demo.W 3 (b! "a:1:{a:0:{}i:1;}") (.ptr (.map .any (.int .i64)) .mapNil) = (some (.map []), .panic .unhashable) := rfl

/-- C10 is false: every non-null key of a `map[*int64]T` panics. -/
theorem C10_ptrKey_counterexample :
    unmarshal Demo.W 3 (b! "a:1:{i:1;i:1;}") (.ptr (.map (.ptr (.int .i64)) (.int .i64)) .mapNil) =
      (some (.map []), .panic .reflectKind) := rfl

/-- Beyond C10: a nil interface as destination panics instead of giving an InvalidUnmarshalError. -/
theorem C10_nil_destination_witness (W : World) (fuel : Nat) (data : Bytes) (h : data ≠ []) :
    unmarshal W fuel data .nilIface = (none, .panic .zeroValue) := by
  unfold unmarshal
  rw [if_neg (by cases data <;> simp_all)]

/-- C11, partial: `Unmarshal` ends (given enough nesting for type preparation, the amount of which depends on the type
only). The nesting of decoder calls is bounded by the input length: that is the fuel `unmarshalInto` passes on. Missing:
types whose recursion does not pass through a struct, for which preparation never ends (`C34_decoder_counterexample`). -/
theorem C11_terminates_partial (W : World) (D : Ty → Prop) (hW : WorldOk W D) (hD : ∀ t, Documented t → D t) (hU : UserReturns W)
    (t : Ty) (hg : StructGuarded W t) :
    ∃ fuel0, ∀ fuel, fuel0 ≤ fuel → ∀ (data : Bytes), data.length < 2 ^ 63 → ∀ old, HasTy W D t old →
      (unmarshal W fuel data (.ptr t old)).2 ≠ .diverge := by
  obtain ⟨f0, h0⟩ := ends_of_guarded hg
  refine ⟨f0, fun fuel hf data hb old hold h => ?_⟩
  obtain ⟨v, r, h1, -, h2⟩ := unmarshal_good (fuel := fuel) hW hD (hazards_cause hU t data) hb (.inl .refl) hold
  rw [h1] at h
  simp only at h
  subst h
  rcases h2 with h2 | ⟨-, h2⟩
  · exact h2
  · rw [compileD_mono h0 hf] at h2
    exact h0 h2

/-- C11, nesting: the calls of decoders within decoders end at the smaller of the input length and 10001, and those of `skipValue` within
`skipValue` at the smaller of the bytes left (plus one) and the levels left. (Pointer decoders add one call per level.) -/
theorem C11_nesting (W : World) (D : Ty → Prop) (hW : WorldOk W D) (hD : ∀ t, Documented t → D t) (hU : UserReturns W)
    (t : Ty) (data : Bytes) (hb : data.length < 2 ^ 63) (hne : data ≠ []) (old : Val) (hold : HasTy W D t old) :
    (∀ f, min data.length 10001 ≤ f → (decodeF W data f t 0 0 old).2 ≠ .diverge) ∧
    (∀ f c d, d ≤ 10000 → 1 ≤ f → min (data.length + 1 - c) (10001 - d) ≤ f → (skipValueF f data c d).Returns) := by
  refine ⟨fun f hf h => ?_, fun f c d hd h1 hf => skipValueF_nesting hb hd hf h1⟩
  have hg := decodeF_nesting hW hD (hazards_cause hU t data) hb hne (f := f) hf (.inl .refl) hold
  have h2 := hg.2
  rw [h] at h2
  exact h2

/-- One call is not enough for a slice of an integer, two are. -/
example : (b! "a:1:{i:0;i:1;}" : Bytes) ≠ [] ∧ HasTy Demo.W Documented (.slice (.int .i64)) .sliceNil ∧
    decodeF Demo.W (b! "a:1:{i:0;i:1;}") 1 (.slice (.int .i64)) 0 0 .sliceNil = (.sliceNil, .diverge) ∧
    decodeF Demo.W (b! "a:1:{i:0;i:1;}") 2 (.slice (.int .i64)) 0 0 .sliceNil = (.slice [.int 1], .ok 14) :=
  ⟨by decide, .sliceNil (e := .int .i64) rfl, rfl, rfl⟩

/-- The types that the list type consists of. -/
theorem demo_list_types (t : Ty) (h : Reach Demo.W (.struct 1) t) : t = .struct 1 ∨ t = .ptr (.struct 1) ∨ t = .int .int := by
  induction h with
  | refl => exact .inl rfl
  | step _ hc ih =>
    rcases ih with rfl | rfl | rfl
    · cases hc with
      | field hp hf =>
        cases hp.2
        simp [Demo.W, Demo.fields] at hf
        rcases hf with rfl | rfl
        · exact .inr (.inl rfl)
        · exact .inr (.inr rfl)
      | _ h => exact absurd h.2 (by simp [World.resolve])
    · cases hc with
      | ptr hp => cases hp.2; exact .inl rfl
      | field hp => exact absurd hp.2 (by simp [World.resolve])
      | _ h => exact absurd h.2 (by simp [World.resolve])
    · cases hc with
      | field hp => exact absurd hp.2 (by simp [World.resolve])
      | _ h => exact absurd h.2 (by simp [World.resolve])

/-- The recursive list type `struct { Next *S; N int }` meets the hypothesis. -/
theorem demo_list_guarded : StructGuarded Demo.W (.struct 1) := by
  refine ⟨[.struct 1], fun t => match t with | .ptr _ => 1 | _ => 0, ?_, ?_⟩
  · intro t' id h hp
    rcases demo_list_types t' h with rfl | rfl | rfl
    · simp
    · exact absurd hp.2 (by simp [World.resolve])
    · exact absurd hp.2 (by simp [World.resolve])
  · intro t' t'' h hc hn
    rcases demo_list_types t' h with rfl | rfl | rfl
    · exact absurd ⟨1, rfl, rfl⟩ hn
    · cases hc with
      | ptr hp => cases hp.2; simp
      | field hp => exact absurd hp.2 (by simp [World.resolve])
      | _ h => exact absurd h.2 (by simp [World.resolve])
    · cases hc with
      | field hp => exact absurd hp.2 (by simp [World.resolve])
      | _ h => exact absurd h.2 (by simp [World.resolve])

/-- C46: after `Unmarshal`, successful or not, the variable holds a valid value of its type, and interfaces without
methods hold documented dynamic types only (or what else they were allowed to hold before). -/
theorem C46_valid_destination (W : World) (D : Ty → Prop) (hW : WorldOk W D) (hD : ∀ t, Documented t → D t) (hU : UserReturns W)
    (t : Ty) (data : Bytes) (hb : data.length < 2 ^ 63) (fuel : Nat) (old v : Val) (hold : HasTy W D t old) (r : Res Unit)
    (h : unmarshal W fuel data (.ptr t old) = (some v, r)) : HasTy W D t v := by
  obtain ⟨v', r', h1, h2, -⟩ := unmarshal_good (fuel := fuel) hW hD (hazards_cause hU t data) hb (.inl .refl) hold
  rw [h1] at h
  cases h
  exact h2

/-- A failing run that changed the destination: the result is still a struct of two valid fields. -/
example : WorldOk Demo.W Documented ∧ UserReturns Demo.W ∧ HasTy Demo.W Documented (.struct 2) (Demo.structZero 2) ∧
    ∃ e, unmarshal Demo.W 9 (b! "a:2:{s:1:\"y\";b:1;s:1:\"x\";a:1:{i:1;i:5;") (.ptr (.struct 2) (Demo.structZero 2)) =
      (some (.struct [.arr [.int 0, .int 5], .bool true]), .err e) :=
  ⟨demo_ok _, demo_user, (demo_ok _).structZero 2, _, rfl⟩

/-- C48: with a destination of fixed shape no input makes `Unmarshal` panic, and if the type can be prepared no input
makes it run forever, whatever lengths, counts and indices the input declares. -/
theorem C48_fixed_shape_safe (W : World) (D : Ty → Prop) (hW : WorldOk W D) (hD : ∀ t, Documented t → D t) (hU : UserReturns W)
    (t : Ty) (ht : FixedShape W t) (data : Bytes) (hb : data.length < 2 ^ 63) (fuel : Nat) (hc : compileD W fuel [] t ≠ .diverge)
    (old : Val) (hold : HasTy W D t old) : (unmarshal W fuel data (.ptr t old)).2.Returns := by
  obtain ⟨v, r, h1, -, h2⟩ := unmarshal_good (fuel := fuel) hW hD (hazards_cause hU t data) hb (.inl .refl) hold
  rw [h1]
  rcases h2 with h2 | ⟨-, h2⟩
  · cases r with
    | ok a => trivial
    | err e => trivial
    | diverge => exact absurd h2 (by simp [Safe])
    | panic p =>
      exfalso
      cases h2 with
      | slice h3 h4 h5 => exact (ht _ h3).2.1 _ h4.2
      | key h3 h4 h5 => exact (ht _ h3).2.2.1 _ _ h4.2
      | ptrKey h3 h4 h5 => exact (ht _ h3).2.2.1 _ _ h4.2
  · exact absurd h2 hc

theorem demo_fixed : FixedShape Demo.W (.struct 2) := by
  have key : ∀ t, Reach Demo.W (.struct 2) t → t = .struct 2 ∨ t = .array 2 (.int .int) ∨ t = .int .int ∨ t = .bool := by
    intro t h
    induction h with
    | refl => exact .inl rfl
    | step _ hc ih =>
      rcases ih with rfl | rfl | rfl | rfl
      · cases hc with
        | field hp hf =>
          cases hp.2
          simp [Demo.W, Demo.fields] at hf
          rcases hf with rfl | rfl
          · exact .inr (.inl rfl)
          · exact .inr (.inr (.inr rfl))
        | _ h => exact absurd h.2 (by simp [World.resolve])
      · cases hc with
        | array hp => cases hp.2; exact .inr (.inr (.inl rfl))
        | field hp => exact absurd hp.2 (by simp [World.resolve])
        | _ h => exact absurd h.2 (by simp [World.resolve])
      all_goals
        cases hc with
        | field hp => exact absurd hp.2 (by simp [World.resolve])
        | _ h => exact absurd h.2 (by simp [World.resolve])
  intro t' h
  rcases key t' h with rfl | rfl | rfl | rfl <;> simp [World.resolve, World.unmOf]

example : FixedShape Demo.W (.struct 2) ∧ compileD Demo.W 9 [] (.struct 2) ≠ .diverge ∧
    HasTy Demo.W Documented (.struct 2) (Demo.structZero 2) ∧
    unmarshal Demo.W 9 (b! "a:1:{s:1:\"x\";a:9223372036854775807:{i:9223372036854775807;i:1;}}") (.ptr (.struct 2) (Demo.structZero 2)) =
      (some (Demo.structZero 2), .ok ()) :=
  ⟨demo_fixed, by simp [show compileD Demo.W 9 [] (.struct 2) = .ok () from rfl], (demo_ok _).structZero 2, rfl⟩

/-- C51, except for nil: a nil pointer and a value that is not a pointer are rejected with an InvalidUnmarshalError, whatever the
non-empty input; empty input is rejected whatever the destination, which stays as it was. Missing: a nil interface as destination,
for which the property is false (`C51_nil_counterexample`). -/
theorem C51_destination_partial (W : World) (fuel : Nat) (data : Bytes) (dst : Dst) :
    (data ≠ [] → dst = .nilPtr ∨ dst = .nonPtr → unmarshal W fuel data dst = (none, .err .invalidUnmarshal)) ∧
    (data = [] → (unmarshal W fuel data dst).2 = .err .emptyInput ∧ ∀ t v, dst = .ptr t v → (unmarshal W fuel data dst).1 = some v) := by
  constructor
  · rintro h (rfl | rfl) <;> cases data <;> first | exact absurd rfl h | rfl
  · rintro rfl
    exact ⟨rfl, fun t v hd => by subst hd; rfl⟩

example : (b! "i:1;" : Bytes) ≠ [] ∧ unmarshal Demo.W 9 [] (.ptr .str (.str (b! "x"))) = (some (.str (b! "x")), .err .emptyInput) := ⟨by decide, rfl⟩

/-- C51 is false for a nil interface: the call panics. -/
theorem C51_nil_counterexample (W : World) (fuel : Nat) (data : Bytes) (h : data ≠ []) :
    ∃ p, unmarshal W fuel data .nilIface = (none, .panic p) := by
  cases data with
  | nil => exact absurd rfl h
  | cons => exact ⟨_, rfl⟩

end Verif

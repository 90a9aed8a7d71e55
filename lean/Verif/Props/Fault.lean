import Verif.Proofs.Fault
import Verif.Props.EncCompile
import Verif.Props.ErrText
/-
C87: which types are refused, and what the error says of them. The property in full: `Marshal` and `Unmarshal` refuse a type exactly if a type that they look
into has one of the faults listed in Spec/Fault.lean, and the text of the error shows a type that is at fault. It is false of `Unmarshal` for embedded structs,
whose error shows no type; all else is proved. Types whose preparation never ends are the subject of C34.
-/
namespace Verif
open Spec Demo

/-- C87: a type that `Marshal` accepts has no fault, and one that it refuses has one. -/
theorem C87_marshal_faults (W : World) (t : Ty) :
    (Supported W t → ∀ u x, EncOpens W t u → ¬ EncFault W u x) ∧
    ∀ fuel e, compileE W fuel [] t = .err e → ∃ u x, EncOpens W t u ∧ EncFault W u x ∧ x.plain W = e := by
  refine ⟨fun ⟨cf, s, h⟩ u x hu => compileE_faultless h hu x, fun fuel e h => ?_⟩
  rw [← prepE_plain] at h
  cases hp : prepE W fuel [] t with
  | ok s => rw [hp] at h; cases h
  | diverge => rw [hp] at h; cases h
  | err x =>
    rw [hp] at h
    cases h
    obtain ⟨u, h1, h2⟩ := prepE_blames opens_openSet .self hp
    exact ⟨u, x, h1, h2, rfl⟩

/-- C87: `Marshal` refuses exactly the types with faults, among those whose preparation ends. -/
theorem C87_marshal_exact (W : World) (t : Ty) (hg : ArrayGuarded W t) :
    (Supported W t ↔ ∀ u x, EncOpens W t u → ¬ EncFault W u x) ∧
    ((∃ fuel e, compileE W fuel [] t = .err e) ↔ ∃ u x, EncOpens W t u ∧ EncFault W u x) := by
  obtain ⟨h1, h2⟩ := C87_marshal_faults W t
  obtain ⟨f0, h0⟩ := C34_encoder_ends_partial W t hg
  refine ⟨⟨h1, fun h => ?_⟩, ⟨fun ⟨fuel, e, h⟩ => ?_, fun ⟨u, x, hu, hx⟩ => ?_⟩⟩
  · rcases h0 f0 (Nat.le_refl _) with ⟨s, hs⟩ | ⟨e, he⟩
    · exact ⟨f0, s, hs⟩
    · obtain ⟨u, x, hu, hx, -⟩ := h2 f0 e he
      exact absurd hx (h u x hu)
  · obtain ⟨u, x, hu, hx, -⟩ := h2 fuel e h
    exact ⟨u, x, hu, hx⟩
  · rcases h0 f0 (Nat.le_refl _) with ⟨s, hs⟩ | ⟨e, he⟩
    · exact absurd hx (h1 ⟨f0, s, hs⟩ u x hu)
    · exact ⟨f0, e, he⟩

/-- C87: the error for a refused type is about a fault of a type that is looked into and shows the type at fault; `Marshal` returns it for every value. -/
theorem C87_marshal_names (W : World) (F : Fmt) (t : Ty) (fuel : Nat) (x : TypeErr) (h : prepE W fuel [] t = .err x) :
    (∃ u, EncOpens W t u ∧ EncFault W u x) ∧ (∃ s, shownType x = some s ∧ F.typ (some s) <:+: x.text F) ∧
    ∀ hp v, MarshalGives W hp (some (t, v)) (.err (x.plain W)) := by
  obtain ⟨u, h1, h2⟩ := prepE_blames opens_openSet .self h
  have hc : compileE W fuel [] t = .err (x.plain W) := by rw [← prepE_plain, h]; rfl
  refine ⟨⟨u, h1, h2⟩, ?_, fun hp v => ⟨by simp, fuel, fun cf f hcf _ => ?_⟩⟩
  · cases h2 with
    | kind => exact ⟨_, rfl, lit "failed to build encoder, unsupported type ", _, by simp only [TypeErr.text, List.append_assoc]; rfl⟩
    | key => exact ⟨_, rfl, lit "php serialize: unsupported type as key of map: ", [], by simp only [TypeErr.text, List.append_nil]⟩
    | ptr => exact ⟨_, rfl, lit "encoding nested ptr is not supported *", [], by simp only [TypeErr.text, List.append_nil]⟩
    | fieldPtr => exact ⟨_, rfl, lit "encoding nested ptr is not supported ", [], by simp only [TypeErr.text, List.append_nil]⟩
    | embedded => exact ⟨_, rfl, lit "supported for Anonymous struct field has been removed: ", [], by simp only [TypeErr.text, List.append_nil]⟩
    | string =>
      exact ⟨_, rfl, lit "failed to build encoder for struct field (as string), unsupported type ", _, by simp only [TypeErr.text, List.append_assoc]; rfl⟩
    | stringPtr =>
      exact ⟨_, rfl, lit "failed to build encoder for struct field (as string), unsupported type ", _, by simp only [TypeErr.text, List.append_assoc]; rfl⟩
  · have : compileE W cf [] t = .err (x.plain W) := by rw [compileE_mono (by rw [hc]; simp) hcf, hc]
    simp only [marshal, this]
    rfl

/-- C87: a type that `Unmarshal` accepts has no fault, and one that it refuses has one. -/
theorem C87_unmarshal_faults (W : World) (t : Ty) (fuel : Nat) :
    (compileD W fuel [] t = .ok () → ∀ u x, Uses W t u → ¬ DecFault W u x) ∧
    ∀ e, compileD W fuel [] t = .err e → ∃ u x, Uses W t u ∧ DecFault W u x ∧ x.plain W = e := by
  refine ⟨fun h u x hu => prepared_faultless (compileD_uses h hu) x, fun e h => ?_⟩
  rw [← prepD_plain] at h
  cases hp : prepD W fuel [] t with
  | ok s => rw [hp] at h; cases h
  | diverge => rw [hp] at h; cases h
  | err x =>
    rw [hp] at h
    cases h
    obtain ⟨u, h1, h2⟩ := prepD_blames (G := Uses W t) (fun h1 h2 => .step h1 h2) .refl hp
    exact ⟨u, x, h1, h2, rfl⟩

/-- C87: `Unmarshal` refuses exactly the types with faults, among those whose preparation ends. -/
theorem C87_unmarshal_exact (W : World) (t : Ty) (hg : StructGuarded W t) :
    ((∃ fuel, compileD W fuel [] t = .ok ()) ↔ ∀ u x, Uses W t u → ¬ DecFault W u x) ∧
    ((∃ fuel e, compileD W fuel [] t = .err e) ↔ ∃ u x, Uses W t u ∧ DecFault W u x) := by
  obtain ⟨f0, h0⟩ := C34_decoder_ends_partial W t hg
  refine ⟨⟨fun ⟨fuel, h⟩ => (C87_unmarshal_faults W t fuel).1 h, fun h => ?_⟩, ⟨fun ⟨fuel, e, h⟩ => ?_, fun ⟨u, x, hu, hx⟩ => ?_⟩⟩
  · rcases h0 f0 (Nat.le_refl _) with hs | ⟨e, he⟩
    · exact ⟨f0, hs⟩
    · obtain ⟨u, x, hu, hx, -⟩ := (C87_unmarshal_faults W t f0).2 e he
      exact absurd hx (h u x hu)
  · obtain ⟨u, x, hu, hx, -⟩ := (C87_unmarshal_faults W t fuel).2 e h
    exact ⟨u, x, hu, hx⟩
  · rcases h0 f0 (Nat.le_refl _) with hs | ⟨e, he⟩
    · exact absurd hx ((C87_unmarshal_faults W t f0).1 hs u x hu)
    · exact ⟨f0, e, he⟩

/-- C87, in part: the error for a refused type is about a fault of a type that is looked into, and shows the type at fault; `Unmarshal` returns it for
every input but the empty one and leaves the variable alone. Missing for the full property: the error for embedded structs shows no type
(`C87_embedded_counterexample`). -/
theorem C87_unmarshal_names_partial (W : World) (F : Fmt) (t : Ty) (fuel : Nat) (x : TypeErr) (h : prepD W fuel [] t = .err x) :
    (∃ u, Uses W t u ∧ DecFault W u x) ∧ (x = .decAnon ∨ ∃ s, shownType x = some s ∧ F.typ (some s) <:+: x.text F) ∧
    ∀ data v, data ≠ [] → ∀ fuel', fuel ≤ fuel' → unmarshal W fuel' data (.ptr t v) = (some v, .err (x.plain W)) := by
  obtain ⟨u, h1, h2⟩ := prepD_blames (G := Uses W t) (fun h1 h2 => .step h1 h2) .refl h
  have hc : compileD W fuel [] t = .err (x.plain W) := by rw [← prepD_plain, h]; rfl
  refine ⟨⟨u, h1, h2⟩, ?_, fun data v hd fuel' hf => ?_⟩
  · cases h2 with
    | ptr => exact .inr ⟨_, rfl, lit "php-serialize: unsupported type: *", [], by simp only [TypeErr.text, List.append_nil]⟩
    | embedded => exact .inl rfl
    | string => exact .inr ⟨_, rfl, lit "php-serialize: unsupported type: ", [], by simp only [TypeErr.text, List.append_nil]⟩
    | stringPtr => exact .inr ⟨_, rfl, lit "php-serialize: unsupported type: ", [], by simp only [TypeErr.text, List.append_nil]⟩
    | keys => exact .inr ⟨_, rfl, lit "found duplicate keys for struct ", _, by simp only [TypeErr.text, List.append_assoc]; rfl⟩
  · have : compileD W fuel' [] t = .err (x.plain W) := by rw [compileD_mono (by rw [hc]; simp) hf, hc]
    have hl : data.length ≠ 0 := by simpa using hd
    simp only [unmarshal, if_neg hl, unmarshalInto, this]
    rfl

namespace Demo

/-- Types with faults: 0 has a map of slices of 1, which points back to 0 and has a channel; 2 embeds 1; 3 has two fields with the key `a`; 4 has a pointer
to a pointer; 5 has the option `string` on a pointer to a string; 6 points to 3. -/
def WG : World := { W with fields := fun
    | 0 => [⟨b! "M", b! "m", true, false, .map .str (.slice (.struct 1))⟩]
    | 1 => [⟨b! "P", b! "p", true, false, .ptr (.struct 0)⟩, ⟨b! "C", b! "c", true, false, .other⟩]
    | 2 => [⟨b! "S", b! "s", true, true, .struct 1⟩]
    | 3 => [⟨b! "A", b! "a", true, false, .bool⟩, ⟨b! "B", b! "b", true, false, .bool⟩, ⟨b! "C", b! "a", true, false, .str⟩]
    | 4 => [⟨b! "P", b! "p", true, false, .slice (.ptr (.ptr .str))⟩, ⟨b! "Q", b! "q", true, false, .ptr (.ptr .str)⟩]
    | 5 => [⟨b! "S", b! "s,string", true, false, .ptr .str⟩, ⟨b! "T", b! "t,string", true, false, .slice .str⟩]
    | 6 => [⟨b! "N", b! "n", true, false, .slice (.ptr (.struct 3))⟩]
    | _ => [] }

end Demo

/-- The error for type 0, from three types further inside; `Unmarshal` accepts it (and refuses values for the channel). -/
example : prepE Demo.WG 9 [] (.struct 0) = .err (.encType .other) ∧ prepD Demo.WG 9 [] (.struct 0) = .ok () ∧
    EncOpens Demo.WG (.struct 0) .other ∧ EncFault Demo.WG .other (.encType .other) := by
  have h0 : EncOpens Demo.WG (.struct 0) (.struct 0) := .self ⟨rfl, by simp⟩
  have h1 : EncOpens Demo.WG (.struct 0) (.map .str (.slice (.struct 1))) :=
    .field (f := ⟨b! "M", b! "m", true, false, .map .str (.slice (.struct 1))⟩) h0 rfl (by simp [Demo.WG]) ⟨rfl, by rw [hasKey_iff]; decide⟩
      (by rw [hasString_iff]; decide) (by simp [World.resolve]) ⟨rfl, by simp⟩
  have h2 : EncOpens Demo.WG (.struct 0) (.struct 1) := .slice (.mapVal h1 rfl ⟨rfl, by simp⟩) rfl ⟨rfl, by simp⟩
  exact ⟨rfl, rfl, .field (f := ⟨b! "C", b! "c", true, false, .other⟩) h2 rfl (by simp [Demo.WG]) ⟨rfl, by rw [hasKey_iff]; decide⟩
    (by rw [hasString_iff]; decide) (by simp [World.resolve]) ⟨rfl, by simp⟩, .kind (.inr (.inl rfl))⟩

/-- The other errors. Of the pointers to pointers, `Marshal` shows the element with a star before it, or the type of the field, if there is no slice
in between. -/
example : prepE Demo.WG 9 [] (.map (.struct 2) .str) = .err (.encKey (.struct 2)) ∧ prepE Demo.WG 9 [] (.struct 2) = .err (.encAnon (.struct 1)) ∧
    prepE Demo.WG 9 [] (.struct 3) = .ok [.struct 3] ∧ prepE Demo.WG 9 [] (.struct 4) = .err (.encPtr (.ptr .str)) ∧
    prepE Demo.WG 9 [] (.struct 5) = .err (.encString (.slice .str)) ∧
    prepD Demo.WG 9 [] (.struct 6) = .err (.decKeys (.struct 3) (b! "a")) ∧ prepD Demo.WG 9 [] (.struct 4) = .err (.decPtr (.ptr .str)) ∧
    prepD Demo.WG 9 [] (.struct 5) = .err (.decString .str) ∧
    TypeErr.text Demo.fmt (.decKeys (.struct 3) (b! "a")) = b! "found duplicate keys for struct T: a" ∧
    TypeErr.text Demo.fmt (.encPtr (.ptr .str)) = b! "encoding nested ptr is not supported *T" := by
  refine ⟨by rfl, by rfl, by rfl, by rfl, by rfl, by rfl, by rfl, by rfl, by decide +kernel, by decide +kernel⟩

/-- The hypotheses of the exactness theorems hold for a linked list, and for an array type with a fault. -/
example : ArrayGuarded Demo.W (.struct 1) ∧ StructGuarded Demo.W (.struct 1) ∧ ArrayGuarded Demo.WG (.array 2 (.uint .uptr)) ∧
    EncOpens Demo.WG (.array 2 (.uint .uptr)) (.uint .uptr) ∧ EncFault Demo.WG (.uint .uptr) (.encType (.uint .uptr)) := by
  have key : ∀ t, EncReach Demo.WG (.array 2 (.uint .uptr)) t → t = .array 2 (.uint .uptr) ∨ t = .uint .uptr := by
    intro t h
    induction h with
    | refl => exact .inl rfl
    | step _ hc ih =>
      rcases ih with rfl | rfl
      · cases hc with
        | array h => cases h; exact .inr rfl
        | _ h => cases h
      · cases hc with
        | _ h => cases h
  refine ⟨⟨[.struct 1], fun _ => 0, fun t h hc => ?_, fun _ _ _ _ => Nat.le_refl _, fun t n e h hr => ?_⟩, demo_list_guarded,
    ⟨[], fun t => match t with | .array _ _ => 1 | _ => 0, fun t h hc => ?_, fun t t' h hc => ?_, fun t n e h hr => ?_⟩,
    .array (.self ⟨rfl, by simp⟩) rfl ⟨rfl, by simp⟩, .kind (.inl rfl)⟩
  · rcases demo_list_reach t h with rfl | rfl | rfl
    · simp
    · simp [Collected, World.resolve] at hc
    · simp [Collected, World.resolve] at hc
  · rcases demo_list_reach t h with rfl | rfl | rfl <;> cases hr
  · rcases key t h with rfl | rfl <;> simp [Collected, World.resolve] at hc
  · rcases key t h with rfl | rfl
    · cases hc with
      | array h => cases h; exact Nat.zero_le _
      | _ h => cases h
    · cases hc with
      | _ h => cases h
  · rcases key t h with rfl | rfl
    · cases hr; exact Nat.zero_lt_one
    · cases hr

/-- C87 is false of `Unmarshal`: the text of the error for an embedded struct is always the same and shows neither that struct nor the one it is in
(decoder/compile.go:279). -/
theorem C87_embedded_counterexample :
    prepD Demo.WG 9 [] (.struct 2) = .err .decAnon ∧ (∀ F F', TypeErr.text F .decAnon = TypeErr.text F' .decAnon) ∧
    ∀ u, ¬ Demo.fmt.typ (some u) <:+: TypeErr.text Demo.fmt .decAnon := by
  refine ⟨rfl, fun _ _ => rfl, fun u h => ?_⟩
  have : (84 : Byte) ∈ TypeErr.text Demo.fmt .decAnon := h.subset (show (84 : Byte) ∈ b! "T" by decide)
  exact absurd this (by decide +kernel)

end Verif

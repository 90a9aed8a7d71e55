import Verif.Proofs.DecFacts
/-
What `Unmarshal` does with scalar destinations, including failing runs.
-/
set_option linter.unusedSimpArgs false
namespace Verif
open Spec

/-- Scalars, strings, and byte slices fed something that does not begin with `a`. -/
def ScalarLike (W : World) (t : Ty) (data : Bytes) : Prop :=
  IsScalar W t ∨ Plain W t .str ∨ ∃ e, Plain W t (.slice e) ∧ W.isByte e = true ∧ data.head? ≠ some 97

theorem onOk_returns {α β : Type} {v : Val} {r : Res α} {k : α → Val × Res β} (hr : r.Returns) (hk : ∀ x, r = .ok x → (k x).2.Returns) :
    (onOk v r k).2.Returns := by
  cases r with
  | ok a => exact hk a rfl
  | err e => trivial
  | panic p => exact absurd hr (by simp)
  | diverge => exact absurd hr (by simp)

theorem ite_returns {β : Type} {c : Prop} [Decidable c] {x y : Val × Res β} (hx : c → x.2.Returns) (hy : ¬ c → y.2.Returns) :
    (if c then x else y).2.Returns := by
  split
  · exact hx ‹_›
  · exact hy ‹_›

theorem scalar_returns {W : World} {b : Bytes} {f : Nat} {t : Ty} {depth : Nat} {rv : Val} (hb : b ≠ [])
    (ht : ScalarLike W t b) : (decodeF W b (f + 1) t 0 depth rv).2.Returns := by
  have hlen : 0 < b.length := List.length_pos_iff.2 hb
  unfold decodeF
  rcases ht with (h | ⟨k, h⟩ | ⟨k, h⟩ | h | h) | h | ⟨e, h, hbt, hx⟩ <;> simp only [h.1, h.2, decodeNonPtr]
  · unfold boolDecode
    refine ite_returns (fun _ => trivial) fun hc => onOk_returns (idx_returns hlen) fun x _ => ?_
    exact ite_returns (fun _ => onOk_returns (readBool_returns _ _) fun _ _ => trivial) fun _ =>
      ite_returns (fun _ => onOk_returns (validateNull_returns _ _) fun _ _ => trivial) fun _ => trivial
  · unfold intDecode
    refine onOk_returns (intBytes_returns _ _) ?_
    rintro ⟨ob, c'⟩ _
    cases ob with
    | none => trivial
    | some s =>
      dsimp only
      unfold processInt
      have hr := parseInt64_returns s
      cases hp : parseInt64 s with
      | ok i => exact ite_returns (fun _ => trivial) fun _ => trivial
      | err e => trivial
      | panic p => rw [hp] at hr; exact absurd hr (by simp)
      | diverge => rw [hp] at hr; exact absurd hr (by simp)
  · unfold uintDecode
    refine onOk_returns (intBytes_returns _ _) ?_
    rintro ⟨ob, c'⟩ _
    cases ob with
    | none => trivial
    | some s =>
      dsimp only
      unfold processUint
      split
      · trivial
      · exact ite_returns (fun _ => trivial) fun _ => trivial
  · unfold floatDecode
    refine onOk_returns (floatBytes_returns _ _) ?_
    rintro ⟨ob, c'⟩ _
    cases ob with
    | none => trivial
    | some s =>
      dsimp only
      unfold processFloat
      split
      · trivial
      · exact ite_returns (fun _ => ite_returns (fun _ => trivial) fun _ => trivial) fun _ => trivial
  · unfold floatDecode
    refine onOk_returns (floatBytes_returns _ _) ?_
    rintro ⟨ob, c'⟩ _
    cases ob with
    | none => trivial
    | some s =>
      dsimp only
      unfold processFloat
      split
      · trivial
      · exact ite_returns (fun _ => ite_returns (fun _ => trivial) fun _ => trivial) fun _ => trivial
  · unfold stringDecode
    refine onOk_returns (stringBytes_returns _ _) ?_
    rintro ⟨ob, c'⟩ _
    cases ob <;> trivial
  · rw [if_pos hbt]
    unfold bytesDecode
    refine onOk_returns (idx_returns hlen) fun x hx' => ?_
    rw [if_neg]
    · refine onOk_returns (stringBytes_returns _ _) ?_
      rintro ⟨ob, c'⟩ _
      cases ob <;> trivial
    · rintro rfl
      cases b with
      | nil => exact hb rfl
      | cons y ys => simp [idx] at hx'; simp [hx'] at hx

theorem scalarLike_compile {W : World} {t : Ty} {b : Bytes} (h : ScalarLike W t b) {fuel : Nat} (hf : 0 < fuel) (busy : List Ty) :
    compileD W fuel busy t = .ok () := by
  obtain ⟨f, rfl⟩ : ∃ f, fuel = f + 1 := ⟨fuel - 1, by omega⟩
  unfold compileD
  rcases h with (h | ⟨k, h⟩ | ⟨k, h⟩ | h | h) | h | ⟨e, h, hbt, -⟩ <;> simp only [h.1, h.2]
  simp [hbt]

/-- The three possible outcomes for scalar destinations. -/
theorem unmarshal_scalar {W : World} {t : Ty} {fuel : Nat} {data : Bytes} {old : Val} (hb : data.length < 2 ^ 63) (hf : 0 < fuel)
    (ht : ScalarLike W t data) :
    (∃ v d, unmarshal W fuel data (.ptr t old) = (some v, .ok ()) ∧ data = d.text ∧ DecDoc W t maxDepth d old v) ∨
    (∃ e, unmarshal W fuel data (.ptr t old) = (some old, .err e)) ∨
    (∃ e v d rest, unmarshal W fuel data (.ptr t old) = (some v, .err e) ∧ rest ≠ [] ∧ data = d.text ++ rest ∧
      DecDoc W t maxDepth d old v) := by
  by_cases hd : data = []
  · subst hd
    exact .inr (.inl ⟨.emptyInput, rfl⟩)
  · have hr := scalar_returns (f := data.length) (depth := 0) (rv := old) hd ht
    have hk : Keeps old (decodeF W data (data.length + 1) t 0 0 old) := by
      refine keeps_decodeF ?_
      rcases ht with h | h | ⟨e, h1, h2, h3⟩
      · exact .inl h
      · exact .inr (.inl h)
      · refine .inr (.inr ⟨e, h1, h2, ?_⟩)
        cases data with
        | nil => exact absurd rfl hd
        | cons y ys =>
          intro he
          simp [idx] at he
          simp [he] at h3
    have hu : unmarshal W fuel data (.ptr t old) =
        (some (unmarshalInto W fuel data t old).1, (unmarshalInto W fuel data t old).2) := unmarshal_ptr hd
    unfold unmarshalInto at hu
    rw [scalarLike_compile ht hf] at hu
    simp only [onOk] at hu
    rcases hx : decodeF W data (data.length + 1) t 0 0 old with ⟨w, r⟩
    rw [hx] at hu hr hk
    rcases hr.cases with ⟨c, hc⟩ | ⟨e, he⟩
    · simp only at hc
      subst hc
      obtain ⟨d, hat, hdoc⟩ := decodeF_sound hb (by omega) hx
      simp only at hu
      have hle := hat.le
      unfold validateEndBuf at hu
      by_cases hl : data.length = c
      · rw [if_pos hl] at hu
        refine .inl ⟨w, d, hu, ?_, hdoc⟩
        have := hat.1
        rw [List.drop_zero, ← hl, List.drop_length, List.append_nil] at this
        exact this
      · rw [if_neg hl] at hu
        have hlt : c < data.length := by omega
        refine .inr (.inr ⟨?_, w, d, data.drop c, ?_, ?_, ?_, hdoc⟩)
        · exact .trailing data[c] (c + 1)
        · rw [hu, show idx data c = .ok data[c] by simp [idx, hlt]]; rfl
        · intro h
          have := congrArg List.length h
          simp at this
          omega
        · simpa using hat.1
    · simp only at he
      subst he
      simp only at hu
      rcases hk with ⟨c, hc⟩ | hw
      · simp at hc
      · simp only at hw
        subst hw
        exact .inr (.inl ⟨e, hu⟩)

theorem decDoc_int {W : World} {t : Ty} {k : IKind} (ht : Plain W t (.int k)) {n : Nat} {d : Doc} {rv v : Val} :
    DecDoc W t n d rv v ↔ (d = .null ∧ v = rv) ∨ ∃ txt i, d = .int txt ∧ IntText txt i ∧ InRange k i ∧ v = .int i := by
  obtain ⟨hu, hr⟩ := ht
  constructor
  · intro h
    cases h
    case intNull => exact .inl ⟨rfl, rfl⟩
    case int => simp_all [Plain]
    all_goals (exfalso; simp_all [Plain])
  · rintro (⟨rfl, rfl⟩ | ⟨txt, i, rfl, h1, h2, rfl⟩)
    · exact .intNull ⟨hu, hr⟩
    · exact .int ⟨hu, hr⟩ h1 h2

theorem decDoc_uint {W : World} {t : Ty} {k : UKind} (ht : Plain W t (.uint k)) {n : Nat} {d : Doc} {rv v : Val} :
    DecDoc W t n d rv v ↔ (d = .null ∧ v = rv) ∨ ∃ txt, d = .int txt ∧ IsDigits txt ∧ InURange k (digitsVal txt) ∧ v = .uint (digitsVal txt) := by
  obtain ⟨hu, hr⟩ := ht
  constructor
  · intro h
    cases h
    case uintNull => exact .inl ⟨rfl, rfl⟩
    case uint => simp_all [Plain]
    all_goals (exfalso; simp_all [Plain])
  · rintro (⟨rfl, rfl⟩ | ⟨txt, rfl, h1, h2, rfl⟩)
    · exact .uintNull ⟨hu, hr⟩
    · exact .uint ⟨hu, hr⟩ h1 h2

theorem decDoc_bool {W : World} {t : Ty} (ht : Plain W t .bool) {n : Nat} {d : Doc} {rv v : Val} :
    DecDoc W t n d rv v ↔ (d = .null ∧ v = rv) ∨ ∃ b, d = .bool b ∧ v = .bool b := by
  obtain ⟨hu, hr⟩ := ht
  constructor
  · intro h
    cases h
    case boolNull => exact .inl ⟨rfl, rfl⟩
    case bool => simp_all [Plain]
    all_goals (exfalso; simp_all [Plain])
  · rintro (⟨rfl, rfl⟩ | ⟨b, rfl, rfl⟩)
    · exact .boolNull ⟨hu, hr⟩
    · exact .bool ⟨hu, hr⟩

theorem decDoc_str {W : World} {t : Ty} (ht : Plain W t .str) {n : Nat} {d : Doc} {rv v : Val} :
    DecDoc W t n d rv v ↔ (d = .null ∧ v = rv) ∨ ∃ len s, d = .str len s ∧ LenText len s.length ∧ v = .str s := by
  obtain ⟨hu, hr⟩ := ht
  constructor
  · intro h
    cases h
    case strNull => exact .inl ⟨rfl, rfl⟩
    case str => simp_all [Plain]
    all_goals (exfalso; simp_all [Plain])
  · rintro (⟨rfl, rfl⟩ | ⟨len, s, rfl, h, rfl⟩)
    · exact .strNull ⟨hu, hr⟩
    · exact .str ⟨hu, hr⟩ h

theorem decDoc_f64 {W : World} {t : Ty} (ht : Plain W t .f64) {n : Nat} {d : Doc} {rv v : Val} :
    DecDoc W t n d rv v ↔ (d = .null ∧ v = rv) ∨ ∃ txt x, d = .float txt ∧ txt ≠ [] ∧ 59 ∉ txt ∧ FloatText W txt x ∧ v = .f64 x := by
  obtain ⟨hu, hr⟩ := ht
  constructor
  · intro h
    cases h
    case f64Null => exact .inl ⟨rfl, rfl⟩
    case f64 => simp_all [Plain]
    all_goals (exfalso; simp_all [Plain])
  · rintro (⟨rfl, rfl⟩ | ⟨txt, x, rfl, h1, h2, h3, rfl⟩)
    · exact .f64Null ⟨hu, hr⟩
    · exact .f64 ⟨hu, hr⟩ h1 h2 h3

theorem decDoc_f32 {W : World} {t : Ty} (ht : Plain W t .f32) {n : Nat} {d : Doc} {rv v : Val} :
    DecDoc W t n d rv v ↔ (d = .null ∧ v = rv) ∨
      ∃ txt x, d = .float txt ∧ txt ≠ [] ∧ 59 ∉ txt ∧ FloatText W txt x ∧ Fits32 x ∧ v = .f32 (W.toF32 x) := by
  obtain ⟨hu, hr⟩ := ht
  constructor
  · intro h
    cases h
    case f32Null => exact .inl ⟨rfl, rfl⟩
    case f32 txt x h1 h2 h3 h4 h5 => exact .inr ⟨txt, x, rfl, h1, h2, h3, h4, rfl⟩
    all_goals (exfalso; simp_all [Plain])
  · rintro (⟨rfl, rfl⟩ | ⟨txt, x, rfl, h1, h2, h3, h4, rfl⟩)
    · exact .f32Null ⟨hu, hr⟩
    · exact .f32 ⟨hu, hr⟩ h1 h2 h3 h4

theorem intText_pos_of {txt rest : Bytes} (h : (105 : Byte) :: 58 :: txt ++ [59] = Doc.text (.int rest)) : rest = txt := by
  simp [Doc.text] at h
  exact h.symm

theorem int_doc_prefix {txt txt' rest : Bytes} (h59 : (59 : Byte) ∉ txt) (h : (105 : Byte) :: 58 :: txt ++ [59] = Doc.text (.int txt') ++ rest)
    (hr : rest ≠ []) : False := by
  simp only [Doc.text, List.cons_append, List.nil_append, List.cons.injEq, true_and, List.append_assoc] at h
  have : (59 : Byte) ∈ (txt ++ [59]).dropLast := by
    rw [h]
    rw [show txt' ++ (59 :: rest) = (txt' ++ [59]) ++ rest by simp, List.dropLast_append_of_ne_nil hr]
    simp
  simp at this
  exact h59 this

end Verif

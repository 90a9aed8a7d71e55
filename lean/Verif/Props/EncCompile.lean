import Verif.Proofs.EncCompileFacts
import Verif.Props.Compile
import Verif.Props.Composite
import Verif.Props.Output
/-
Preparing a type for encoding (encoder half of C34), the keys that `Marshal` and `Unmarshal` use (C42), and types that one of them accepts
and the other does not (C45).
-/
namespace Verif
open Spec

/-! ### Preparing a type ends -/

/-- C34 for the encoder, weakened: preparing a type ends, with an encoder or an error, unless an array contains itself. Missing: arrays that
contain themselves (behind pointers or slices), for which `C34_encoder_diverges` shows that preparation never ends. -/
theorem C34_encoder_ends_partial (W : World) (t : Ty) (hg : ArrayGuarded W t) :
    ∃ fuel0, ∀ fuel, fuel0 ≤ fuel → ((∃ seen, compileE W fuel [] t = .ok seen) ∨ ∃ e, compileE W fuel [] t = .err e) := by
  obtain ⟨f0, h0⟩ := eends_of_guarded hg
  refine ⟨f0, fun fuel hf => ?_⟩
  rw [compileE_mono h0 hf]
  cases h : compileE W f0 [] t with
  | ok u => exact .inl ⟨u, rfl⟩
  | err e => exact .inr ⟨e, rfl⟩
  | diverge => exact absurd h h0
  | panic p => exact absurd h (compileE_noPanic p)

theorem demo_list_reach (t : Ty) (h : EncReach Demo.W (.struct 1) t) : t = .struct 1 ∨ t = .ptr (.struct 1) ∨ t = .int .int := by
  induction h with
  | refl => exact .inl rfl
  | step _ hc ih =>
    rcases ih with rfl | rfl | rfl
    · cases hc with
      | field hr hf =>
        cases hr
        simp [Demo.W, Demo.fields] at hf
        rcases hf with rfl | rfl
        · exact .inr (.inl rfl)
        · exact .inr (.inr rfl)
      | slice h => cases h
      | ptr h => cases h
      | array h => cases h
      | mapVal h => cases h
    · cases hc with
      | ptr h => cases h; exact .inl rfl
      | slice h => cases h
      | array h => cases h
      | mapVal h => cases h
      | field h => cases h
    · cases hc with
      | ptr h => cases h
      | slice h => cases h
      | array h => cases h
      | mapVal h => cases h
      | field h => cases h

/-- `type T []T` and a linked list. -/
example : ArrayGuarded Demo.W (.named 1) ∧ ArrayGuarded Demo.W (.struct 1) := by
  have key1 : ∀ t, EncReach Demo.W (.named 1) t → t = .named 1 := by
    intro t h
    induction h with
    | refl => rfl
    | step _ hc ih =>
      subst ih
      cases hc with
      | slice h => cases h; rfl
      | ptr h => cases h
      | array h => cases h
      | mapVal h => cases h
      | field h => cases h
  refine ⟨⟨[.named 1], fun _ => 0, fun t h _ => by simp [key1 t h], fun _ _ _ _ => Nat.le_refl _, fun t n e h hr => ?_⟩,
    ⟨[.struct 1], fun _ => 0, fun t h hc => ?_, fun _ _ _ _ => Nat.le_refl _, fun t n e h hr => ?_⟩⟩
  · rw [key1 t h] at hr; cases hr
  · rcases demo_list_reach t h with rfl | rfl | rfl
    · simp
    · simp [Collected, World.resolve] at hc
    · simp [Collected, World.resolve] at hc
  · rcases demo_list_reach t h with rfl | rfl | rfl <;> cases hr

/-- Types that are made of arrays, slices and pointers and go on forever, passing through an array every now and then: `d` is the distance
to the next array. -/
def EndlessArrays (W : World) (S : Ty → Prop) (d : Ty → Nat) : Prop :=
  ∀ t, S t → W.marOf t = false ∧ ∃ e, S e ∧
    ((∃ n, W.resolve t = .array n e) ∨ (W.resolve t = .slice e ∧ d e < d t) ∨ (W.resolve t = .ptr e ∧ W.isPtr e = false ∧ d e < d t))

/-- C34 is false of the encoder: preparing an array type that contains itself, like `type A [1]*A` or `type B [1][]B`, never returns; so
`Marshal` of such a value never returns either, whatever the value. -/
theorem C34_encoder_diverges (W : World) (S : Ty → Prop) (d : Ty → Nat) (hS : EndlessArrays W S d) (t : Ty) (ht : S t) (fuel : Nat) :
    compileE W fuel [] t = .diverge ∧
    ∀ (h : Heap) (fuel' : Nat) (c : Ctx) (v : GV), marshal W h fuel fuel' c (some (t, v)) = (c, .diverge) := by
  have key : ∀ fuel seen t, S t → (∀ u ∈ seen, d t < d u) → compileE W fuel seen t = .diverge := by
    intro fuel
    induction fuel with
    | zero => intros; rfl
    | succ f ih =>
      intro seen t ht hseen
      obtain ⟨hm, e, he, h⟩ := hS t ht
      have hb : t ≠ .slice (.uint .u8) := by
        rintro rfl
        rcases h with ⟨n, h⟩ | ⟨h, -⟩ | ⟨h, -⟩
        · cases h
        · cases h
          obtain ⟨-, e', -, ⟨n, h⟩ | ⟨h, -⟩ | ⟨h, -⟩⟩ := hS _ he <;> cases h
        · cases h
      have hn : ∀ {s : List Ty}, (∀ u ∈ s, d t < d u) → s.contains t = false := fun hs => by
        simp only [List.contains_eq_mem, decide_eq_false_iff_not]
        exact fun hm => absurd (hs t hm) (Nat.lt_irrefl _)
      unfold compileE
      rw [hm, if_neg (by simp), if_neg hb]
      rcases h with ⟨n, h⟩ | ⟨h, hd⟩ | ⟨h, hp, hd⟩
      · rw [h]
        simp only [ih [] e he (by simp)]
        rfl
      · rw [h]
        simp only [compileESlice, hn hseen, Bool.false_eq_true, if_false]
        refine ih _ e he fun u hu => ?_
        rcases List.mem_cons.1 hu with rfl | hu
        · exact hd
        · exact Nat.lt_trans hd (hseen u hu)
      · rw [h]
        have hrec := ih seen e he fun u hu => Nat.lt_trans hd (hseen u hu)
        simp only [compileEPtr]
        obtain ⟨-, e', -, ⟨n, h⟩ | ⟨h, -⟩ | ⟨h, -⟩⟩ := hS e he
        · rw [h]; exact hrec
        · rw [h]; exact hrec
        · rw [World.isPtr, h] at hp; cases hp
  have hk := key fuel [] t ht (by simp)
  refine ⟨hk, fun h fuel' c v => ?_⟩
  simp only [marshal, hk]
  rfl

/-- `type A [1]*A`. -/
theorem C34_encoder_counterexample (fuel : Nat) : compileE Demo.W fuel [] (.named 2) = .diverge := by
  have h : EndlessArrays Demo.W (fun t => t = .named 2 ∨ t = .ptr (.named 2)) (fun t => if t = .named 2 then 0 else 1) := by
    rintro t (rfl | rfl)
    · exact ⟨rfl, _, .inr rfl, .inl ⟨1, rfl⟩⟩
    · exact ⟨rfl, _, .inl rfl, .inr (.inr ⟨rfl, rfl, by decide⟩)⟩
  exact (C34_encoder_diverges Demo.W _ _ h _ (.inl rfl) fuel).1

/-! ### Keys -/

/-- C42, both halves together: `Marshal` writes every field of a struct under the key by which `Unmarshal` finds the very same field
(`FieldFor`, see `C42_decode_key`), if `Unmarshal` accepts the type. Missing: fields with the key `-` that are not tagged with `-` alone,
see `C42_dash_counterexample`. -/
theorem C42_same_key_partial (W : World) (h : Heap) (t : Ty) (id : Nat) (ht : Plain W t (.struct id)) (hmar : W.marOf t = false)
    (fuel : Nat) (hcomp : compileD W fuel [] t = .ok ()) (vs : List GV) (tx : Bytes) (hm : MarshalGives W h (some (t, .struct vs)) (.ok tx)) :
    ∃ (idxs : List Nat) (key txt : Nat → Bytes),
      (∀ i, i ∈ idxs ↔ ∃ f v, (W.fields id)[i]? = some f ∧ vs[i]? = some v ∧ Shown W f v) ∧
      (∀ i ∈ idxs, ∃ f, FieldFor W id (key i) i f) ∧
      tx = [97, 58] ++ natText idxs.length ++ [58, 123] ++ (idxs.flatMap fun i => (strDoc (key i)).text ++ txt i) ++ [125] := by
  obtain ⟨idxs, key, txt, -, h2, h3, -, h5⟩ := C26_struct_fields W h t id ht.2 hmar vs tx hm
  refine ⟨idxs, key, txt, h2, fun i hi => ?_, h5⟩
  obtain ⟨f, v, hf, hv, he, k, om, str, htag, hk, -⟩ := (h2 i).1 hi
  have hkey := h3 i hi f hf
  have hvis : Visible f := ⟨he, fun hd => hk (by
    have h1 := (tagMeaning_iff.1 htag).1
    rw [h1, structTag, hd]
    rfl)⟩
  refine ⟨f, hf, hvis, hkey, fun j g hj hg hgv hgk => ?_⟩
  have := (compileD_uses hcomp .refl).keys id ht i j f g (key i) hf hg hvis hgv hkey hgk
  omega

example : Plain Demo.W (.struct 0) (.struct 0) ∧ Demo.W.marOf (.struct 0) = false ∧ compileD Demo.W 9 [] (.struct 0) = .ok () ∧
    MarshalGives Demo.W Demo.heap (some (.struct 0, .struct [.int 0, .str [], .int 1, .int 2, .ptr 2000]))
      (.ok (b! "a:2:{s:1:\"a\";i:0;s:1:\"e\";s:2:\"42\";}")) :=
  ⟨⟨rfl, rfl⟩, rfl, rfl, marshalGives_of (cf := 9) (f := 9) (by simp) (by rfl)⟩

/-- C42 is false for a field tagged `-,omitempty`: for `Unmarshal` its key is `-`, `Marshal` never writes it. -/
theorem C42_dash_counterexample :
    HasKey Demo.WC ⟨b! "X", b! "-,omitempty", true, false, .int .int⟩ [45] ∧
    MarshalGives Demo.WC Demo.heap (some (.struct 31, .struct [.int 5])) (.ok (b! "a:0:{}")) ∧
    unmarshal Demo.WC 4 (b! "a:1:{s:1:\"-\";i:5;}") (.ptr (.struct 31) (Demo.WC.zero (.struct 31))) = (some (.struct [.int 5]), .ok ()) :=
  ⟨hasKey_iff.2 rfl, marshalGives_of (cf := 9) (f := 9) (by simp) (by rfl), by rfl⟩

/-! ### Types accepted by one and not by the other -/

/-- C45, weakened: if `Marshal` accepts a type then `Unmarshal` accepts it, provided that types with MarshalPHP (which `Marshal` does not look
into) are taken by `Unmarshal` without looking into them as well, all recursion passes through structs (otherwise `Unmarshal` never returns, C34),
and the structs in it keep the additional rules of `Unmarshal` (`DecoderRules`). Types hidden inside types with methods do not matter. Each of
these rules is needed: see the counterexamples below. -/
theorem C45_accepts_partial (W : World) (t : Ty) (hs : Supported W t) (hm : ∀ t', InView W t t' → W.marOf t' = true → ReadAsIs W t')
    (hr : ∀ t' id, InView W t t' → W.marOf t' = false → Plain W t' (.struct id) → DecoderRules W id) (hg : StructGuarded W t) :
    ∃ fuel0, ∀ fuel, fuel0 ≤ fuel → compileD W fuel [] t = .ok () := by
  obtain ⟨cf, s, hc⟩ := hs
  obtain ⟨f0, h0⟩ := C34_decoder_ends_partial W t hg
  refine ⟨f0, fun fuel hf => ?_⟩
  rcases h0 fuel hf with h | ⟨e, h⟩
  · exact h
  · exact absurd h (compileD_noErr (compileE_visited hc hm hr) (.inl ⟨.refl (by simp), .refl⟩) e)

theorem demo_list_inView (t : Ty) (h : InView Demo.W (.struct 1) t) : t = .struct 1 ∨ t = .int .int := by
  induction h with
  | refl => exact .inl rfl
  | step _ _ _ hc ih =>
    rcases ih with rfl | rfl
    · cases hc with
      | field hr hf _ hp =>
        cases hr
        simp [Demo.W, Demo.fields] at hf
        rcases hf with rfl | rfl
        · exact absurd rfl (hp (.struct 1))
        · exact .inr rfl
      | fieldPtr hr hf _ hp =>
        cases hr
        simp [Demo.W, Demo.fields] at hf
        rcases hf with rfl | rfl
        · cases hp; exact .inl rfl
        · cases hp
      | slice h => cases h
      | ptr h => cases h
      | array h => cases h
      | mapVal h => cases h
    · cases hc with
      | ptr h => cases h
      | slice h => cases h
      | array h => cases h
      | mapVal h => cases h
      | field h => cases h
      | fieldPtr h => cases h

/-- A linked list. -/
example : Supported Demo.W (.struct 1) ∧ (∀ t', InView Demo.W (.struct 1) t' → Demo.W.marOf t' = true → ReadAsIs Demo.W t') ∧
    (∀ t' id, InView Demo.W (.struct 1) t' → Demo.W.marOf t' = false → Plain Demo.W t' (.struct id) → DecoderRules Demo.W id) ∧
    StructGuarded Demo.W (.struct 1) := by
  refine ⟨⟨9, _, rfl⟩, fun t' _ h => (by rw [Demo.noMarshaler t'] at h; cases h), fun t' id h _ hr => ?_, demo_list_guarded⟩
  have hid : id = 1 := by rcases demo_list_inView t' h with rfl | rfl <;> cases hr.2; rfl
  subst hid
  have hf : ∀ f ∈ Demo.W.fields 1, f = ⟨b! "Next", b! "next", true, false, .ptr (.struct 1)⟩ ∨ f = ⟨b! "N", b! "n", true, false, .int .int⟩ := by
    intro f hf; simpa [Demo.W, Demo.fields] using hf
  refine ⟨fun f h _ hk => ?_, fun f h _ ha => ?_, fun i j f g k hi hj _ _ h1 h2 => ?_, fun f h _ hs => ?_⟩
  · rw [hasKey_iff] at hk
    rcases hf f h with rfl | rfl <;> exact absurd hk (by decide)
  · rcases hf f h with rfl | rfl <;> cases ha
  · rw [hasKey_iff] at h1 h2
    match i, j, hi, hj with
    | 0, 0, _, _ => rfl
    | 1, 1, _, _ => rfl
    | 0, 1, hi, hj => cases hi; cases hj; rw [← h1] at h2; exact absurd h2 (by decide)
    | 1, 0, hi, hj => cases hi; cases hj; rw [← h1] at h2; exact absurd h2 (by decide)
    | i + 2, _, hi, _ => cases hi
    | _, j + 2, _, hj => cases hj
  · rw [hasString_iff] at hs
    rcases hf f h with rfl | rfl <;> exact absurd hs (by decide)

/-- A struct with a field of a type with both methods, one that is a pointer to it, and a slice of such pointers. -/
def Demo.WM2 : World := { Demo.W with
  fields := fun
    | 1 => [⟨b! "A", b! "a", true, false, .named 0⟩, ⟨b! "P", b! "p", true, false, .ptr (.named 0)⟩,
        ⟨b! "L", b! "l", true, false, .slice (.ptr (.named 0))⟩]
    | _ => []
  named := fun
    | 0 => ⟨.struct 1, true, .value⟩
    | _ => ⟨.int .int, false, .none⟩ }

example : Supported Demo.WM2 (.struct 1) ∧ (∀ t', InView Demo.WM2 (.struct 1) t' → Demo.WM2.marOf t' = true → ReadAsIs Demo.WM2 t') ∧
    (∀ t' id, InView Demo.WM2 (.struct 1) t' → Demo.WM2.marOf t' = false → Plain Demo.WM2 t' (.struct id) → DecoderRules Demo.WM2 id) ∧
    StructGuarded Demo.WM2 (.struct 1) := by
  have hf : ∀ f ∈ Demo.WM2.fields 1, f = ⟨b! "A", b! "a", true, false, .named 0⟩ ∨ f = ⟨b! "P", b! "p", true, false, .ptr (.named 0)⟩ ∨
      f = ⟨b! "L", b! "l", true, false, .slice (.ptr (.named 0))⟩ := by
    intro f hf; simpa [Demo.WM2] using hf
  have hv : ∀ t, InView Demo.WM2 (.struct 1) t → t = .struct 1 ∨ t = .named 0 ∨ t = .slice (.ptr (.named 0)) ∨ t = .ptr (.named 0) := by
    intro t h
    induction h with
    | refl => exact .inl rfl
    | step _ hm _ hc ih =>
      rcases ih with rfl | rfl | rfl | rfl
      · cases hc with
        | field hr h2 _ hp =>
          cases hr
          rcases hf _ h2 with rfl | rfl | rfl
          · exact .inr (.inl rfl)
          · exact absurd rfl (hp (.named 0))
          · exact .inr (.inr (.inl rfl))
        | fieldPtr hr h2 _ hp =>
          cases hr
          rcases hf _ h2 with rfl | rfl | rfl <;> cases hp
          exact .inr (.inl rfl)
        | slice h => cases h
        | ptr h => cases h
        | array h => cases h
        | mapVal h => cases h
      · cases hm
      · cases hc with
        | slice h => cases h; exact .inr (.inr (.inr rfl))
        | ptr h => cases h
        | array h => cases h
        | mapVal h => cases h
        | field h => cases h
        | fieldPtr h => cases h
      · cases hm
  have hreach : ∀ t, Reach Demo.WM2 (.struct 1) t → t = .struct 1 ∨ t = .named 0 ∨ t = .slice (.ptr (.named 0)) ∨ t = .ptr (.named 0) := by
    intro t h
    induction h with
    | refl => exact .inl rfl
    | step _ hc ih =>
      rcases ih with rfl | rfl | rfl | rfl
      · cases hc with
        | field hr h2 =>
          cases hr.2
          rcases hf _ h2 with rfl | rfl | rfl
          · exact .inr (.inl rfl)
          · exact .inr (.inr (.inr rfl))
          · exact .inr (.inr (.inl rfl))
        | slice h => cases h.2
        | ptr h => cases h.2
        | array h => cases h.2
        | mapKey h => cases h.2
        | mapVal h => cases h.2
      · cases hc with
        | ptr h => cases h.1
        | slice h => cases h.1
        | array h => cases h.1
        | mapKey h => cases h.1
        | mapVal h => cases h.1
        | field h => cases h.1
      · cases hc with
        | slice h => cases h.2; exact .inr (.inr (.inr rfl))
        | ptr h => cases h.2
        | array h => cases h.2
        | mapKey h => cases h.2
        | mapVal h => cases h.2
        | field h => cases h.2
      · cases hc with
        | ptr h => cases h.2; exact .inr (.inl rfl)
        | slice h => cases h.2
        | array h => cases h.2
        | mapKey h => cases h.2
        | mapVal h => cases h.2
        | field h => cases h.2
  refine ⟨⟨9, _, rfl⟩, fun t' h hm => ?_, fun t' id h _ hr => ?_, [.struct 1], fun t => match t with | .slice _ => 2 | .ptr _ => 1 | _ => 0, ?_, ?_⟩
  · rcases hv t' h with rfl | rfl | rfl | rfl
    · cases hm
    · exact .inl (by decide)
    · cases hm
    · exact .inr (.inl ⟨.named 0, rfl, fun x hx => (by cases hx), by decide⟩)
  · have hid : id = 1 := by rcases hv t' h with rfl | rfl | rfl | rfl <;> first | (cases hr.1; done) | (cases hr.2; done) | (cases hr.2; rfl)
    subst hid
    refine ⟨fun f h _ hk => ?_, fun f h _ ha => ?_, fun i j f g k hi hj _ _ h1 h2 => ?_, fun f h _ hs => ?_⟩
    · rw [hasKey_iff] at hk
      rcases hf f h with rfl | rfl | rfl <;> exact absurd hk (by decide)
    · rcases hf f h with rfl | rfl | rfl <;> cases ha
    · rw [hasKey_iff] at h1 h2
      match i, j, hi, hj with
      | 0, 0, _, _ => rfl
      | 1, 1, _, _ => rfl
      | 2, 2, _, _ => rfl
      | 0, 1, hi, hj => cases hi; cases hj; rw [← h1] at h2; exact absurd h2 (by decide)
      | 0, 2, hi, hj => cases hi; cases hj; rw [← h1] at h2; exact absurd h2 (by decide)
      | 1, 0, hi, hj => cases hi; cases hj; rw [← h1] at h2; exact absurd h2 (by decide)
      | 1, 2, hi, hj => cases hi; cases hj; rw [← h1] at h2; exact absurd h2 (by decide)
      | 2, 0, hi, hj => cases hi; cases hj; rw [← h1] at h2; exact absurd h2 (by decide)
      | 2, 1, hi, hj => cases hi; cases hj; rw [← h1] at h2; exact absurd h2 (by decide)
      | i + 3, _, hi, _ => cases hi
      | _, j + 3, _, hj => cases hj
    · rw [hasString_iff] at hs
      rcases hf f h with rfl | rfl | rfl <;> exact absurd hs (by decide)
  · intro t' id h hp
    rcases hreach t' h with rfl | rfl | rfl | rfl
    · simp
    · cases hp.1
    · cases hp.2
    · cases hp.2
  · intro t' t'' h hc hn
    rcases hreach t' h with rfl | rfl | rfl | rfl
    · exact absurd ⟨1, rfl, rfl⟩ hn
    · cases hc with
      | ptr h => cases h.1
      | slice h => cases h.1
      | array h => cases h.1
      | mapKey h => cases h.1
      | mapVal h => cases h.1
      | field h => cases h.1
    · cases hc with
      | slice h => cases h.2; decide
      | ptr h => cases h.2
      | array h => cases h.2
      | mapKey h => cases h.2
      | mapVal h => cases h.2
      | field h => cases h.2
    · cases hc with
      | ptr h => cases h.2; decide
      | slice h => cases h.2
      | array h => cases h.2
      | mapKey h => cases h.2
      | mapVal h => cases h.2
      | field h => cases h.2

/-- Struct 40: `S string "s,string"`; 41: `P *string "p,string"`; 42: embedded `*S2`; 43: a field of `type T []T`; 44: `X *S4 "-,omitempty"`
where S4 embeds a struct. -/
def Demo.WS : World := { Demo.W with
  fields := fun
    | 40 => [⟨b! "S", b! "s,string", true, false, .str⟩]
    | 41 => [⟨b! "P", b! "p,string", true, false, .ptr .str⟩]
    | 42 => [⟨b! "S2", [], true, true, .ptr (.struct 2)⟩]
    | 43 => [⟨b! "T", b! "t", true, false, .named 1⟩]
    | 44 => [⟨b! "X", b! "-,omitempty", true, false, .struct 4⟩]
    | i => Demo.fields i }

/-- C45 is false: for each of these struct types there is a value that `Marshal` writes, but `Unmarshal` rejects the type: a string field
with the option `string`, a pointer to a string with it, an embedded pointer to a struct, a field with key `-` of an unsupported type. -/
theorem C45_counterexample (fuel : Nat) :
    (MarshalGives Demo.WS Demo.heap (some (.struct 40, .struct [.str (b! "x")])) (.ok (b! "a:1:{s:1:\"s\";s:1:\"x\";}")) ∧
      compileD Demo.WS (fuel + 5) [] (.struct 40) = .err (.unsupported "string option")) ∧
    (MarshalGives Demo.WS Demo.heap (some (.struct 41, .struct [.ptrNil])) (.ok (b! "a:1:{s:1:\"p\";N;}")) ∧
      compileD Demo.WS (fuel + 5) [] (.struct 41) = .err (.unsupported "string option")) ∧
    (MarshalGives Demo.WS Demo.heap (some (.struct 42, .struct [.ptrNil])) (.ok (b! "a:1:{s:2:\"S2\";N;}")) ∧
      compileD Demo.WS (fuel + 5) [] (.struct 42) = .err (.unsupported "anonymous struct field")) ∧
    (MarshalGives Demo.WS Demo.heap (some (.struct 44, .struct [.struct [.struct [.arr [.int 0, .int 0], .bool true]]])) (.ok (b! "a:0:{}")) ∧
      compileD Demo.WS (fuel + 5) [] (.struct 44) = .err (.unsupported "anonymous struct field")) :=
  ⟨⟨marshalGives_of (cf := 9) (f := 9) (by simp) (by rfl), by rfl⟩, ⟨marshalGives_of (cf := 9) (f := 9) (by simp) (by rfl), by rfl⟩,
    ⟨marshalGives_of (cf := 9) (f := 9) (by simp) (by rfl), by rfl⟩, ⟨marshalGives_of (cf := 9) (f := 9) (by simp) (by rfl), by rfl⟩⟩

/-- C45 is false for two fields with the same key. -/
theorem C45_duplicate_counterexample (fuel : Nat) :
    MarshalGives Demo.WC Demo.heap (some (.struct 33, .struct [.int 1, .int 2])) (.ok (b! "a:2:{s:1:\"x\";i:1;s:1:\"x\";i:2;}")) ∧
    compileD Demo.WC (fuel + 2) [] (.struct 33) = .err (.unsupported "duplicate keys") :=
  ⟨marshalGives_of (cf := 9) (f := 9) (by simp) (by rfl), by rfl⟩

/-- C45 is false for a struct with a MarshalPHP method and without UnmarshalPHP: `Marshal` does not look into it. -/
theorem C45_method_counterexample (fuel : Nat) :
    let W : World := { Demo.W with named := fun _ => ⟨.struct 4, false, .value⟩ }
    MarshalGives W Demo.heap (some (.named 0, .struct [.struct [.arr [.int 0, .int 0], .bool true]])) (.ok (b! "i:1;")) ∧
    compileD W (fuel + 5) [] (.named 0) = .err (.unsupported "anonymous struct field") :=
  ⟨marshalGives_of (cf := 9) (f := 9) (by simp) (by rfl), by rfl⟩

/-- C45 is false for recursive slices: `Marshal` writes the struct, `Unmarshal` never returns. -/
theorem C45_recursive_counterexample (fuel : Nat) :
    MarshalGives Demo.WS Demo.heap (some (.struct 43, .struct [.sliceNil])) (.ok (b! "a:1:{s:1:\"t\";N;}")) ∧
    compileD Demo.WS fuel [] (.struct 43) = .diverge := by
  refine ⟨marshalGives_of (cf := 9) (f := 9) (by simp) (by rfl), ?_⟩
  have key : ∀ f B, compileD Demo.WS f B (.named 1) = .diverge := by
    intro f
    induction f with
    | zero => intro B; rfl
    | succ f ih => intro B; exact ih B
  cases fuel with
  | zero => rfl
  | succ f =>
    show (compileDFields Demo.WS (compileD Demo.WS f [.struct 43]) (Demo.WS.fields 43) >>= fun _ => _) = .diverge
    show ((compileD Demo.WS f [.struct 43] (.named 1) >>= fun _ => _) >>= fun _ => _) = .diverge
    rw [key]
    rfl

end Verif

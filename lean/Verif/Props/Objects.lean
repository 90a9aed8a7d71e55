import Verif.Proofs.DecTwice
/-
Prepared decoders: objects that are made once per type, refer to each other and are used for every later call (C68), and how many of them are made (C69).
-/
namespace Verif
open Spec

/-- C68: decoding with the prepared objects succeeds exactly if the whole input is one value that the type takes, and then leaves what the specification says.
In particular a struct type that contains itself, whose decoder is referred to while its table of fields is still empty, is decoded at every level like at
the first. -/
theorem C68_prepared (W : World) (hW : W.NamedOk) (fuel : Nat) (t : Ty) (d : Dec) (H : List StructObj) (hg : getDecoder W fuel t = .ok (d, H))
    (data : Bytes) (hb : data.length < 2 ^ 63) (v v' : Val) :
    decodeWith W d H data v = (v', .ok ()) ↔ ∃ doc, data = doc.text ∧ DecDoc W t maxDepth doc v v' := by
  rcases getDecoder_spec hW fuel t with ⟨d', H', S, h1, h2, h3, h4⟩ | ⟨e, h, -⟩ | ⟨p, h, -⟩ | ⟨h, -⟩
  · rw [hg] at h1
    cases h1
    have hal := decodeWith_alike h3 h4 h2 data v
    have hok : decodeWith W d H data v = (v', .ok ()) ↔ unmarshalInto W fuel data t v = (v', .ok ()) := by
      have e1 := hal.1
      have e2 := hal.2
      generalize decodeWith W d H data v = x at e1 e2
      generalize unmarshalInto W fuel data t v = y at e1 e2
      obtain ⟨x1, x2⟩ := x
      obtain ⟨y1, y2⟩ := y
      cases e1
      cases x2 <;> cases y2 <;> simp_all [Res.mapErr]
    rw [hok]
    by_cases hd : data = []
    · subst hd
      constructor
      · intro h
        exact absurd h unmarshalInto_nil
      · rintro ⟨doc, e, -⟩
        exact absurd e.symm (text_ne_nil doc)
    · have := unmarshal_ok_iff (W := W) (fuel := fuel) (t := t) (v := v) (o := some v') hb
      rw [unmarshal_ptr hd] at this
      constructor
      · intro h
        obtain ⟨-, doc, x, hx, e, hdoc⟩ := this.1 (by rw [h])
        cases hx
        exact ⟨doc, e, hdoc⟩
      · rintro ⟨doc, e, hdoc⟩
        have h5 := this.2 ⟨h2, doc, v', rfl, e, hdoc⟩
        rw [Prod.mk.injEq, Option.some.injEq] at h5
        exact Prod.ext h5.1 h5.2
  · rw [hg] at h; cases h
  · rw [hg] at h; cases h
  · rw [hg] at h; cases h

/-- C68, the other outcomes: a call on a non-empty input behaves, whatever the input, as if the objects were made and then run; it fails, panics or does not
return in the making if that does. Only the names and types in type errors are the objects' own (C72). -/
theorem C68_same (W : World) (hW : W.NamedOk) (fuel : Nat) (t : Ty) (data : Bytes) (hd : data ≠ []) (v : Val) :
    SameRun (unmarshal W fuel data (.ptr t v))
      (match getDecoder W fuel t with
      | .ok (d, H) => (some (decodeWith W d H data v).1, (decodeWith W d H data v).2)
      | .err e => (some v, .err e)
      | .panic p => (some v, .panic p)
      | .diverge => (some v, .diverge)) := by
  rw [unmarshal_ptr hd]
  rcases getDecoder_spec hW fuel t with ⟨d, H, S, h1, h2, h3, h4⟩ | ⟨e, h, h'⟩ | ⟨p, h, h'⟩ | ⟨h, h'⟩
  · rw [h1]
    have hal := decodeWith_alike h3 h4 h2 data v
    exact ⟨congrArg some hal.1.symm, hal.2.symm⟩
  · rw [h]; simp only [unmarshalInto, h', onOk]; exact SameRun.refl _
  · rw [h]; simp only [unmarshalInto, h', onOk]; exact SameRun.refl _
  · rw [h]; simp only [unmarshalInto, h', onOk]; exact SameRun.refl _

/-- The list type of the demo world: one struct decoder, which refers to itself; decoding with it fills two levels. -/
example : getDecoder Demo.W 9 (.struct 1) = .ok (.struct 0, [⟨noNames, [⟨b! "next", 0, .ptr (.struct 0) (.struct 1) ⟨[], b! "Next"⟩⟩, ⟨b! "n", 1, .int .int (.int .int) ⟨[], b! "N"⟩⟩]⟩]) := by rfl
example : decodeWith Demo.W (.struct 0) [⟨noNames, [⟨b! "next", 0, .ptr (.struct 0) (.struct 1) ⟨[], b! "Next"⟩⟩, ⟨b! "n", 1, .int .int (.int .int) ⟨[], b! "N"⟩⟩]⟩]
    (b! "a:2:{s:4:\"next\";a:1:{s:1:\"n\";i:7;}s:1:\"n\";i:8;}") (Demo.structZero 1) =
    (.struct [.ptr (.struct [.ptrNil, .int 7]), .int 8], .ok ()) := by rfl

/-! ### C69 -/

/-- C69, in part: a struct type that contains no struct types but itself gets one decoder, in however many places it contains itself.
The property, one decoder for every struct type, is false: see `C69_exponential`. -/
theorem C69_partial (W : World) (t : Ty) (id : Nat) (hp : Plain W t (.struct id))
    (h : ∀ t' id', Reach W t t' → Plain W t' (.struct id') → t' = t) (fuel : Nat) (d : Dec) (H : List StructObj)
    (hg : getDecoder W fuel t = .ok (d, H)) : d = .struct 0 ∧ H.length = 1 :=
  one_decoder hp h hg

/-- The list type of the demo world contains no other struct. -/
theorem demo_list_alone : ∀ t', Reach Demo.W (.struct 1) t' → t' = .struct 1 ∨ t' = .ptr (.struct 1) ∨ t' = .int .int := by
  intro t' h
  induction h with
  | refl => exact .inl rfl
  | step _ hc ih =>
    rcases ih with rfl | rfl | rfl <;> cases hc with
    | ptr h => first | (cases h.2; done) | (cases h.2; exact .inl rfl)
    | slice h => cases h.2
    | array h => cases h.2
    | mapKey h => cases h.2
    | mapVal h => cases h.2
    | field h hf =>
      first
      | (cases h.2; done)
      | (cases h.2
         simp only [Demo.W, Demo.fields, List.mem_cons, List.not_mem_nil, or_false] at hf
         rcases hf with rfl | rfl
         · exact .inr (.inl rfl)
         · exact .inr (.inr rfl))
example : ∀ t' id', Reach Demo.W (.struct 1) t' → Plain Demo.W t' (.struct id') → t' = .struct 1 := by
  intro t' id' h hp
  rcases demo_list_alone t' h with rfl | rfl | rfl
  · rfl
  · cases hp.2
  · cases hp.2

/-- C69, what is false: struct `n` of that world is one of `n + 1` struct types in all and is written with `2 * n + 1` fields, but `2 ^ (n + 1) - 1` decoders are
made for it. -/
theorem C69_exponential (n : Nat) :
    ∃ d H, getDecoder Demo.WTwice (n + 2) (.struct n) = .ok (d, H) ∧ H.length = 2 ^ (n + 1) - 1 := by
  obtain ⟨m', h1, -, h2⟩ := twice_made n 0 noNames ⟨[], []⟩ (by simp)
  refine ⟨_, m'.heap, by unfold getDecoder; rw [show n + 2 = n + 2 + 0 by rfl, h1]; rfl, ?_⟩
  simp at h2
  omega

/-- These are all the types struct `n` of that world contains. -/
theorem C69_few_types (n : Nat) (t : Ty) (h : Reach Demo.WTwice (.struct n) t) : t = .bool ∨ ∃ i, i ≤ n ∧ t = .struct i := by
  induction h with
  | refl => exact .inr ⟨n, Nat.le_refl _, rfl⟩
  | step _ hc ih =>
    rcases ih with rfl | ⟨i, hi, rfl⟩
    · cases hc with
      | ptr h => cases h.2
      | slice h => cases h.2
      | array h => cases h.2
      | mapKey h => cases h.2
      | mapVal h => cases h.2
      | field h _ => cases h.2
    · cases hc with
      | ptr h => cases h.2
      | slice h => cases h.2
      | array h => cases h.2
      | mapKey h => cases h.2
      | mapVal h => cases h.2
      | field h hf =>
        cases h.2
        cases i with
        | zero =>
          simp only [Demo.WTwice, List.mem_singleton] at hf
          subst hf; exact .inl rfl
        | succ i =>
          simp only [Demo.WTwice, List.mem_cons, List.not_mem_nil, or_false] at hf
          exact .inr ⟨i, by omega, by rcases hf with rfl | rfl <;> rfl⟩

example : ∃ d H, getDecoder Demo.WTwice 12 (.struct 10) = .ok (d, H) ∧ H.length = 2047 := C69_exponential 10

end Verif

import Verif.Proofs.EncCount
import Verif.Proofs.Marshal
import Verif.Props.DemoEnc
import Verif.Proofs.DecTwice
/-
Prepared encoders: closures that are made once per type, refer to each other through variables that are set later, and are used for every later call (C70), and
how many of these variables there are (C71).
-/
namespace Verif
open Spec

/-- C70: encoding with the prepared encoder of a type writes exactly the text that the specification gives, for every later call, whatever the value refers to. -/
theorem C70_prepared (W : World) (cf : Nat) (t : Ty) (d : Enc) (H : List (Option EncBody)) (hg : getEncoder W cf t = .ok (d, H)) (h : Heap) (v : GV) (tx : Bytes) :
    (∃ n, ∀ cg f, n ≤ cg → n ≤ f → (encodeWith W h cg f d H Ctx.clean v).2 = .ok tx) ↔ EncC W h .typed [] [] t v tx := by
  rcases getEncoder_spec W cf t with ⟨d', H', S, s, h1, h2, h3, h4⟩ | ⟨e, h1, -⟩ | ⟨e, h1, -⟩ | ⟨h1, -⟩
  · rw [hg] at h1
    cases h1
    have key : ∀ cg f, cf ≤ cg → marshal W h cg f Ctx.clean (some (t, v)) = encodeWith W h cg f d H Ctx.clean v := by
      intro cg f hle
      rw [encodeWith_eq h3 h4]
      simp only [marshal, compileE_mono (by rw [h2]; simp) hle, h2, andThen]
    constructor
    · rintro ⟨n, hn⟩
      refine (marshalGives_ok_iff.1 ⟨by simp, max n cf, fun cg f h5 h6 => ?_⟩).2
      rw [key cg f (by omega)]
      exact hn cg f (by omega) (by omega)
    · intro he
      obtain ⟨-, n, hn⟩ := marshalGives_ok_iff.2 ⟨⟨cf, s, h2⟩, he⟩
      refine ⟨max n cf, fun cg f h5 h6 => ?_⟩
      rw [← key cg f (by omega)]
      exact hn cg f (by omega) (by omega)
  all_goals rw [hg] at h1; cases h1

/-- C70, the other outcomes: a call of `Marshal` behaves, whatever the value, as if the encoder were made and then called, and it leaves the context in the same
state. -/
theorem C70_same (W : World) (h : Heap) (cf f : Nat) (c : Ctx) (t : Ty) (v : GV) :
    marshal W h cf f c (some (t, v)) =
      match getEncoder W cf t with
      | .ok (d, H) => encodeWith W h cf f d H c v
      | .err e => (c, .err e)
      | .panic p => (c, .panic p)
      | .diverge => (c, .diverge) := by
  rcases getEncoder_spec W cf t with ⟨d, H, S, s, h1, h2, h3, h4⟩ | ⟨e, h1, h2⟩ | ⟨e, h1, h2⟩ | ⟨h1, h2⟩
  · rw [h1]
    simp only [encodeWith_eq h3 h4, marshal, h2, andThen]
  all_goals rw [h1]; simp only [marshal, h2, andThen]

/-- C70: when a type is prepared, no variable has been left empty. -/
theorem C70_set (W : World) (cf : Nat) (t : Ty) (d : Enc) (H : List (Option EncBody)) (hg : getEncoder W cf t = .ok (d, H)) : none ∉ H := by
  rcases getEncoder_spec W cf t with ⟨d', H', S, s, h1, h2, h3, h4⟩ | ⟨e, h1, -⟩ | ⟨e, h1, -⟩ | ⟨h1, -⟩
  · rw [hg] at h1
    cases h1
    intro hm
    obtain ⟨a, hl, ha⟩ := List.getElem_of_mem hm
    have hs : a < S.length := by rw [← h3.1]; exact hl
    obtain ⟨body, hb, -⟩ := h3.2 a none S[a] (by rw [List.getElem?_eq_getElem hl, ha]) (List.getElem?_eq_getElem hs)
    cases hb
  all_goals rw [hg] at h1; cases h1

/-- The list type of the demo world: one variable, which refers to itself; a list of two nodes is written with it. -/
example : getEncoder Demo.W 9 (.ptr (.struct 1)) = .ok (.check (.struct 1) (.cell 0),
    [some (.struct 2 [⟨0, b! "next", false, none, .check (.struct 1) (.cell 0)⟩, ⟨1, b! "n", false, none, .scalar (.int .int)⟩])]) := by rfl
example : encodeWith Demo.W Demo.heap 9 9 (.check (.struct 1) (.cell 0))
    [some (.struct 2 [⟨0, b! "next", false, none, .check (.struct 1) (.cell 0)⟩, ⟨1, b! "n", false, none, .scalar (.int .int)⟩])] Ctx.clean (.ptr 3000) =
    (Ctx.clean, .ok (b! "a:2:{s:4:\"next\";a:2:{s:4:\"next\";N;s:1:\"n\";i:2;}s:1:\"n\";i:1;}")) := by rfl

/-! ### C71 -/

/-- C71, in part: for a type that contains no arrays, there are at most as many variables as the type contains struct, slice and map types, one for each, however
often they are used. The property is false of types that contain arrays: see `C71_arrays`. -/
theorem C71_partial (W : World) (t : Ty) (ha : ∀ t' n e, EncReach W t t' → W.resolve t' ≠ .array n e) (cf : Nat) (d : Enc) (H : List (Option EncBody))
    (hg : getEncoder W cf t = .ok (d, H)) : ∃ S : List Ty, S.Nodup ∧ S.length = H.length ∧ ∀ u ∈ S, EncReach W t u ∧ Collected W u :=
  getEncoder_one ha hg

/-- The world of `C69_exponential` contains no arrays; 11 variables are made where the decoder makes 2047 objects. -/
theorem twice_no_arrays (n : Nat) (t : Ty) (h : EncReach Demo.WTwice (.struct n) t) : t = .bool ∨ ∃ i, t = .struct i := by
  induction h with
  | refl => exact .inr ⟨n, rfl⟩
  | step _ hc ih =>
    rcases ih with rfl | ⟨i, rfl⟩
    · cases hc with
      | ptr h => cases h
      | slice h => cases h
      | array h => cases h
      | mapVal h => cases h
      | field h _ => cases h
    · cases hc with
      | ptr h => cases h
      | slice h => cases h
      | array h => cases h
      | mapVal h => cases h
      | field h hf =>
        cases h
        cases i with
        | zero =>
          simp only [Demo.WTwice, List.mem_singleton] at hf
          subst hf; exact .inl rfl
        | succ i =>
          simp only [Demo.WTwice, List.mem_cons, List.not_mem_nil, or_false] at hf
          exact .inr ⟨i, by rcases hf with rfl | rfl <;> rfl⟩
example : ∀ t' n e, EncReach Demo.WTwice (.struct 10) t' → Demo.WTwice.resolve t' ≠ .array n e := by
  intro t' n e h
  rcases twice_no_arrays 10 t' h with rfl | ⟨i, rfl⟩ <;> simp [World.resolve]
example : ∃ d H, getEncoder Demo.WTwice 12 (.struct 10) = .ok (d, H) ∧ H.length = 11 := ⟨_, _, rfl, rfl⟩

/-- Struct 0 has a field of type struct 1 and one of type `[1]struct 1`; struct 1 has one bool. -/
def Demo.WArr : World := { Demo.W with
  fields := fun
    | 0 => [⟨[65], [], true, false, .struct 1⟩, ⟨[66], [], true, false, .array 1 (.struct 1)⟩]
    | _ => [⟨[65], [], true, false, .bool⟩] }

/-- C71, what is false: array types are prepared apart from the type that contains them (array.go:14-25), so two variables are made for struct 1, and three in all
for a type with two struct types and no slices or maps. -/
theorem C71_arrays (cf : Nat) : ∃ d b0 b1, getEncoder Demo.WArr (cf + 4) (.struct 0) = .ok (d, [some b0, some b1, some b1]) ∧
    ∀ u, EncReach Demo.WArr (.struct 0) u → Collected Demo.WArr u → u = .struct 0 ∨ u = .struct 1 := by
  refine ⟨.cell 0, .struct 2 [⟨0, [65], false, none, .cell 1⟩, ⟨1, [66], false, none, .array 1 (.cell 2)⟩],
    .struct 1 [⟨0, [65], false, none, .scalar .bool⟩], rfl, fun u hu hc => ?_⟩
  have : u = .bool ∨ u = .array 1 (.struct 1) ∨ u = .struct 0 ∨ u = .struct 1 := by
    clear hc
    induction hu with
    | refl => simp
    | step _ hc ih =>
      rcases ih with rfl | rfl | rfl | rfl
      · cases hc with
        | field h _ => cases h
        | _ h => cases h
      · cases hc with
        | field h _ => cases h
        | array h => cases h; simp
        | _ h => cases h
      all_goals
        cases hc with
        | field h hf =>
          cases h
          simp only [Demo.WArr, List.mem_cons, List.not_mem_nil, or_false] at hf
          first | (rcases hf with rfl | rfl <;> simp; done) | (subst hf; simp; done)
        | _ h => cases h
  rcases this with rfl | rfl | h | h
  · rcases hc with ⟨_, h⟩ | ⟨_, h⟩ | ⟨_, _, h⟩ <;> cases h
  · rcases hc with ⟨_, h⟩ | ⟨_, h⟩ | ⟨_, _, h⟩ <;> cases h
  · exact .inl h
  · exact .inr h

end Verif

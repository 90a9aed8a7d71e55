import Verif.Proofs.Refuse
import Verif.Props.Demo
/-
Values of the wrong kind (C67).
-/
namespace Verif
open Spec

/-- C67: wherever a value begins with a letter that the type there does not take (and is not null), the decoder for that type refuses it without having
changed the variable, whatever follows, and `refusal` says with which error. Below the nesting limit; types with their own methods decide for themselves. -/
theorem C67_anywhere (W : World) (buf : Bytes) (f : Nat) (t : Ty) (n depth : Nat) (v : Val) (hu : W.unmOf t = none) (l : List Byte)
    (ht : takes W (W.resolve t) = some l) (x : Byte) (hx : buf[n]? = some x) (hl : x ∉ l) (hN : x ≠ 78) (hd : depth < 10000) :
    decodeF W buf (f + 1) t n depth v = (v, .err (refusal W (W.resolve t) x n)) :=
  refused_at hu ht hx hl hN hd

-- the second element, seen from the decoder of the slice
example : Demo.W.unmOf .str = none ∧ takes Demo.W (Demo.W.resolve .str) = some [115] ∧ (b! "a:2:{i:0;s:1:\"x\";i:1;b:1;}")[21]? = some 98 ∧
    decodeF Demo.W (b! "a:2:{i:0;s:1:\"x\";i:1;b:1;}") 5 .str 21 1 (.str (b! "old")) = (.str (b! "old"), .err (.typeError "bool" 21)) ∧
    unmarshal Demo.W 9 (b! "a:2:{i:0;s:1:\"x\";i:1;b:1;}") (.ptr (.slice .str) .sliceNil) =
      (some (.slice [.str (b! "x")]), .err (.typeError "bool" 21)) := by
  refine ⟨rfl, rfl, rfl, rfl, by krfl⟩

/-- C67: a text that begins with such a letter is refused by `Unmarshal` with the error of `refusal`, and the variable is as it was. -/
theorem C67_refused (W : World) (fuel : Nat) (t : Ty) (x : Byte) (rest : Bytes) (v : Val) (hu : W.unmOf t = none) (l : List Byte)
    (ht : takes W (W.resolve t) = some l) (hl : x ∉ l) (hN : x ≠ 78) (hc : compileD W fuel [] t = .ok ()) :
    unmarshal W fuel (x :: rest) (.ptr t v) = (some v, .err (refusal W (W.resolve t) x 0)) := by
  rw [unmarshal_ptr (by simp)]
  unfold unmarshalInto
  rw [hc]
  simp only [onOk]
  rw [refused_at hu ht (List.getElem?_cons_zero) hl hN (by omega)]

example : takes Demo.W (.map .str .str) = some [97, 79] ∧ compileD Demo.W 9 [] (.map .str .str) = .ok () ∧
    unmarshal Demo.W 9 (b! "i:5;") (.ptr (.map .str .str) (.map [(.str [97], .str [98])])) =
      (some (.map [(.str [97], .str [98])]), .err (.unexpectedStart "map" 0 105)) := ⟨rfl, rfl, rfl⟩

/-- C67: strings and byte slices refuse booleans, numbers and floats with a type error that names what was found. Missing for the full property ("every
value of a kind that the type does not take is refused with an `UnmarshalTypeError` naming the kind found"): other types and other kinds, for which it is
false (`C67_not_type_errors`). -/
theorem C67_partial (W : World) (fuel : Nat) (t : Ty) (kind : String) (x : Byte) (hk : (x, kind) ∈ valueKind) (rest : Bytes) (v : Val) (hu : W.unmOf t = none)
    (ht : W.resolve t = .str ∨ ∃ e, W.resolve t = .slice e ∧ W.resolve e = .uint .u8) (hx : kind = "bool" ∨ kind = "number" ∨ kind = "float")
    (hc : compileD W fuel [] t = .ok ()) :
    ∃ e, unmarshal W fuel (x :: rest) (.ptr t v) = (some v, .err e) ∧ Mismatch kind 0 e := by
  have key : (x = 98 ∧ kind = "bool") ∨ (x = 105 ∧ kind = "number") ∨ (x = 100 ∧ kind = "float") := by
    simp only [valueKind, List.mem_cons, Prod.mk.injEq, List.not_mem_nil, or_false] at hk
    rcases hk with h | h | h | h | h | h
    · exact .inl h
    · exact .inr (.inl h)
    · exact .inr (.inr h)
    all_goals rcases hx with hx | hx | hx <;> exact absurd (hx.symm.trans h.2) (by decide)
  rcases ht with ht | ⟨e, ht, he⟩
  · rcases key with ⟨rfl, rfl⟩ | ⟨rfl, rfl⟩ | ⟨rfl, rfl⟩ <;>
      exact ⟨_, C67_refused W fuel t _ rest v hu [115] (by rw [ht]; rfl) (by decide) (by decide) hc, by rw [ht]; rfl⟩
  · rcases key with ⟨rfl, rfl⟩ | ⟨rfl, rfl⟩ | ⟨rfl, rfl⟩ <;>
      exact ⟨_, C67_refused W fuel t _ rest v hu [97, 115] (by rw [ht]; simp [takes, he]) (by decide) (by decide) hc,
        by rw [ht]; simp [refusal, he, Mismatch]⟩

example : ((105, "number") : Byte × String) ∈ valueKind ∧ compileD Demo.W 9 [] (.slice (.uint .u8)) = .ok () ∧
    unmarshal Demo.W 9 (b! "i:5;") (.ptr (.slice (.uint .u8)) .sliceNil) = (some .sliceNil, .err (.typeError "number" 0)) :=
  ⟨by decide, rfl, rfl⟩

/-- C67, why only in part: an integer read into a bool is reported as an unexpected end of the input, a string read into an int as a syntax error, and so is
an array read into a string (bool.go:40, context.go:295, string.go:64). The texts are well-formed. -/
theorem C67_not_type_errors :
    (∃ e, unmarshal Demo.W 1 (b! "i:1;") (.ptr .bool (.bool false)) = (some (.bool false), .err e) ∧ ∀ k n, ¬ Mismatch k n e) ∧
    (∃ e, unmarshal Demo.W 1 (b! "s:1:\"5\";") (.ptr (.int .i64) (.int 0)) = (some (.int 0), .err e) ∧ ∀ k n, ¬ Mismatch k n e) ∧
    (∃ e, unmarshal Demo.W 1 (b! "a:0:{}") (.ptr .str (.str [])) = (some (.str []), .err e) ∧ ∀ k n, ¬ Mismatch k n e) := by
  refine ⟨⟨_, rfl, ?_⟩, ⟨_, rfl, ?_⟩, ⟨_, rfl, ?_⟩⟩ <;> intro k n h <;> cases h

end Verif

import Verif.Proofs.EncCallsDet
import Verif.Proofs.EncCallsPar
import Verif.Props.DemoBoth
/-
C82: the `MarshalPHP` methods are called once for every value that has one and is encoded through its own type, in the order of the output, and what they return stands in
the output unchanged. Methods may keep state: what a call returns may depend on all calls made before.
-/
namespace Verif
open Spec Demo

/-- C82, successful calls: the value has a shape, a list of fixed texts and of values with a method (`Shape`). The calls made are those of the shape, in this order; the output
is the shape with every value replaced by what its call returned. -/
theorem C82_calls {W : World} {h : Heap} {M : MarHooks} {cf fuel : Nat} {c : CtxH} {t : Ty} {v : GV} {out : Bytes}
    (hok : (marshalH W h M cf fuel c (some (t, v))).2 = .ok out) :
    ∃ ps, Shape W h .typed [] t v ps ∧ (marshalH W h M cf fuel c (some (t, v))).1.calls = c.calls ++ callsOf ps ∧ Fills M c.calls ps out := by
  obtain ⟨cs, h1, ⟨b', ps, o, h2, ⟨h3, h4⟩, h5, h6⟩ | h2⟩ := marshalH_calls (W := W) (h := h) (M := M) (cf := cf) (f := fuel) (c := c) (t := t) (v := v)
  · rw [hok] at h2
    cases h2
    rw [List.nil_append] at h3
    exact ⟨ps, h4, by rw [h1, h5], h3 ▸ h6⟩
  · rw [hok] at h2
    exact (stops_fails h2).elim

/-- C82: the shape is determined by the value and the memory, so the calls and their order are fixed before any method has run. -/
theorem C82_determined {W : World} {h : Heap} {t : Ty} {v : GV} {ps ps' : List Piece} (h1 : Shape W h .typed [] t v ps) (h2 : Shape W h .typed [] t v ps') : ps = ps' :=
  shape_det h1 h2

/-- C82, any call of `Marshal`, also one that fails or panics: calls made before stay; every call but the last succeeded; and when the encoder goes on after the last one,
it failed for a reason of its own. -/
theorem C82_any_outcome {W : World} {h : Heap} {M : MarHooks} {cf fuel : Nat} {c : CtxH} {t : Ty} {v : GV} (hok : ∀ out, (marshalH W h M cf fuel c (some (t, v))).2 ≠ .ok out) :
    ∃ cs, (marshalH W h M cf fuel c (some (t, v))).1.calls = c.calls ++ cs ∧ Stops M c.calls cs (marshalH W h M cf fuel c (some (t, v))).2 := by
  obtain ⟨cs, h1, ⟨b', ps, o, h2, _⟩ | h2⟩ := marshalH_calls (W := W) (h := h) (M := M) (cf := cf) (f := fuel) (c := c) (t := t) (v := v)
  · exact absurd h2 (hok b')
  · exact ⟨cs, h1, h2⟩

/-- C82, methods that fail: take a value that is encoded with success if the methods are `M'`. With other methods `M` either the same calls are made with success, or the
calls are the same up to the first that fails, and `Marshal` returns the failure of this call. The texts returned by methods have no influence on what is called. -/
theorem C82_first_failure {W : World} {h : Heap} {M M' : MarHooks} {cf fuel : Nat} {c c' : CtxH} (hc : c.toCtx = c'.toCtx) {t : Ty} {v : GV} {out : Bytes}
    (hok : (marshalH W h M' cf fuel c' (some (t, v))).2 = .ok out) :
    ∃ cs cs', (marshalH W h M cf fuel c (some (t, v))).1.calls = c.calls ++ cs ∧ (marshalH W h M' cf fuel c' (some (t, v))).1.calls = c'.calls ++ cs' ∧
      ((cs = cs' ∧ ∃ out', (marshalH W h M cf fuel c (some (t, v))).2 = .ok out') ∨
        (cs <+: cs' ∧ FailedAt M c.calls cs (marshalH W h M cf fuel c (some (t, v))).2)) := by
  obtain ⟨d, d', h1, h2, h3⟩ := par_marshal (W := W) (h := h) (M := M) (M' := M') (cf := cf) (f := fuel) hc (a := some (t, v))
  refine ⟨d, d', h1, h2, ?_⟩
  rw [hok] at h3
  rcases h3 with ⟨rfl, _, h4⟩ | h3 | ⟨_, h3⟩
  · refine .inl ⟨rfl, ?_⟩
    generalize (marshalH W h M cf fuel c (some (t, v))).2 = r at h4
    cases h4 with
    | ok => exact ⟨_, rfl⟩
    | fail h4 => exact (sameFail_ok h4).elim
  · exact .inr h3
  · exact (failedAt_fails h3).elim

/-- C82: for methods that do not keep state this is the `Marshal` of the other properties. -/
theorem C82_same {W : World} {h : Heap} {M : MarHooks} (hM : NoState h M) {cf fuel : Nat} {c : CtxH} {a : Option (Ty × GV)} :
    ((marshalH W h M cf fuel c a).1.toCtx, (marshalH W h M cf fuel c a).2) = marshal W h cf fuel c.toCtx a :=
  drop_marshal hM

/-! ### Examples -/

/-- A context that nothing was done with. -/
def Demo.newH : CtxH := { seen := [], depth := 0, calls := [] }

/-- Methods that return how many calls were made before. -/
def Demo.countM : MarHooks := fun cs _ _ => .ok (b! "i:" ++ natText cs.length ++ b! ";")

/-- The same, but from the third call on they fail. -/
def Demo.tiredM : MarHooks := fun cs _ _ => if cs.length < 2 then .ok (b! "i:7;") else .err .invalidUnmarshal

/-- The values of struct 1 that have the method: field `A`, what field `P` points at and the elements of `L` (which are pointers). -/
def Demo.callsB : MarCalls := [(.named 0, .int 65), (.named 0, .int 66), (.ptr (.named 0), .ptr 1), (.ptr (.named 0), .ptr 2)]

example : marshalH Demo.WB Demo.heapB Demo.countM 9 9 Demo.newH (some (.struct 1, Demo.valB)) =
    ({ Demo.newH with calls := Demo.callsB }, .ok (b! "a:4:{s:1:\"a\";i:0;s:1:\"p\";i:1;s:1:\"l\";a:2:{i:0;i:2;i:1;i:3;}s:1:\"n\";i:3;}")) := by krfl

/-- After the failed call there are no more calls. -/
example : marshalH Demo.WB Demo.heapB Demo.tiredM 9 9 Demo.newH (some (.struct 1, Demo.valB)) =
    ({ Demo.newH with calls := Demo.callsB.take 3 }, .err .invalidUnmarshal) := by krfl

/-- A shape with its calls. -/
example : Shape Demo.WB Demo.heapB .typed [] (.slice (.ptr (.named 0))) (.slice 5 2)
    [.text (b! "a:2:{"), .text (b! "i:0;"), .call (.ptr (.named 0)) (.ptr 1), .text (b! "i:1;"), .call (.ptr (.named 0)) (.ptr 2), .text (b! "}")] := by
  obtain ⟨ps, h1, h2, h3⟩ := C82_calls (W := Demo.WB) (h := Demo.heapB) (M := Demo.countM) (cf := 9) (fuel := 9) (c := Demo.newH) (t := .slice (.ptr (.named 0)))
    (v := .slice 5 2) (out := b! "a:2:{i:0;i:0;i:1;i:1;}") (by krfl)
  have : ps = [.text (b! "a:2:{"), .text (b! "i:0;"), .call (.ptr (.named 0)) (.ptr 1), .text (b! "i:1;"), .call (.ptr (.named 0)) (.ptr 2), .text (b! "}")] := by
    refine shape_det h1 (.plain (fun hh => ?_) (by simp) rfl (.slice (e := .ptr (.named 0)) (vs := [.ptr 1, .ptr 2])
      (px := fun j => [.call (.ptr (.named 0)) (.ptr (j + 1))]) rfl rfl ?_))
    · have := marOf_iff.2 hh; simp [World.marOf] at this
    · intro i v hv
      refine .marshaler (marOf_iff.1 rfl) ?_
      match i, hv with
      | 0, hv => cases hv; exact .value (by simp) (by simp) (by simp)
      | 1, hv => cases hv; exact .value (by simp) (by simp) (by simp)
      | n + 2, hv => simp at hv
  exact this ▸ h1

example : (marshalH Demo.WB Demo.heapB Demo.countM 9 9 Demo.newH (some (.struct 1, Demo.valB))).2 =
    .ok (b! "a:4:{s:1:\"a\";i:0;s:1:\"p\";i:1;s:1:\"l\";a:2:{i:0;i:2;i:1;i:3;}s:1:\"n\";i:3;}") := by krfl

example : ∀ out, (marshalH Demo.WB Demo.heapB Demo.tiredM 9 9 Demo.newH (some (.struct 1, Demo.valB))).2 ≠ .ok out := by
  have : (marshalH Demo.WB Demo.heapB Demo.tiredM 9 9 Demo.newH (some (.struct 1, Demo.valB))).2 = .err .invalidUnmarshal := by krfl
  rw [this]
  intro out hx
  cases hx

example : NoState Demo.heapB (fun _ t v => Demo.heapB.marshal t v) := fun _ _ _ => rfl

end Verif

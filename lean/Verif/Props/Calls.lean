import Verif.Proofs.CallsUnique
import Verif.Props.Demo
/-
C81: the `UnmarshalPHP` methods are called once for every value that has one, in the order of the text, with exactly the text of the value. Methods may keep
state: what a call does may depend on all calls made before.
-/
namespace Verif
open Spec Demo

/-- C81, successful calls: the input is one document, and the calls made are those this document needs for the type, in this order; all of them succeeded. Nulls and skipped
values are not given to any method (`Handed`). -/
theorem C81_calls {W : World} {M : Hooks} {fuel : Nat} {h : Calls} {data : Bytes} {t : Ty} {v : Val} (hb : data.length < 2 ^ 63)
    (hok : (unmarshalH W M fuel h data t v).2.2 = .ok ()) :
    ∃ d cs, Lax maxDepth d ∧ d.text = data ∧ (unmarshalH W M fuel h data t v).1 = h ++ cs ∧ Handed W t d cs ∧ AllOk M h cs :=
  unmarshalH_done hb hok

/-- C81: the calls a document needs for a type are determined. -/
theorem C81_determined {W : World} {t : Ty} {d : Doc} {cs cs' : Calls} (h : Handed W t d cs) (h' : Handed W t d cs') : AlikeCalls cs cs' :=
  handed_unique h h'

/-- C81, any call of `Unmarshal`, also one that fails or panics: calls made before stay; the texts given to methods are pieces of the input, one after the other and without
overlap, each the text of one well-formed value that is not null; and nothing is called after a call that failed. -/
theorem C81_any_outcome {W : World} {M : Hooks} {fuel : Nat} {h : Calls} {data : Bytes} {t : Ty} {v : Val} (hb : data.length < 2 ^ 63) :
    ∃ cs, (unmarshalH W M fuel h data t v).1 = h ++ cs ∧ AllOk M h cs.dropLast ∧ InOrder (cs.map argOf) data ∧
      ∀ call ∈ cs, ValueText (argOf call) := by
  obtain ⟨cs, h1, h2, h3, h4⟩ := unmarshalH_fine (W := W) (M := M) (fuel := fuel) (h := h) (t := t) (v := v) hb
  exact ⟨cs, h1, h2, h3, h4⟩

/-- C81: for methods that do not keep state this is the `Unmarshal` of the other properties. -/
theorem C81_same {W : World} {M : Hooks} (hM : Plainly W M) {fuel : Nat} {h : Calls} {data : Bytes} {t : Ty} {v : Val} :
    (some (unmarshalH W M fuel h data t v).2.1, (unmarshalH W M fuel h data t v).2.2) = unmarshal W fuel data (.ptr t v) :=
  unmarshalH_same hM

/-! ### Examples -/

/-- Methods that store how many calls were made before. -/
def Demo.counting : Hooks where
  unm := fun h _ _ => .ok (.int h.length)
  dyn := fun h _ _ _ => (.int h.length, .ok ())

/-- The same, but from the third call on they fail. -/
def Demo.tired : Hooks where
  unm := fun h _ _ => if h.length < 2 then .ok (.int h.length) else .err .invalidUnmarshal
  dyn := fun h _ v _ => (v, if h.length < 2 then .ok () else .err .invalidUnmarshal)

/-- A list of values of a declared type with the method: the elements are numbered in the order of the text, the null is not given to the method. -/
example : unmarshalH Demo.W Demo.counting 9 [] (b! "a:4:{i:2;s:1:\"x\";i:0;N;i:1;b:1;i:3;a:1:{i:0;i:5;}}") (.slice (.named 0)) .sliceNil =
    ([.own 0 (b! "s:1:\"x\";"), .own 0 (b! "b:1;"), .own 0 (b! "a:1:{i:0;i:5;}")], .slice [.int 0, .int 1, .int 0, .int 2], .ok ()) := by krfl

/-- After the failed call there are no more calls. -/
example : unmarshalH Demo.W Demo.tired 9 [] (b! "a:4:{i:0;b:1;i:1;b:0;i:2;i:7;i:3;i:8;}") (.slice (.named 0)) .sliceNil =
    ([.own 0 (b! "b:1;"), .own 0 (b! "b:0;"), .own 0 (b! "i:7;")], .slice [.int 0, .int 1], .err (annotate 22 .invalidUnmarshal)) := by krfl

/-- Keys before values; the second array element is beyond the end of the array and is skipped. -/
example : unmarshalH Demo.W Demo.counting 9 [.own 0 []] (b! "a:1:{i:3;a:2:{i:0;i:4;i:1;i:5;}}") (.map (.named 0) (.array 1 (.named 0))) .mapNil =
    ([.own 0 [], .own 0 (b! "i:3;"), .own 0 (b! "i:4;")], .map [(.int 1, .arr [.int 2])], .ok ()) := by krfl

/-- The calls of the first example, read off from the document. -/
example : Handed Demo.W (.slice (.named 0)) (.arr (b! "2") [(.int (b! "1"), .str (b! "1") (b! "x")), (.int (b! "0"), .null)]) [.own 0 (b! "s:1:\"x\";")] := by
  have h1 : Handed Demo.W (.named 0) (.str (b! "1") (b! "x")) [.own 0 (b! "s:1:\"x\";")] :=
    .own (n := 1) rfl (by simp) (.str ⟨⟨by simp, by decide⟩, rfl, by decide⟩)
  exact .slice ⟨rfl, rfl⟩ (.elem (i := 1) (cs' := []) (.pos ⟨by simp, by decide⟩) (by simp) h1
    (.elem (i := 0) (cs := []) (cs' := []) (.pos ⟨by simp, by decide⟩) (by simp) .null .nil))

example : Plainly Demo.W ⟨fun _ id s => Demo.W.unmarshal id s, fun _ t v s => Demo.W.unmarshalDyn t v s⟩ := ⟨fun _ _ _ => rfl, fun _ _ _ _ => rfl⟩

example : (unmarshalH Demo.W ⟨fun _ id s => Demo.W.unmarshal id s, fun _ t v s => Demo.W.unmarshalDyn t v s⟩ 9 [] (b! "a:1:{i:0;b:1;}") (.slice (.named 0)) .sliceNil).2.1 =
    .slice [.int 4] := by krfl

end Verif

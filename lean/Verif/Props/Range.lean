import Verif.Proofs.Range
import Verif.Spec.Order
import Verif.Props.Tell
import Verif.Props.Trip
import Verif.Props.Output
/-
Which texts `Marshal` can write (C85).
-/
namespace Verif
open Spec

/-- C85: the texts that `Marshal` returns for arguments without MarshalPHP methods are exactly the texts of `Writable` documents: null, booleans, integers of
64 bits, floats, strings, and arrays of such values with distinct keys that are all strings or all integers. (The arguments are as Go has them: integers in range,
map keys distinct, the same entries in every iteration over a map; and no struct has two fields with one key. Texts of 2^63 bytes do not exist.) -/
theorem C85_range (W : World) (hf : FloatTextsOk W) (tx : Bytes) (hl : tx.length < 2 ^ 63) :
    (∃ h x, Reordered h h ∧ (∀ t v, x = some (t, v) → ∀ t' v', Within W h t v t' v' → Sound W h t' v') ∧ MarshalGives W h x (.ok tx)) ↔
      ∃ d, Writable W d ∧ tx = d.text := by
  constructor
  · rintro ⟨h, x, -, hs, hm⟩
    cases x with
    | none => cases (C07_nil W h).unique hm; exact ⟨.null, .null, rfl⟩
    | some x =>
      obtain ⟨d, rfl, hd⟩ := encG_writable (marshalGives_ok_iff.1 hm).2 (hs x.1 x.2 rfl)
      exact ⟨d, hd hl, rfl⟩
  · rintro ⟨d, hd, rfl⟩
    exact ⟨rangeHeap W d, some (.ptr .any, .ptr 1), ⟨rfl, rfl, fun _ _ _ _ _ => .refl _⟩, fun t v hx t' v' hw => by cases hx; exact range_sound hf ⟨hd, hl⟩ hw,
      range_written hf ⟨hd, hl⟩⟩

namespace Demo

/-- `a:2:{i:-5;a:1:{s:1:"a";N;}i:7;i:18446744073709551615;}` -/
def nested : Doc := .arr (b! "2") [(.int (b! "-5"), .arr (b! "1") [(.str (b! "1") (b! "a"), .null)]), (.int (b! "7"), .int (b! "18446744073709551615"))]

theorem nested_writable : Writable WC nested := by
  refine .arr (es := [(.int (b! "-5"), .arr (b! "1") [(.str (b! "1") (b! "a"), .null)]), (.int (b! "7"), .int (b! "18446744073709551615"))]) (.int ?_) (by simp) ?_
  · simp only [List.mem_cons, List.not_mem_nil, or_false]
    rintro e (rfl | rfl)
    · exact ⟨-5, rfl, by omega, by omega⟩
    · exact ⟨7, rfl, by omega, by omega⟩
  · simp only [List.mem_cons, List.not_mem_nil, or_false]
    rintro e (rfl | rfl)
    · refine .arr (es := [(.str (b! "1") (b! "a"), .null)]) (.str ?_) (by simp) ?_
      · simp only [List.mem_cons, List.not_mem_nil, or_false]
        rintro e rfl
        exact ⟨b! "a", rfl⟩
      · simp only [List.mem_cons, List.not_mem_nil, or_false]
        rintro e rfl
        exact .null
    · exact .int (i := 18446744073709551615) (by omega) (by omega)

end Demo

-- from right to left: a nested array
example : FloatTextsOk Demo.WC ∧ Writable Demo.WC Demo.nested ∧ Demo.nested.text = (b! "a:2:{i:-5;a:1:{s:1:\"a\";N;}i:7;i:18446744073709551615;}") ∧
    Demo.nested.text.length < 2 ^ 63 :=
  ⟨Demo.wc_floats, Demo.nested_writable, rfl, by decide⟩

-- from left to right: a map[string]int
example : Reordered Demo.heap Demo.heap ∧ (∀ t' v', Within Demo.WC Demo.heap (.map .str (.int .int)) (.map 5000) t' v' → Sound Demo.WC Demo.heap t' v') ∧
    MarshalGives Demo.WC Demo.heap (some (.map .str (.int .int), .map 5000)) (.ok (b! "a:2:{s:1:\"l\";i:2;s:1:\"k\";i:1;}")) := by
  have hi : ∀ p x, x ∈ Demo.heap.iter .str (.int .int) p 5000 → x = (.str (b! "k"), .int 1) ∨ x = (.str (b! "l"), .int 2) := by
    intro p x hx
    cases p <;> simp only [Demo.heap, Demo.heapIter, List.mem_cons, List.not_mem_nil, or_false] at hx
    · exact hx.symm
    · exact hx
  refine ⟨Demo.heap_reordered, fun t' v' hw => ?_, marshalGives_of (cf := 9) (f := 9) (by simp) (by rfl)⟩
  cases hw with
  | refl =>
    refine ⟨rfl, trivial, fun a k e p h h' => ?_, (fun _ h => by cases h)⟩
    cases h
    cases h'
    refine ⟨?_, fun x hx => ?_⟩
    · cases p <;> simp [Demo.heap, Demo.heapIter]
    · rcases hi p x hx with rfl | rfl <;> trivial
  | step hp hw =>
    cases hp with
    | map hr hm =>
      cases hr
      have : ∃ i : Int, v' = .int i ∧ 0 ≤ i ∧ i ≤ 2 ∧ t' = .int .int := by
        rcases hi _ _ hm with h | h <;> cases h <;> cases hw with
        | refl => exact ⟨_, rfl, by omega, by omega, rfl⟩
        | step hp => cases hp
      obtain ⟨i, rfl, h1, h2, rfl⟩ := this
      refine ⟨rfl, fun k hk => ?_, (fun _ _ _ _ h => by cases h), (fun _ h => by cases h)⟩
      cases hk
      have : intMax .int = 9223372036854775807 := rfl
      unfold InRange
      omega

/-- C85: a value of PHP without objects in which the keys of each array are all strings or all integers is written for some argument. Missing, because it is
false: arrays with keys of both kinds (`C85_mixed_counterexample`). With `fun _ => True` for `KeysAlike` this would be the full statement. -/
theorem C85_writes_partial (W : World) (hf : FloatTextsOk W) (d : Doc) (hd : PhpValue W KeysAlike d) (hl : d.text.length < 2 ^ 63) :
    ∃ h x, Reordered h h ∧ (∀ t v, x = some (t, v) → ∀ t' v', Within W h t v t' v' → Sound W h t' v') ∧ MarshalGives W h x (.ok d.text) := by
  refine (C85_range W hf d.text hl).2 ⟨d, ?_, rfl⟩
  clear hl
  induction hd with
  | null => exact .null
  | bool => exact .bool
  | int h1 h2 => exact .int h1 (by omega)
  | float ho => exact .f64 ho
  | str => exact .str
  | arr _ h2 h3 _ ih => exact .arr h3 h2 ih

namespace Demo

/-- `a:1:{s:1:"a";i:5;}` -/
def single : Doc := .arr (b! "1") [(.str (b! "1") (b! "a"), .int (b! "5"))]

/-- `a:2:{i:0;N;s:1:"a";N;}` -/
def mixed : Doc := .arr (b! "2") [(.int (b! "0"), .null), (.str (b! "1") (b! "a"), .null)]

/-- `O:1:"A":0:{}` -/
def object : Doc := .obj (b! "1") (b! "A") (b! "0") []

theorem mixed_php (W : World) : PhpValue W (fun _ => True) mixed := by
  refine .arr (es := [(.int (b! "0"), .null), (.str (b! "1") (b! "a"), .null)]) ?_ (by simp) trivial ?_
  · simp only [List.mem_cons, List.not_mem_nil, or_false]
    rintro e (rfl | rfl)
    · exact .inr ⟨0, rfl, by omega, by omega⟩
    · exact .inl ⟨b! "a", rfl⟩
  · simp only [List.mem_cons, List.not_mem_nil, or_false]
    rintro e (rfl | rfl) <;> exact .null

theorem mixed_wf : Wf mixed := by
  have d1 : LenText (b! "1") 1 := ⟨by unfold IsDigits; decide, rfl, by decide⟩
  have d2 : LenText (b! "2") 2 := ⟨by unfold IsDigits; decide, rfl, by decide⟩
  have i0 : IntText (b! "0") 0 := .pos (ds := b! "0") (by unfold IsDigits; decide)
  intro _
  refine .arr d2 ?_ ?_ <;> simp only [List.mem_cons, List.not_mem_nil, or_false, Prod.mk.injEq] <;> rintro k v (⟨rfl, rfl⟩ | ⟨rfl, rfl⟩)
  · exact .int i0
  · exact .str d1
  · exact .null
  · exact .null

theorem object_wf : Wf object := fun _ =>
  .obj ⟨by unfold IsDigits; decide, rfl, by decide⟩ ⟨by unfold IsDigits; decide, rfl, by decide⟩ (by simp) (by simp)

end Demo

example : FloatTextsOk Demo.WC ∧ PhpValue Demo.WC KeysAlike Demo.single ∧ Demo.single.text = (b! "a:1:{s:1:\"a\";i:5;}") ∧ Demo.single.text.length < 2 ^ 63 := by
  refine ⟨Demo.wc_floats, .arr (es := [(.str (b! "1") (b! "a"), .int (b! "5"))]) ?_ (by simp) (.str ?_) ?_, rfl, by decide⟩ <;>
    simp only [List.mem_cons, List.not_mem_nil, or_false] <;> rintro e rfl
  · exact .inl ⟨b! "a", rfl⟩
  · exact ⟨b! "a", rfl⟩
  · exact .int (i := 5) (by omega) (by omega)

/-- C85 is false of arrays with keys of both kinds: `a:2:{i:0;N;s:1:"a";N;}` is an array of PHP, but no argument without methods is written as that. -/
theorem C85_mixed_counterexample (W : World) (hf : FloatTextsOk W) : PhpValue W (fun _ => True) Demo.mixed ∧ Demo.mixed.text = (b! "a:2:{i:0;N;s:1:\"a\";N;}") ∧
    ¬ ∃ h x, Reordered h h ∧ (∀ t v, x = some (t, v) → ∀ t' v', Within W h t v t' v' → Sound W h t' v') ∧ MarshalGives W h x (.ok Demo.mixed.text) := by
  refine ⟨Demo.mixed_php W, rfl, fun hx => ?_⟩
  have hl : Demo.mixed.text.length < 2 ^ 63 := by decide
  obtain ⟨d, hd, he⟩ := (C85_range W hf _ hl).1 hx
  have := wf_unique Demo.mixed_wf (wf_writable hf hd) he hl
  subst this
  generalize hm : Demo.mixed = d at hd
  cases hd with
  | arr hk =>
    have h2 := (Doc.arr.inj hm).2
    subst h2
    cases hk with
    | str h => obtain ⟨s, hs⟩ := h _ List.mem_cons_self; cases hs
    | int h => obtain ⟨s, hs, -⟩ := h _ (List.mem_cons_of_mem _ List.mem_cons_self); cases hs
    | uint h => obtain ⟨s, hs, -⟩ := h _ (List.mem_cons_of_mem _ List.mem_cons_self); cases hs
  | _ => cases hm

/-- C85: no argument without methods is written as an object. -/
theorem C85_object_counterexample (W : World) (hf : FloatTextsOk W) : Demo.object.text = (b! "O:1:\"A\":0:{}") ∧ Strict 1 Demo.object ∧
    ¬ ∃ h x, Reordered h h ∧ (∀ t v, x = some (t, v) → ∀ t' v', Within W h t v t' v' → Sound W h t' v') ∧ MarshalGives W h x (.ok Demo.object.text) := by
  have hl : Demo.object.text.length < 2 ^ 63 := by decide
  refine ⟨rfl, Demo.object_wf hl, fun hx => ?_⟩
  obtain ⟨d, hd, he⟩ := (C85_range W hf _ hl).1 hx
  have := wf_unique Demo.object_wf (wf_writable hf hd) he hl
  subst this
  generalize hm : Demo.object = d at hd
  cases hd <;> cases hm

end Verif

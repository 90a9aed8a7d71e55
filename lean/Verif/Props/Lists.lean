import Verif.Proofs.Lists
import Verif.Props.Containers
/-
Lists read into slices, arrays and maps: C75.
-/
namespace Verif
open Spec Demo

/-- C75: a list is read alike into a slice, an array, a map and an interface. If decoding into a variable of one of these types succeeds, then so does decoding
into any other that compiles and can hold the list. Both have the same one value at each index of the list, and at other places nothing but zero values. -/
theorem C75 (W : World) (e : Ty) (cnt : Bytes) (es : List (Doc × Doc)) (is : List Nat) (hp : PlainList W e cnt es is) (fuel n : Nat)
    (hl : Lax n (.arr cnt es)) (hb : (Doc.arr cnt es).text.length < 2 ^ 63) (t t' : Ty) (old old' : Val) (ht : HoldsList W e is t old) (ht' : HoldsList W e is t' old')
    (hc : compileD W fuel [] t' = .ok ()) (v : Val) (h : unmarshal W fuel (Doc.arr cnt es).text (.ptr t old) = (some v, .ok ())) :
    ∃ v', unmarshal W fuel (Doc.arr cnt es).text (.ptr t' old') = (some v', .ok ()) ∧
      (∀ i ∈ is, ∃ x, ∀ y, (HasAt v i y ↔ y = x) ∧ (HasAt v' i y ↔ y = x)) ∧
      ∀ i, i ∉ is → ∀ x, HasAt v i x ∨ HasAt v' i x → x = W.zero e := by
  obtain ⟨-, h⟩ := (unmarshal_text_iff hb hl).1 h
  obtain ⟨r, h1, h2⟩ := list_down hp ht h
  obtain ⟨v', h', h2'⟩ := list_up hp ht' h1
  have hk := entries_keys h1 hp.keys
  refine ⟨v', (unmarshal_text_iff hb hl).2 ⟨hc, h'⟩, fun i hi => ?_, fun i hi x hx => ?_⟩
  · obtain ⟨⟨j, x⟩, hm, rfl⟩ := List.mem_map.1 (hk.symm ▸ hi : i ∈ r.map Prod.fst)
    have hu : ∀ y, (j, y) ∈ r ↔ y = x := fun y => ⟨fun hy => nodup_keys (hk.symm ▸ hp.differ) hy hm, fun hy => hy ▸ hm⟩
    exact ⟨x, fun y => ⟨(h2.here _ (hk.symm ▸ hi) y).trans (hu y), (h2'.here _ (hk.symm ▸ hi) y).trans (hu y)⟩⟩
  · exact hx.elim (h2.rest i (hk.symm ▸ hi) x) (h2'.rest i (hk.symm ▸ hi) x)

/-- A list as PHP writes one, with a gap, as expected by a program that reads strings. -/
example : PlainList Demo.W .str (b! "2") [(.int (b! "2"), .str (b! "1") (b! "x")), (.int (b! "0"), .str (b! "2") (b! "yz"))] [2, 0] where
  keys := .cons (i := 2) (.pos ⟨by simp, by decide⟩) (.cons (i := 0) (.pos ⟨by simp, by decide⟩) .nil)
  differ := by decide
  empty := by simp
  filled := by simp
  count := ⟨2, ⟨⟨by simp, by decide⟩, rfl, by decide⟩, by decide⟩
  room := by decide

/-- The types that hold it. -/
example : HoldsList Demo.W .str [2, 0] (.slice .str) .sliceNil ∧ HoldsList Demo.W .str [2, 0] (.array 4 .str) (.arr []) ∧
    HoldsList Demo.W .str [2, 0] (.map (.int .i8) .str) .mapNil ∧ HoldsList Demo.W .str [2, 0] (.map .any .str) (.map []) :=
  ⟨.slice ⟨rfl, rfl⟩, .array (l := 4) ⟨rfl, rfl⟩ (by decide), .map (kd := .i8) ⟨rfl, rfl⟩ ⟨rfl, rfl⟩ (by simp [InRange, intMax]) .nil, .anyKeys ⟨rfl, rfl⟩ ⟨rfl, rfl⟩ .map⟩

/-- What it decodes to. -/
example : unmarshal Demo.W 9 (b! "a:2:{i:2;s:1:\"x\";i:0;s:2:\"yz\";}") (.ptr (.slice .str) .sliceNil) =
      (some (.slice [.str (b! "yz"), .str [], .str (b! "x")]), .ok ()) ∧
    unmarshal Demo.W 9 (b! "a:2:{i:2;s:1:\"x\";i:0;s:2:\"yz\";}") (.ptr (.array 4 .str) (.arr [])) =
      (some (.arr [.str (b! "yz"), .str [], .str (b! "x"), .str []]), .ok ()) ∧
    unmarshal Demo.W 9 (b! "a:2:{i:2;s:1:\"x\";i:0;s:2:\"yz\";}") (.ptr (.map (.int .i8) .str) .mapNil) =
      (some (.map [(.int 2, .str (b! "x")), (.int 0, .str (b! "yz"))]), .ok ()) ∧
    unmarshal Demo.W 9 (b! "a:2:{i:2;s:1:\"x\";i:0;s:2:\"yz\";}") (.ptr (.map .any .str) (.map [])) =
      (some (.map [(.iface (.int .i64) (.int 2), .str (b! "x")), (.iface (.int .i64) (.int 0), .str (b! "yz"))]), .ok ()) := ⟨rfl, rfl, rfl, rfl⟩

/-- A list of interfaces, held by an interface. -/
example : HoldsList Demo.W .any [1] .any .ifaceNil ∧ unmarshal Demo.W 9 (b! "a:1:{i:1;b:1;}") (.ptr .any .ifaceNil) =
      (some (.iface (.map .any .any) (.map [(.iface (.int .i64) (.int 1), .iface .bool (.bool true))])), .ok ()) ∧
    unmarshal Demo.W 9 (b! "a:1:{i:1;b:1;}") (.ptr (.slice .any) .sliceNil) = (some (.slice [.ifaceNil, .iface .bool (.bool true)]), .ok ()) :=
  ⟨.any ⟨rfl, rfl⟩ rfl, rfl, rfl⟩

/-- C75, the count has to be written as PHP writes it: maps and interfaces take a count that is not 0 for no entries, and a count that begins with zeros; slices
and arrays reject both. -/
theorem C75_counts :
    (∃ v, unmarshal Demo.W 9 (b! "a:1:{}") (.ptr (.map (.int .i64) .str) .mapNil) = (some v, .ok ())) ∧
    (∃ v, unmarshal Demo.W 9 (b! "a:1:{}") (.ptr .any .ifaceNil) = (some v, .ok ())) ∧
    (∃ v err, unmarshal Demo.W 9 (b! "a:1:{}") (.ptr (.slice .str) .sliceNil) = (v, .err err)) ∧
    (∃ v err, unmarshal Demo.W 9 (b! "a:1:{}") (.ptr (.array 1 .str) (.arr [.str []])) = (v, .err err)) ∧
    (∃ v, unmarshal Demo.W 9 (b! "a:01:{i:0;s:0:\"\";}") (.ptr (.map (.int .i64) .str) .mapNil) = (some v, .ok ())) ∧
    (∃ v, unmarshal Demo.W 9 (b! "a:01:{i:0;s:0:\"\";}") (.ptr .any .ifaceNil) = (some v, .ok ())) ∧
    (∃ v err, unmarshal Demo.W 9 (b! "a:01:{i:0;s:0:\"\";}") (.ptr (.slice .str) .sliceNil) = (v, .err err)) ∧
    (∃ v err, unmarshal Demo.W 9 (b! "a:01:{i:0;s:0:\"\";}") (.ptr (.array 1 .str) (.arr [.str []])) = (v, .err err)) :=
  ⟨⟨_, rfl⟩, ⟨_, rfl⟩, ⟨_, _, rfl⟩, ⟨_, _, rfl⟩, ⟨_, rfl⟩, ⟨_, rfl⟩, ⟨_, _, rfl⟩, ⟨_, _, rfl⟩⟩

/-- C75, the indices have to differ: of two entries at one index a slice or array overlays the second on the first, a map replaces the first. -/
theorem C75_twice :
    unmarshal Demo.W 9 (b! "a:2:{i:0;i:5;i:0;N;}") (.ptr (.slice (.int .i64)) .sliceNil) = (some (.slice [.int 5]), .ok ()) ∧
    unmarshal Demo.W 9 (b! "a:2:{i:0;i:5;i:0;N;}") (.ptr (.array 1 (.int .i64)) (.arr [.int 0])) = (some (.arr [.int 5]), .ok ()) ∧
    unmarshal Demo.W 9 (b! "a:2:{i:0;i:5;i:0;N;}") (.ptr (.map (.int .i64) (.int .i64)) .mapNil) = (some (.map [(.int 0, .int 0)]), .ok ()) :=
  ⟨rfl, rfl, rfl⟩

/-- C75, keys have to be integers: maps with string keys, and structs, take null as the empty string. -/
theorem C75_nullKey :
    unmarshal Demo.W 9 (b! "a:1:{N;i:5;}") (.ptr (.map .str (.int .i64)) .mapNil) = (some (.map [(.str [], .int 5)]), .ok ()) ∧
    unmarshal Demo.W 9 (b! "a:1:{N;i:5;}") (.ptr (.struct 1) (Demo.structZero 1)) = (some (Demo.structZero 1), .ok ()) :=
  ⟨rfl, rfl⟩

/-- C75, the numbers have to have memory: an index that a map takes as it is makes a slice panic. -/
theorem C75_huge :
    (∃ v, unmarshal Demo.W 9 (b! "a:1:{i:9223372036854775806;s:0:\"\";}") (.ptr (.map (.int .i64) .str) .mapNil) = (some v, .ok ())) ∧
    (∃ v p, unmarshal Demo.W 9 (b! "a:1:{i:9223372036854775806;s:0:\"\";}") (.ptr (.slice .str) .sliceNil) = (v, .panic p)) :=
  ⟨⟨_, rfl⟩, ⟨_, _, rfl⟩⟩

end Verif

import Verif.Proofs.RoundTree
import Verif.Proofs.Order
import Verif.Props.DemoBack
import Verif.Props.Containers
/-
Composite values survive a round trip (C06), whatever order maps are iterated in (C32), and so do fields with the option
`string` (C25). `Unmarshal` reads into a zero variable of the same type.
-/
namespace Verif
open Spec

/-- C06: types built from bools, integers, floats, strings, pointers, slices, arrays, maps and structs, declared or not, recursive
or not, without Marshaler and Unmarshaler methods (`Ordinary`). If `Marshal` returns a text and the type can be prepared for
`Unmarshal`, then `Unmarshal` of the text succeeds and gives the same value (`SameVal`). Asked of the value (`Fit`): integers in range,
floats that strconv gives back, no pointer to a nil slice or map. Asked of the text: less than 2^63 bytes, nested at most
10000 levels deep where null counts as a level.
Missing, because it is false: pointers to nil slices and maps come back nil (`C06_nil_pointee_counterexample`); negative zeros with
omitempty and fields tagged `-,…` come back as zero (`C06_negative_zero_counterexample`, `C06_dash_counterexample`; `SameVal` only promises zero
for fields that are not written); some float32 are rounded twice (`C05_float32_counterexample`); some types are accepted by `Marshal` only
(`C06_rejected_counterexample`); a null inside 10000 containers (`C06_depth_counterexample`). -/
theorem C06_roundtrip_partial (W : World) (h : Heap) (hz : ZeroOk W) (hc : Convert32 W) (t : Ty) (v : GV)
    (hty : ∀ t', Uses W t t' → Ordinary W t') (hfit : ∀ t' v', Within W h t v t' v' → Fit W h t' v')
    (tx : Bytes) (hm : MarshalGives W h (some (t, v)) (.ok tx)) (hl : tx.length < 2 ^ 63)
    (hd : ∃ d m, tx = d.text ∧ Lax m d ∧ Levels 10000 d) (fuel : Nat) (hcomp : compileD W fuel [] t = .ok ()) :
    ∃ v', SameVal W h t v v' ∧ unmarshal W fuel tx (.ptr t (W.zero t)) = (some v', .ok ()) := by
  exact trip hz hc (fun t' hu => .simple (simple_of_ordinary hty hu)) (methodsOk_of_ordinary hty) (fun t' v' ho _ => hfit t' v' (within_of_outside ho)) hm hl hd hcomp

-- a pointer to the struct `A int "a"`, `B string "b,omitempty"`, unexported `c`, `D int "-"`, `E *int64 "e,string"`
example : ZeroOk Demo.WC ∧ Convert32 Demo.WC ∧ (∀ t', Uses Demo.WC (.ptr (.struct 0)) t' → Ordinary Demo.WC t') ∧
    (∀ t' v', Within Demo.WC Demo.heap (.ptr (.struct 0)) (.ptr 3200) t' v' → Fit Demo.WC Demo.heap t' v') ∧
    MarshalGives Demo.WC Demo.heap (some (.ptr (.struct 0), .ptr 3200)) (.ok Demo.doc3200.text) ∧ Levels 10000 Demo.doc3200 ∧
    compileD Demo.WC 4 [] (.ptr (.struct 0)) = .ok () ∧
    unmarshal Demo.WC 4 Demo.doc3200.text (.ptr (.ptr (.struct 0)) .ptrNil) =
      (some (.ptr (.struct [.int 7, .str [], .int 0, .int 0, .ptr (.int 42)])), .ok ()) :=
  ⟨Demo.zeroOk, Demo.convert32, fun _ => Demo.ordinary0, fun _ _ => Demo.fit3200, marshalGives_of (cf := 9) (f := 9) (by simp) (by rfl),
    levels_of_depth (by decide), by rfl, by rfl⟩

/-- C06 is false for pointers to nil slices: the pointer comes back nil. -/
theorem C06_nil_pointee_counterexample :
    let h : Heap := { Demo.heap with deref := fun _ _ => .sliceNil }
    MarshalGives Demo.WC h (some (.ptr (.slice (.int .int)), .ptr 1)) (.ok (b! "N;")) ∧
    unmarshal Demo.WC 4 (b! "N;") (.ptr (.ptr (.slice (.int .int))) .ptrNil) = (some .ptrNil, .ok ()) :=
  ⟨marshalGives_of (cf := 9) (f := 9) (by simp) (by rfl), by rfl⟩

/-- C06 is false for negative zeros with omitempty: they come back as positive zeros. -/
theorem C06_negative_zero_counterexample :
    MarshalGives Demo.WC Demo.heap (some (.struct 30, .struct [.f64 0x8000000000000000])) (.ok (b! "a:0:{}")) ∧
    unmarshal Demo.WC 4 (b! "a:0:{}") (.ptr (.struct 30) (Demo.WC.zero (.struct 30))) = (some (.struct [.f64 0]), .ok ()) :=
  ⟨marshalGives_of (cf := 9) (f := 9) (by simp) (by rfl), by rfl⟩

/-- C06 is false for fields tagged `-,omitempty`: `Unmarshal` would set them from the key `-`, `Marshal` never writes them. -/
theorem C06_dash_counterexample :
    MarshalGives Demo.WC Demo.heap (some (.struct 31, .struct [.int 5])) (.ok (b! "a:0:{}")) ∧
    unmarshal Demo.WC 4 (b! "a:0:{}") (.ptr (.struct 31) (Demo.WC.zero (.struct 31))) = (some (.struct [.int 0]), .ok ()) ∧
    unmarshal Demo.WC 4 (b! "a:1:{s:1:\"-\";i:5;}") (.ptr (.struct 31) (Demo.WC.zero (.struct 31))) = (some (.struct [.int 5]), .ok ()) :=
  ⟨marshalGives_of (cf := 9) (f := 9) (by simp) (by rfl), by rfl, by rfl⟩

/-- C06 is false for structs with two fields of the same key: `Marshal` writes both, `Unmarshal` rejects the type. -/
theorem C06_rejected_counterexample :
    MarshalGives Demo.WC Demo.heap (some (.struct 33, .struct [.int 1, .int 2])) (.ok (b! "a:2:{s:1:\"x\";i:1;s:1:\"x\";i:2;}")) ∧
    ∀ fuel, 2 ≤ fuel → unmarshal Demo.WC fuel (b! "a:2:{s:1:\"x\";i:1;s:1:\"x\";i:2;}") (.ptr (.struct 33) (Demo.WC.zero (.struct 33))) =
      (some (Demo.WC.zero (.struct 33)), .err (.unsupported "duplicate keys")) := by
  refine ⟨marshalGives_of (cf := 9) (f := 9) (by simp) (by rfl), fun fuel hf => ?_⟩
  obtain ⟨g, rfl⟩ : ∃ g, fuel = g + 2 := ⟨fuel - 2, by omega⟩
  rfl

/-- C06 is false for a null inside 10000 containers: the text nests 10000 levels deep, not more, but is rejected. -/
theorem C06_depth_counterexample :
    MarshalGives Demo.WC Demo.heap (some (Demo.nestTy 10000, Demo.nestVal 10000)) (.ok (Demo.nestDoc 10000).text) ∧
    (Demo.nestDoc 10000).depth = 10000 ∧ compileD Demo.WC 10002 [] (Demo.nestTy 10000) = .ok () ∧
    ∀ fuel v v', unmarshal Demo.WC fuel (Demo.nestDoc 10000).text (.ptr (Demo.nestTy 10000) v) ≠ (some v', .ok ()) := by
  refine ⟨marshalGives_ok_iff.2 ⟨Demo.nest_compile _ _, Demo.nest_enc _ _⟩, Demo.nest_depth _, Demo.nest_compileD _, fun fuel v v' h => ?_⟩
  obtain ⟨-, d, w, -, h1, h2⟩ := (unmarshal_ok_iff (by rw [Demo.nest_length]; decide)).1 h
  have hl : Lax _ (Demo.nestDoc 10000) := Demo.nest_lax _
  rw [(lax_unique (decDoc_lax h2) hl (r1 := []) (r2 := []) (by rw [h1])).1] at h2
  exact Nat.lt_irrefl _ (Demo.nest_reject h2)

/-- C32: in whatever orders the maps inside a value are iterated (`Reordered h h'`), the texts that `Marshal` returns are read
back as the same value; only the order in which map entries are listed may differ (`Alike`). The hypotheses are those of
`C06_roundtrip_partial`. -/
theorem C32_map_order (W : World) (h h' : Heap) (ho : Reordered h h') (hz : ZeroOk W) (hc : Convert32 W) (t : Ty) (v : GV)
    (hty : ∀ t', Uses W t t' → Ordinary W t') (hfit : ∀ t' v', Within W h t v t' v' → Fit W h t' v')
    (tx tx' : Bytes) (hm : MarshalGives W h (some (t, v)) (.ok tx)) (hm' : MarshalGives W h' (some (t, v)) (.ok tx'))
    (hl : tx.length < 2 ^ 63) (hl' : tx'.length < 2 ^ 63)
    (hd : ∃ d m, tx = d.text ∧ Lax m d ∧ Levels 10000 d) (hd' : ∃ d m, tx' = d.text ∧ Lax m d ∧ Levels 10000 d)
    (fuel : Nat) (hcomp : compileD W fuel [] t = .ok ()) :
    ∃ v1 v2, unmarshal W fuel tx (.ptr t (W.zero t)) = (some v1, .ok ()) ∧ unmarshal W fuel tx' (.ptr t (W.zero t)) = (some v2, .ok ()) ∧ Alike v1 v2 := by
  obtain ⟨v1, h1, h2⟩ := C06_roundtrip_partial W h hz hc t v hty hfit tx hm hl hd fuel hcomp
  obtain ⟨v2, h3, h4⟩ := C06_roundtrip_partial W h' hz hc t v hty (fun t' v' hw => fit_reordered ho (hfit t' v' (within_reordered ho hw))) tx' hm' hl' hd' fuel hcomp
  exact ⟨v1, v2, h2, h4, alike_of_same ho h1 h3⟩

example : Reordered Demo.heap Demo.heap' ∧
    MarshalGives Demo.WC Demo.heap (some (.map .str (.int .int), .map 5000)) (.ok (b! "a:2:{s:1:\"l\";i:2;s:1:\"k\";i:1;}")) ∧
    MarshalGives Demo.WC Demo.heap' (some (.map .str (.int .int), .map 5000)) (.ok (b! "a:2:{s:1:\"k\";i:1;s:1:\"l\";i:2;}")) ∧
    compileD Demo.WC 4 [] (.map .str (.int .int)) = .ok () ∧ Fit Demo.WC Demo.heap (.map .str (.int .int)) (.map 5000) := by
  refine ⟨Demo.reordered, marshalGives_of (cf := 9) (f := 9) (by simp) (by rfl), marshalGives_of (cf := 9) (f := 9) (by simp) (by rfl), by rfl, ?_⟩
  intro k e p hr
  cases hr
  by_cases hp : p = []
  · subst hp; simp [Demo.heap, Demo.heapIter, Ranged]
  · simp [Demo.heap, Demo.heapIter, Ranged, hp]

/-- C32 for maps of any type, including types with methods and interfaces: if a text with entries `es` is read into a nil map and
no key repeats, then the text with the entries in any other order is accepted too and gives the same entries. -/
theorem C32_entry_order (W : World) (t k e : Ty) (ht : Plain W t (.map k e)) (hk : KeyType W k) (fuel n : Nat) (cnt : Bytes)
    (es es' : List (Doc × Doc)) (hp : es.Perm es') (hl : Lax n (.arr cnt es)) (hb : (Doc.arr cnt es).text.length < 2 ^ 63)
    (new : List (Val × Val)) (h : unmarshal W fuel (Doc.arr cnt es).text (.ptr t .mapNil) = (some (.map new), .ok ()))
    (hn : new.length = es.length) :
    ∃ new', unmarshal W fuel (Doc.arr cnt es').text (.ptr t .mapNil) = (some (.map new'), .ok ()) ∧ new.Perm new' := by
  have hl' : Lax n (.arr cnt es') := lax_perm hp hl
  have hb' : (Doc.arr cnt es').text.length < 2 ^ 63 := by rw [← text_perm_length hp]; exact hb
  obtain ⟨hc, h⟩ := (unmarshal_text_iff hb hl).1 h
  obtain ⟨m, l, es0, es1, hm, hcnt, hbase, h1, h2⟩ := (decDoc_map_iff ht .arr).1 h
  cases h1
  cases hbase
  obtain ⟨kvs, hkv, rfl⟩ := (decPairs_iff hk).1 h2
  obtain ⟨kvs', hkv', hpk⟩ := decoded_perm hp hkv
  have hlen : (insertAll [] kvs).length = ([] : List (Val × Val)).length + kvs.length := by rw [hkv.1]; simpa using hn
  have hnd : NoDup (insertAll [] kvs) := noDup_foldl (by simp [NoDup])
  have hk1 : insertAll [] kvs = kvs := by simpa using insertAll_full hlen
  have hk2 : insertAll [] kvs' = kvs' := by
    rw [hk1] at hnd
    simpa using insertAll_distinct (m := []) (kvs := kvs') (by
      simpa using (hpk.pairwise_iff (fun {a b} h => by
        cases h' : b.1.goEq a.1 with
        | false => rfl
        | true => rw [goEq_symm h'] at h; cases h)).1 (hnd.imp fun h => by simpa using h))
  refine ⟨kvs', (unmarshal_text_iff hb' hl').2 ⟨hc, (decDoc_map_iff ht .arr).2 ⟨m, l, [], kvs', hm, hcnt, .nil, rfl, (decPairs_iff hk).2 ⟨kvs', hkv', hk2.symm⟩⟩⟩, ?_⟩
  rw [show List.foldl (fun m p => mapInsert p.1 p.2 m) [] kvs = kvs from hk1]
  exact hpk

-- the last entry first
example : Plain Demo.WC (.map .str (.int .int)) (.map .str (.int .int)) ∧ KeyType Demo.WC .str ∧
    unmarshal Demo.WC 4 (b! "a:2:{s:1:\"l\";i:2;s:1:\"k\";i:1;}") (.ptr (.map .str (.int .int)) .mapNil) =
      (some (.map [(.str (b! "l"), .int 2), (.str (b! "k"), .int 1)]), .ok ()) ∧
    unmarshal Demo.WC 4 (b! "a:2:{s:1:\"k\";i:1;s:1:\"l\";i:2;}") (.ptr (.map .str (.int .int)) .mapNil) =
      (some (.map [(.str (b! "k"), .int 1), (.str (b! "l"), .int 2)]), .ok ()) :=
  ⟨⟨rfl, rfl⟩, .inr (.inl rfl), by rfl, by rfl⟩

end Verif

import Verif.Proofs.Trip
import Verif.Props.Composite
/-
How numbers are spelled does not matter as long as it is the usual way (C77), and what becomes of values that PHP has read and written in
between (C78).
-/
namespace Verif
open Spec

/-- C77: whatever `Unmarshal` accepts, it accepts with all integers, lengths and counts spelled the usual way (`Respelled`: no leading
zeros, no `-0`), which makes the text no longer; floats may stay as they are. The result is the same. Asked of UnmarshalPHP methods: that
they do not tell the spellings apart either (`Blind`). -/
theorem C77_usual_spelling (W : World) (t : Ty) (hb : Blind W t) (data : Bytes) (hl : data.length < 2 ^ 63) (fuel : Nat) (v v' : Val)
    (hu : unmarshal W fuel data (.ptr t v) = (some v', .ok ())) :
    ∃ d d', data = d.text ∧ Respelled W d d' ∧ d'.text.length ≤ data.length ∧ unmarshal W fuel d'.text (.ptr t v) = (some v', .ok ()) := by
  obtain ⟨hc, d, w, hw, rfl, hd⟩ := (unmarshal_ok_iff hl).1 hu
  cases hw
  obtain ⟨d', h1, h2⟩ := usual_exists (W := W) (decDoc_lax hd)
  refine ⟨d, d', rfl, h1, h2, unmarshal_doc (by omega) hc (decDoc_respelled (blind_closed hb) hd (.inl .refl) d' h1)⟩

/-- C77: the same for given documents; floats may be written in any other way that stands for the same numbers. -/
theorem C77_respelled (W : World) (t : Ty) (hb : Blind W t) (d d' : Doc) (m : Nat) (hlax : Lax m d) (hr : Respelled W d d') (hl : d.text.length < 2 ^ 63)
    (hl' : d'.text.length < 2 ^ 63) (fuel : Nat) (v v' : Val) (hu : unmarshal W fuel d.text (.ptr t v) = (some v', .ok ())) :
    unmarshal W fuel d'.text (.ptr t v) = (some v', .ok ()) := by
  obtain ⟨hc, hd⟩ := (unmarshal_text_iff hl hlax).1 hu
  exact unmarshal_doc hl' hc (decDoc_respelled (blind_closed hb) hd (.inl .refl) d' hr)

/-- The types used by `[]int`. -/
theorem Demo.usesInts {t' : Ty} (hu : Uses Demo.WC (.slice (.int .int)) t') : t' = .slice (.int .int) ∨ t' = .int .int := by
  induction hu with
  | refl => exact .inl rfl
  | step _ hn ih =>
    rcases ih with rfl | rfl
    · cases hn <;> (have hp := ‹Plain Demo.WC _ _›.2; cases hp)
      exact .inr rfl
    · exact (needs_scalar (by simp [ScalarKind, World.resolve]) hn).elim

theorem Demo.blindInts : Blind Demo.WC (.slice (.int .int)) :=
  ordinary_blind fun t' hu => by
    rcases Demo.usesInts hu with rfl | rfl <;> exact ⟨rfl, Demo.wc_mar _, by simp [World.resolve, OrdinaryKind]⟩

/-- The document `a:2:{i:0;i:007;i:01;i:-0;}` and its usual spelling. -/
def Demo.odd : Doc := .arr (b! "2") [(.int (b! "0"), .int (b! "007")), (.int (b! "01"), .int (b! "-0"))]
def Demo.usual : Doc := .arr (b! "2") [(.int (b! "0"), .int (b! "7")), (.int (b! "1"), .int (b! "0"))]

theorem Demo.odd_lax : Lax 1 Demo.odd := by
  have h1 : ∀ t ∈ [b! "0", b! "007", b! "01"], Lax 0 (.int t) := fun t ht => by
    refine .int (.pos ?_); simp only [List.mem_cons, List.not_mem_nil, or_false] at ht
    rcases ht with rfl | rfl | rfl <;> (unfold IsDigits; decide)
  refine .arr (by unfold IsDigits; decide) (fun k v hm => ?_) (fun k v hm => ?_) <;> simp at hm <;> rcases hm with ⟨rfl, rfl⟩ | ⟨rfl, rfl⟩
  · exact h1 _ (by simp)
  · exact h1 _ (by simp)
  · exact h1 _ (by simp)
  · exact .int (.neg (ds := b! "0") (by unfold IsDigits; decide))

theorem Demo.odd_usual : Respelled Demo.WC Demo.odd Demo.usual := by
  have dg : ∀ t ∈ [b! "0", b! "007", b! "01", b! "2"], IsDigits t := fun t ht => by
    simp only [List.mem_cons, List.not_mem_nil, or_false] at ht
    rcases ht with rfl | rfl | rfl | rfl <;> (unfold IsDigits; decide)
  refine .arr (dg _ (by simp)) (.cons ?_ ?_ (.cons ?_ ?_ .nil))
  · exact .int (.pos (dg (b! "0") (by simp)))
  · exact .int (.pos (dg (b! "007") (by simp)))
  · exact .int (.pos (dg (b! "01") (by simp)))
  · exact .int (.neg (dg (b! "0") (by simp)))

example : Blind Demo.WC (.slice (.int .int)) ∧ Lax 1 Demo.odd ∧ Respelled Demo.WC Demo.odd Demo.usual ∧
    unmarshal Demo.WC 4 (b! "a:2:{i:0;i:007;i:01;i:-0;}") (.ptr (.slice (.int .int)) .sliceNil) = (some (.slice [.int 7, .int 0]), .ok ()) ∧
    Demo.usual.text = b! "a:2:{i:0;i:7;i:1;i:0;}" :=
  ⟨Demo.blindInts, Demo.odd_lax, Demo.odd_usual, by krfl, by krfl⟩

/-- C77, the other way round, is false: with leading zeros some texts are refused. `a:1:{i:0;i:5;}` and `i:0;` are accepted, `a:01:{i:0;i:5;}`
is not (for slices; a count that begins with 0 must be `0`), nor is `i:-0;` (for unsigned integers). -/
theorem C77_zeros_refused :
    unmarshal Demo.WC 4 (b! "a:1:{i:0;i:5;}") (.ptr (.slice (.int .int)) .sliceNil) = (some (.slice [.int 5]), .ok ()) ∧
    (unmarshal Demo.WC 4 (b! "a:01:{i:0;i:5;}") (.ptr (.slice (.int .int)) .sliceNil)).2 ≠ .ok () ∧
    unmarshal Demo.WC 4 (b! "a:01:{i:0;i:5;}") (.ptr (.map (.int .int) (.int .int)) .mapNil) = (some (.map [(.int 0, .int 5)]), .ok ()) ∧
    unmarshal Demo.WC 4 (b! "i:0;") (.ptr (.uint .u8) (.uint 0)) = (some (.uint 0), .ok ()) ∧
    (unmarshal Demo.WC 4 (b! "i:-0;") (.ptr (.uint .u8) (.uint 0))).2 ≠ .ok () := by
  refine ⟨by krfl, by decide +kernel, by krfl, by krfl, by decide +kernel⟩

/-- C78, first half: PHP reads what `Marshal` writes, and writing it again gives a text that PHP may spell differently only in its floats:
`Trip W d d` is among the trips that are possible. Asked of the value: no Marshalers; integers fit into 64 bits with sign; no two keys of a
map or struct are the same; none of them is a string that PHP takes for an integer. -/
theorem C78_php_reads (W : World) (h : Heap) (hf : FloatTextsOk W) (t : Ty) (v : GV)
    (hk : ∀ t' v', Within W h t v t' v' → W.marOf t' = false ∧ WordKeys W h t' v' ∧ PhpFit W h t' v')
    (tx : Bytes) (hm : MarshalGives W h (some (t, v)) (.ok tx)) (hl : tx.length < 2 ^ 63) : ∃ d, tx = d.text ∧ Trip W d d := by
  obtain ⟨-, he⟩ := marshalGives_ok_iff.1 hm
  obtain ⟨d, h1, h2⟩ := encG_kept hf he hk
  exact ⟨d, h1, h2 (by rw [← h1]; exact hl)⟩

/-- C78: a value that is marshalled, read by PHP, written by PHP and unmarshalled comes back. The hypotheses are those of
`C06_roundtrip_partial`, and that no key of a map and no key of a struct field is a string that PHP takes for an integer (`WordKeys`).
Missing, because it is false: values with such keys (`C78_number_key_counterexample`, `C78_number_field_counterexample`); unsigned integers
above 2^63 - 1, which PHP does not read (`C78_uint_counterexample`: there is no `Trip`). -/
theorem C78_trip_partial (W : World) (h : Heap) (hf : FloatTextsOk W) (hz : ZeroOk W) (hc : Convert32 W) (t : Ty) (v : GV)
    (hty : ∀ t', Uses W t t' → Ordinary W t') (hfit : ∀ t' v', Within W h t v t' v' → Fit W h t' v')
    (hk : ∀ t' v', Within W h t v t' v' → WordKeys W h t' v')
    (tx : Bytes) (hm : MarshalGives W h (some (t, v)) (.ok tx)) (hl : tx.length < 2 ^ 63)
    (d d' : Doc) (m : Nat) (htx : tx = d.text) (hlax : Lax m d) (hlev : Levels 10000 d) (htrip : Trip W d d') (hl' : d'.text.length < 2 ^ 63)
    (fuel : Nat) (hcomp : compileD W fuel [] t = .ok ()) :
    ∃ v', SameVal W h t v v' ∧ unmarshal W fuel d'.text (.ptr t (W.zero t)) = (some v', .ok ()) := by
  obtain ⟨v', h1, h2⟩ := C06_roundtrip_partial W h hz hc t v hty hfit tx hm hl ⟨d, m, htx, hlax, hlev⟩ fuel hcomp
  obtain ⟨-, he⟩ := marshalGives_ok_iff.1 hm
  obtain ⟨d0, h3, h4, h5⟩ := encG_words hf he fun t' v' hw => ⟨(hty _ (within_uses hty hw .refl)).mar, hk t' v' hw⟩
  subst htx
  obtain ⟨hc', hd⟩ := (unmarshal_text_iff hl hlax).1 h2
  refine ⟨v', h1, unmarshal_doc hl' hcomp (decDoc_respelled (blind_closed (ordinary_blind hty)) hd (.inl .refl) d' (trip_respelled ?_ htrip))⟩
  have := (lax_unique hlax (lax_of_strict (h4 (by rw [← h3]; exact hl))) (r1 := []) (r2 := []) (by rw [h3])).1
  rw [this]
  exact h5

theorem not_number {c : Byte} {cs : Bytes} (h1 : ¬ IsDigit c) (h2 : c ≠ 45) : ¬ NumberKey (c :: cs) := by
  rintro ⟨i, -, h⟩
  have hi := intText_spec i
  rw [← h] at hi
  cases hi with
  | pos hd => exact h1 (hd.2 c (by simp))
  | neg _ => exact h2 rfl

theorem not_number_minus : ¬ NumberKey [45] := by
  rintro ⟨i, -, h⟩
  have hi := intText_spec i
  rw [← h] at hi
  generalize hs : [(45 : Byte)] = s at hi
  cases hi with
  | pos hd => exact absurd (hd.2 45 (by rw [← hs]; simp)) (by decide)
  | neg hd => cases hs; exact hd.1 rfl

theorem Demo.words3200 {t' : Ty} {v' : GV} (hw : Within Demo.WC Demo.heap (.ptr (.struct 0)) (.ptr 3200) t' v') : WordKeys Demo.WC Demo.heap t' v' := by
  have := Demo.within3200 hw
  simp only [List.mem_cons, Prod.mk.injEq, List.not_mem_nil, or_false] at this
  rcases this with ⟨rfl, rfl⟩ | ⟨rfl, rfl⟩ | ⟨rfl, rfl⟩ | ⟨rfl, rfl⟩ | ⟨rfl, rfl⟩ | ⟨rfl, rfl⟩
  · trivial
  · intro id f key hr hf hk
    cases hr
    have hf' : f ∈ Demo.fields 0 := hf
    simp only [Demo.fields, List.mem_cons, List.not_mem_nil, or_false] at hf'
    rw [hasKey_iff] at hk
    subst hk
    rcases hf' with rfl | rfl | rfl | rfl | rfl
    · exact not_number (c := 97) (cs := []) (by decide) (by decide)
    · exact not_number (c := 98) (cs := []) (by decide) (by decide)
    · exact not_number (c := 99) (cs := []) (by decide) (by decide)
    · exact not_number_minus
    · exact not_number (c := 101) (cs := []) (by decide) (by decide)
  · trivial
  · trivial
  · trivial
  · trivial

theorem Demo.php3200 {t' : Ty} {v' : GV} (hw : Within Demo.WC Demo.heap (.ptr (.struct 0)) (.ptr 3200) t' v') : PhpFit Demo.WC Demo.heap t' v' := by
  have := Demo.within3200 hw
  simp only [List.mem_cons, Prod.mk.injEq, List.not_mem_nil, or_false] at this
  rcases this with ⟨rfl, rfl⟩ | ⟨rfl, rfl⟩ | ⟨rfl, rfl⟩ | ⟨rfl, rfl⟩ | ⟨rfl, rfl⟩ | ⟨rfl, rfl⟩
  · trivial
  · intro id i j f g key hr hf hg _ _ hk hk' _
    cases hr
    have hf' : (Demo.fields 0)[i]? = some f := hf
    have hg' : (Demo.fields 0)[j]? = some g := hg
    rw [hasKey_iff] at hk hk'
    rw [← hk'] at hk
    have key : ∀ (i j : Fin 5), ((Demo.fields 0)[i.1]?.map fun f => (structTag Demo.WC f).key) =
        ((Demo.fields 0)[j.1]?.map fun f => (structTag Demo.WC f).key) → i = j := by decide +kernel
    have hi := (List.getElem?_eq_some_iff.1 hf').1
    have hj := (List.getElem?_eq_some_iff.1 hg').1
    exact congrArg Fin.val (key ⟨i, hi⟩ ⟨j, hj⟩ (by dsimp only; rw [hf', hg']; simp [hk]))
  · show InRange _ _; unfold InRange; decide
  · trivial
  · trivial
  · show InRange _ _; unfold InRange; decide

theorem Demo.wc_floats : FloatTextsOk Demo.WC := by
  refine ⟨fun f x => ?_, fun f x => ?_⟩ <;> constructor <;> simp only [Demo.WC, Demo.WF, Demo.W] <;> first | decide | (split <;> decide)

theorem Demo.trip3200 : Trip Demo.WC Demo.doc3200 Demo.doc3200 := by
  have d1 : LenText (b! "1") 1 := ⟨by unfold IsDigits; decide, rfl, by decide⟩
  have d2 : LenText (b! "2") 2 := ⟨by unfold IsDigits; decide, rfl, by decide⟩
  have i7 : IntText (b! "7") 7 := .pos (ds := b! "7") (by unfold IsDigits; decide)
  exact .arr d2 (.cons (.str d1 (not_number (by decide) (by decide))) (.int i7 (by unfold InRange; decide))
    (.cons (.str d1 (not_number (by decide) (by decide))) (.str d2) .nil)) (by simp)

example : FloatTextsOk Demo.WC ∧ (∀ t' v', Within Demo.WC Demo.heap (.ptr (.struct 0)) (.ptr 3200) t' v' → WordKeys Demo.WC Demo.heap t' v' ∧ PhpFit Demo.WC Demo.heap t' v') ∧
    Trip Demo.WC Demo.doc3200 Demo.doc3200 ∧ Lax 1 Demo.doc3200 ∧ Levels 10000 Demo.doc3200 :=
  ⟨Demo.wc_floats, fun _ _ hw => ⟨Demo.words3200 hw, Demo.php3200 hw⟩, Demo.trip3200, Demo.doc3200_lax, levels_of_depth (by decide)⟩

/-- C78: a key that is an integer can be stored neither in a map with string keys nor in a struct: the document is refused. -/
theorem C78_number_key_refused (W : World) (t : Ty) (ht : (∃ k e, Plain W t (.map k e) ∧ Plain W k .str) ∨ ∃ id, Plain W t (.struct id))
    (d : Doc) (m : Nat) (hlax : Lax m d) (hl : d.text.length < 2 ^ 63) (cnt : Bytes) (es : List (Doc × Doc)) (hd : Container d cnt es)
    (txt : Bytes) (x : Doc) (hk : (.int txt, x) ∈ es) (fuel : Nat) (v v' : Val) : unmarshal W fuel d.text (.ptr t v) ≠ (some v', .ok ()) := by
  intro hu
  obtain ⟨-, hdec⟩ := (unmarshal_text_iff hl hlax).1 hu
  have huniq : ∀ {c' es'}, Container d c' es' → es' = es := fun h => by cases hd <;> cases h <;> rfl
  have hfields : ∀ {id n es vs vs'}, DecFields W id n es vs vs' → (.int txt, x) ∈ es → False := by
    intro id n es
    induction es with
    | nil => intro _ _ _ h; cases h
    | cons e es ih =>
      intro vs vs' h hm
      rcases List.mem_cons.1 hm with rfl | hm'
      · cases h <;> (have hf := ‹FieldKey _ _›; cases hf)
      · cases h <;> exact ih (by assumption) hm'
  have hpairs : ∀ {k v n es m m'}, Plain W k .str → DecPairs W (.ofType k) v n es m m' → (.int txt, x) ∈ es → False := by
    intro k v n es
    induction es with
    | nil => intro _ _ _ _ h; cases h
    | cons e es ih =>
      intro m m' hp h hm
      rcases List.mem_cons.1 hm with rfl | hm'
      · cases h with
        | key _ hk _ _ _ =>
          generalize W.zero k = z at hk
          obtain ⟨p1, p2⟩ := hp
          cases hk <;> simp_all [Plain]
      · cases h <;> exact ih hp (by assumption) hm'
  rcases ht with ⟨k, e, h1, h2⟩ | ⟨id, h1⟩
  · generalize maxDepth = n at hdec
    cases hdec
    case map =>
      cases (‹Plain W t _›).2.symm.trans h1.2
      have hdp := ‹DecPairs W _ _ _ _ _ _›
      cases huniq ‹Container d _ _›
      exact hpairs h2 hdp hk
    all_goals first
      | (have hp := ‹Plain W t _›; cases hp.2.symm.trans h1.2; done)
      | (have hp := ‹W.unmOf t = _›; rw [h1.1] at hp; cases hp; done)
      | (cases hd; done)
  · generalize maxDepth = n at hdec
    cases hdec
    case struct =>
      have hdf := ‹DecFields W _ _ _ _ _›
      cases huniq ‹Container d _ _›
      exact hfields hdf hk
    case structEmpty =>
      cases huniq ‹Container d _ []›
      cases hk
    all_goals first
      | (have hp := ‹Plain W t _›; cases hp.2.symm.trans h1.2; done)
      | (have hp := ‹W.unmOf t = _›; rw [h1.1] at hp; cases hp; done)
      | (cases hd; done)

-- `a:1:{i:5;i:1;}` into a map[string]int
example : (∃ k e, Plain Demo.WC (.map .str (.int .int)) (.map k e) ∧ Plain Demo.WC k .str) ∧
    Container (.arr (b! "1") [(.int (b! "5"), .int (b! "1"))]) (b! "1") [(.int (b! "5"), .int (b! "1"))] ∧ Lax 1 (.arr (b! "1") [(.int (b! "5"), .int (b! "1"))]) := by
  refine ⟨⟨_, _, ⟨rfl, rfl⟩, rfl, rfl⟩, .arr, ?_⟩
  have i1 : ∀ t ∈ [b! "1", b! "5"], IsDigits t := fun t ht => by
    simp only [List.mem_cons, List.not_mem_nil, or_false] at ht
    rcases ht with rfl | rfl <;> (unfold IsDigits; decide)
  refine .arr (i1 _ (by simp)) (fun k v hm => ?_) (fun k v hm => ?_) <;> simp at hm <;> obtain ⟨rfl, rfl⟩ := hm
  · exact .int (.pos (i1 _ (by simp)))
  · exact .int (.pos (i1 _ (by simp)))

/-- Memory with one map, `{"5": 1}`. -/
def Demo.heap5 : Heap := { Demo.heap with iter := fun _ _ _ _ => [(.str (b! "5"), .int 1)] }

/-- What `Marshal` writes for `{"5": 1}`, and what PHP writes for it. -/
def Demo.doc5 : Doc := .arr (b! "1") [(.str (b! "1") (b! "5"), .int (b! "1"))]
def Demo.doc5' : Doc := .arr (b! "1") [(.int (b! "5"), .int (b! "1"))]

theorem Demo.trip5 (W : World) : Trip W Demo.doc5 Demo.doc5' := by
  have d1 : LenText (b! "1") 1 := ⟨by unfold IsDigits; decide, rfl, by decide⟩
  exact .arr d1 (.cons (.number (i := 5) d1 (by unfold InRange; decide)) (.int (i := 1) (.pos (ds := b! "1") d1.1) (by unfold InRange; decide)) .nil) (by simp)

/-- C78 is false for keys that are numerals: `map[string]int{"5": 1}` is written, PHP makes the key an integer, and the text is refused on the
way back. An `any` gets a key of another type: the string without PHP, an int64 with it. -/
theorem C78_number_key_counterexample :
    MarshalGives Demo.WC Demo.heap5 (some (.map .str (.int .int), .map 1)) (.ok Demo.doc5.text) ∧ Trip Demo.WC Demo.doc5 Demo.doc5' ∧
    unmarshal Demo.WC 4 Demo.doc5.text (.ptr (.map .str (.int .int)) .mapNil) = (some (.map [(.str (b! "5"), .int 1)]), .ok ()) ∧
    (∃ e, (unmarshal Demo.WC 4 Demo.doc5'.text (.ptr (.map .str (.int .int)) .mapNil)).2 = .err e) ∧
    unmarshal Demo.WC 4 Demo.doc5.text (.ptr .any .ifaceNil) =
      (some (.iface (.map .any .any) (.map [(.iface .str (.str (b! "5")), .iface (.int .i64) (.int 1))])), .ok ()) ∧
    unmarshal Demo.WC 4 Demo.doc5'.text (.ptr .any .ifaceNil) =
      (some (.iface (.map .any .any) (.map [(.iface (.int .i64) (.int 5), .iface (.int .i64) (.int 1))])), .ok ()) :=
  ⟨marshalGives_of (cf := 9) (f := 9) (by simp) (by rfl), Demo.trip5 _, by krfl, ⟨_, by rfl⟩, by krfl, by krfl⟩

/-- Struct 50: `A int "5"`. -/
def Demo.W5 : World := { Demo.WC with
  fields := fun i => if i = 50 then [⟨b! "A", b! "5", true, false, .int .int⟩] else Demo.WC.fields i
  structZero := fun i => if i = 50 then .struct [.int 0] else Demo.WC.structZero i }

/-- C78 is false for struct fields whose keys are numerals. -/
theorem C78_number_field_counterexample :
    MarshalGives Demo.W5 Demo.heap (some (.struct 50, .struct [.int 1])) (.ok Demo.doc5.text) ∧ Trip Demo.W5 Demo.doc5 Demo.doc5' ∧
    unmarshal Demo.W5 4 Demo.doc5.text (.ptr (.struct 50) (.struct [.int 0])) = (some (.struct [.int 1]), .ok ()) ∧
    ∃ e, unmarshal Demo.W5 4 Demo.doc5'.text (.ptr (.struct 50) (.struct [.int 0])) = (some (.struct [.int 0]), .err e) :=
  ⟨marshalGives_of (cf := 9) (f := 9) (by simp) (by rfl), Demo.trip5 _, by krfl, ⟨_, by rfl⟩⟩

/-- C78 is false for large unsigned integers: `Marshal` writes `uint64(1<<63)` as an integer that PHP cannot read. -/
theorem C78_uint_counterexample (W : World) (h : Heap) :
    MarshalGives W h (some (.uint .u64, .uint 9223372036854775808)) (.ok (Doc.int (b! "9223372036854775808")).text) ∧
    ¬ ∃ d', Trip W (.int (b! "9223372036854775808")) d' := by
  refine ⟨marshalGives_of (cf := 9) (f := 9) (by simp) (by rfl), ?_⟩
  rintro ⟨d', ht⟩
  cases ht with
  | int h1 h2 =>
    have := intText_unique h1 (.pos (ds := b! "9223372036854775808") (by unfold IsDigits; decide))
    subst this
    exact absurd h2 (by unfold InRange; decide)

end Verif

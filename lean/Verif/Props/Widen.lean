import Verif.Proofs.Widen
import Verif.Props.Composite
import Verif.Props.DemoWiden
/-
Destinations of wider types: what a program can change in its types and still read the same texts (C63).
-/
namespace Verif
open Spec

/-- C63: `R` relates types to wider ones: integers of a larger range (or signed instead of unsigned), float64 instead of float32, structs with more, fewer or
reordered fields, and pointers, slices, arrays, maps and structs of such; recursive types may be related too (`Widening`). If `Unmarshal` reads a text into
a variable of type `t`, it also reads it into a variable of the wider type, and the two variables then hold the same values up to the types (`Wide`), if they
did before. Asked of the text (`Suits`): if fields were dropped, the counts in it are exact; no key in it is the key of an added field; if elements of slices
grew, no length in it is too large for them. Asked of the wider type: it can be prepared. -/
theorem C63_widen (W : World) (hz : ZeroOk W) (h0 : W.toF32 0 = 0) (C : Change) (R : Ty → Ty → Prop) (hR : Widening W C R) (t t' : Ty) (ht : R t t')
    (data : Bytes) (hb : data.length < 2 ^ 63) (hs : ∃ d m, data = d.text ∧ Lax m d ∧ Suits C d) (fuel fuel' : Nat) (old old' v : Val)
    (ho : Wide W t t' old old') (h : unmarshal W fuel data (.ptr t old) = (some v, .ok ())) (hc : compileD W fuel' [] t' = .ok ()) :
    ∃ v', unmarshal W fuel' data (.ptr t' old') = (some v', .ok ()) ∧ Wide W t t' v v' := by
  obtain ⟨-, d, x, hx, hd, hdec⟩ := (unmarshal_ok_iff hb).1 h
  cases hx
  obtain ⟨d', m, hd', hlax, hs⟩ := hs
  have := (lax_unique (decDoc_lax hdec) hlax (r1 := []) (r2 := []) (by rw [← hd, ← hd'])).1
  subst this
  obtain ⟨v', h1, h2⟩ := decDoc_widen hz h0 hR hdec t' old' ht ho hs
  exact ⟨v', (unmarshal_ok_iff hb).2 ⟨hc, _, v', rfl, hd, h1⟩, h2⟩

example : ZeroOk Demo.WV ∧ Demo.WV.toF32 0 = 0 ∧ Widening Demo.WV Demo.change Demo.Rel ∧ Demo.Rel (.struct 40) (.struct 41) ∧ Lax 2 Demo.list40 ∧
    Suits Demo.change Demo.list40 ∧ Wide Demo.WV (.struct 40) (.struct 41) (Demo.WV.zero (.struct 40)) (Demo.WV.zero (.struct 41)) ∧
    unmarshal Demo.WV 9 Demo.list40.text (.ptr (.struct 40) (Demo.WV.zero (.struct 40))) =
      (some (.struct [.ptr (.struct [.ptrNil, .int 2, .bool false, .sliceNil]), .int (-5), .bool true, .slice [.uint 7, .uint 65535]]), .ok ()) ∧
    unmarshal Demo.WV 9 Demo.list40.text (.ptr (.struct 41) (Demo.WV.zero (.struct 41))) =
      (some (.struct [.slice [.int 7, .int 65535], .int (-5), .ptr (.struct [.sliceNil, .int 2, .ptrNil, .str []]), .str []]), .ok ()) ∧
    compileD Demo.WV 9 [] (.struct 41) = .ok () :=
  ⟨Demo.wv_zeroOk, rfl, Demo.widening, .list, Demo.list40_lax, Demo.list40_suits,
    wide_zero Demo.wv_zeroOk rfl Demo.widening _ _ _ (Nat.le_refl _) .list, by krfl, by krfl, by rfl⟩

/-- C63: changes that neither drop nor add fields nor let elements of slices grow ask nothing of the text. New variables of both types are meant. -/
theorem C63_widen_new (W : World) (hz : ZeroOk W) (h0 : W.toF32 0 = 0) (C : Change) (h1 : ¬ C.drops) (h2 : ∀ s, ¬ C.adds s) (h3 : C.grows = 0)
    (R : Ty → Ty → Prop) (hR : Widening W C R) (t t' : Ty) (ht : R t t') (data : Bytes) (hb : data.length < 2 ^ 63) (fuel fuel' : Nat) (v : Val)
    (h : unmarshal W fuel data (.ptr t (W.zero t)) = (some v, .ok ())) (hc : compileD W fuel' [] t' = .ok ()) :
    ∃ v', unmarshal W fuel' data (.ptr t' (W.zero t')) = (some v', .ok ()) ∧ Wide W t t' v v' := by
  obtain ⟨-, d, x, hx, hd, hdec⟩ := (unmarshal_ok_iff hb).1 h
  exact C63_widen W hz h0 C R hR t t' ht data hb ⟨d, _, hd, decDoc_lax hdec, suits_none h1 h2 h3 (decDoc_lax hdec)⟩ fuel fuel' _ _ v
    (wide_zero hz h0 hR _ t t' (Nat.le_refl _) ht) h hc

-- the changes of C63_widen_new: `[2]uint16` becomes `[2]int32`; the text has an entry too many and a wrong count
example : ¬ (⟨False, fun _ => False, 0⟩ : Change).drops ∧
    Widening Demo.WV ⟨False, fun _ => False, 0⟩ (fun t t' => (t = .array 2 (.uint .u16) ∧ t' = .array 2 (.int .i32)) ∨ (t = .uint .u16 ∧ t' = .int .i32)) ∧
    unmarshal Demo.WV 9 (b! "a:2:{i:1;i:65535;i:7;N;}") (.ptr (.array 2 (.uint .u16)) (Demo.WV.zero (.array 2 (.uint .u16)))) =
      (some (.arr [.uint 0, .uint 65535]), .ok ()) ∧
    compileD Demo.WV 9 [] (.array 2 (.int .i32)) = .ok () ∧
    unmarshal Demo.WV 9 (b! "a:2:{i:1;i:65535;i:7;N;}") (.ptr (.array 2 (.int .i32)) (Demo.WV.zero (.array 2 (.int .i32)))) =
      (some (.arr [.int 0, .int 65535]), .ok ()) := by
  refine ⟨id, ?_, by krfl, by rfl, by krfl⟩
  rintro t t' (⟨rfl, rfl⟩ | ⟨rfl, rfl⟩)
  · exact .array ⟨rfl, rfl⟩ ⟨rfl, rfl⟩ (.inr ⟨rfl, rfl⟩)
  · exact .uintInt ⟨rfl, rfl⟩ ⟨rfl, rfl⟩ (by decide)

/-- C63: a program that was given wider types reads what the old program wrote. The assumptions about the value and its type are those of C06. -/
theorem C63_upgrade (W : World) (hp : Heap) (hz : ZeroOk W) (hc : Convert32 W) (h0 : W.toF32 0 = 0) (C : Change) (R : Ty → Ty → Prop) (hR : Widening W C R) (t t' : Ty)
    (ht : R t t') (x : GV) (hty : ∀ t', Uses W t t' → Ordinary W t') (hfit : ∀ t' v', Within W hp t x t' v' → Fit W hp t' v')
    (tx : Bytes) (hm : MarshalGives W hp (some (t, x)) (.ok tx)) (hl : tx.length < 2 ^ 63)
    (hd : ∃ d m, tx = d.text ∧ Lax m d ∧ Levels 10000 d ∧ Suits C d) (fuel fuel' : Nat) (h1 : compileD W fuel [] t = .ok ())
    (h2 : compileD W fuel' [] t' = .ok ()) :
    ∃ v v', SameVal W hp t x v ∧ Wide W t t' v v' ∧ unmarshal W fuel' tx (.ptr t' (W.zero t')) = (some v', .ok ()) := by
  obtain ⟨d, m, e1, e2, e3, e4⟩ := hd
  obtain ⟨v, h3, h4⟩ := C06_roundtrip_partial W hp hz hc t x hty hfit tx hm hl ⟨d, m, e1, e2, e3⟩ fuel h1
  obtain ⟨v', h5, h6⟩ := C63_widen W hz h0 C R hR t t' ht tx hl ⟨d, m, e1, e2, e4⟩ fuel fuel' _ _ v
    (wide_zero hz h0 hR _ t t' (Nat.le_refl _) ht) h4 h2
  exact ⟨v, v', h3, h6, h5⟩

-- the same types for C63_upgrade
example : Convert32 Demo.WV ∧ (∀ t', Uses Demo.WV (.array 2 (.uint .u16)) t' → Ordinary Demo.WV t') ∧
    (∀ t' v', Within Demo.WV Demo.heap (.array 2 (.uint .u16)) (.arr [.uint 7, .uint 65535]) t' v' → Fit Demo.WV Demo.heap t' v') ∧
    MarshalGives Demo.WV Demo.heap (some (.array 2 (.uint .u16), .arr [.uint 7, .uint 65535])) (.ok (b! "a:2:{i:0;i:7;i:1;i:65535;}")) ∧
    compileD Demo.WV 9 [] (.array 2 (.uint .u16)) = .ok () ∧
    unmarshal Demo.WV 9 (b! "a:2:{i:0;i:7;i:1;i:65535;}") (.ptr (.array 2 (.int .i32)) (Demo.WV.zero (.array 2 (.int .i32)))) =
      (some (.arr [.int 7, .int 65535]), .ok ()) := by
  refine ⟨⟨rfl, rfl, by unfold NaN32; decide⟩, fun t' hu => ?_, fun t' v' hw => ?_, marshalGives_of (cf := 9) (f := 9) (by simp) (by rfl), by rfl, by krfl⟩
  · have : t' = .array 2 (.uint .u16) ∨ t' = .uint .u16 := by
      induction hu with
      | refl => exact .inl rfl
      | step _ hn ih =>
        rcases ih with rfl | rfl
        · cases hn <;> (have hp := ‹Plain Demo.WV _ _›.2; cases hp)
          exact .inr rfl
        · exact (needs_scalar (by simp [ScalarKind, World.resolve]) hn).elim
    rcases this with rfl | rfl <;> exact ⟨rfl, rfl, by simp [World.resolve, OrdinaryKind]⟩
  · cases hw with
    | refl => trivial
    | step hp hw =>
      cases hp with
      | array hr hm =>
        cases hr
        simp only [List.mem_cons, List.not_mem_nil, or_false] at hm
        rcases hm with rfl | rfl
        all_goals
          cases hw with
          | refl => intro k hk; cases hk; unfold InURange; decide
          | step hp _ => cases hp

/-- C63 needs exact counts where a field was dropped: the value of a known key may have a wrong count, the value of an unknown key may not. -/
theorem C63_drop_counterexample :
    unmarshal Demo.WV 9 (b! "a:1:{s:1:\"m\";a:7:{}}") (.ptr (.struct 42) (Demo.WV.zero (.struct 42))) = (some (.struct [.map []]), .ok ()) ∧
    (∃ v e, unmarshal Demo.WV 9 (b! "a:1:{s:1:\"m\";a:7:{}}") (.ptr (.struct 43) (Demo.WV.zero (.struct 43))) = (some v, .err e)) ∧
    unmarshal Demo.WV 9 (b! "a:1:{s:1:\"m\";a:0:{}}") (.ptr (.struct 43) (Demo.WV.zero (.struct 43))) = (some (.struct []), .ok ()) :=
  ⟨by krfl, ⟨_, _, rfl⟩, by krfl⟩

/-- C63 needs texts without the keys of added fields: what was skipped before may not fit the field. -/
theorem C63_add_counterexample :
    unmarshal Demo.WV 9 (b! "a:1:{s:1:\"m\";i:5;}") (.ptr (.struct 43) (Demo.WV.zero (.struct 43))) = (some (.struct []), .ok ()) ∧
    ∃ v e, unmarshal Demo.WV 9 (b! "a:1:{s:1:\"m\";i:5;}") (.ptr (.struct 42) (Demo.WV.zero (.struct 42))) = (some v, .err e) :=
  ⟨by krfl, ⟨_, _, rfl⟩⟩

end Verif

import Verif.Props.DemoBoth
import Verif.Props.Composite
/-
Types with methods of their own survive a round trip inside other values (C80).
-/
namespace Verif
open Spec Demo

/-- C80: as C06, and types with both MarshalPHP (value receiver) and UnmarshalPHP may occur anywhere but as map keys, in fields with the option `string`
and behind declared pointer types: in fields, behind pointers, as elements of slices and arrays, as map values. If MarshalPHP returns well-formed texts
other than null, and UnmarshalPHP makes of such a text a value that counts as the same (`M`, chosen by whoever wrote the methods), then `Unmarshal` of the
text of the whole succeeds and gives the same value, where `M` decides for values with methods. Nothing else is asked of values with methods: `Fit` is
asked of the parts outside them only.
Missing, because it is false: MarshalPHP with a pointer receiver (`C80_pointer_receiver_counterexample`), map keys (`C80_map_key_counterexample`),
the option `string` (`C80_string_counterexample`), declared pointer types (`C80_declared_pointer_counterexample`), methods that write null
(`C80_null_counterexample`), and what is missing from C06. -/
theorem C80_roundtrip_partial (W : World) (h : Heap) (M : Ty → GV → Val → Prop) (hz : ZeroOk W) (hc : Convert32 W) (t : Ty) (v : GV)
    (hty : ∀ t', Uses W t t' → WithMethods W t') (hmeth : MethodsOk W h M t v)
    (hfit : ∀ t' v', Outside W h t v t' v' → Simple W t' → Fit W h t' v')
    (tx : Bytes) (hm : MarshalGives W h (some (t, v)) (.ok tx)) (hl : tx.length < 2 ^ 63)
    (hd : ∃ d m, tx = d.text ∧ Lax m d ∧ Levels 10000 d) (fuel : Nat) (hcomp : compileD W fuel [] t = .ok ()) :
    ∃ v', SameBy W h M t v v' ∧ unmarshal W fuel tx (.ptr t (W.zero t)) = (some v', .ok ()) :=
  trip hz hc hty hmeth hfit hm hl hd hcomp

-- the struct `A T0 "a"`, `P *T0 "p"`, `L []*T0 "l"`, `N int "n"` where T0 writes and reads strings of one byte
example : ZeroOk WB ∧ Convert32 WB ∧ (∀ t', Uses WB (.struct 1) t' → WithMethods WB t') ∧ MethodsOk WB heapB sameB (.struct 1) valB ∧
    (∀ t' v', Outside WB heapB (.struct 1) valB t' v' → Simple WB t' → Fit WB heapB t' v') ∧
    MarshalGives WB heapB (some (.struct 1, valB)) (.ok docB.text) ∧ Levels 10000 docB ∧ compileD WB 4 [] (.struct 1) = .ok () ∧
    docB.text = b! "a:4:{s:1:\"a\";s:1:\"A\";s:1:\"p\";s:1:\"B\";s:1:\"l\";a:2:{i:0;s:1:\"C\";i:1;s:1:\"D\";}s:1:\"n\";i:3;}" ∧
    unmarshal WB 4 docB.text (.ptr (.struct 1) (WB.zero (.struct 1))) =
      (some (.struct [.int 65, .ptr (.int 66), .slice [.ptr (.int 67), .ptr (.int 68)], .int 3]), .ok ()) :=
  ⟨wb_zero, ⟨rfl, rfl, by unfold NaN32; decide⟩, fun _ => wb_types, wb_methods, fun _ _ h _ => wb_fit h, wb_marshal,
    levels_of_depth (by decide), by rfl, by rfl, by rfl⟩

/-- `x` is what UnmarshalPHP makes of the very bytes MarshalPHP returned for `v`. -/
def HandedOver (W : World) (h : Heap) (t : Ty) (v : GV) (x : Val) : Prop := ∃ id raw, t = .named id ∧ Marshaled W h t v raw ∧ W.unmarshal id raw = .ok x

/-- C80, methods that need not be inverse to each other: UnmarshalPHP is handed exactly the bytes MarshalPHP returned, neither more nor less, and what
it makes of them is found in the place of the value, if only it accepts them. -/
theorem C80_handover_partial (W : World) (h : Heap) (hz : ZeroOk W) (hc : Convert32 W) (t : Ty) (v : GV)
    (hty : ∀ t', Uses W t t' → WithMethods W t')
    (hwf : ∀ id v' raw, Outside W h t v (.named id) v' → Both W id → Marshaled W h (.named id) v' raw →
      (∃ d, raw = d.text ∧ d ≠ .null ∧ Strict d.depth d) ∧ ∃ x, W.unmarshal id raw = .ok x)
    (hptr : ∀ id v' raw, Outside W h t v (.ptr (.named id)) v' → Both W id → Marshaled W h (.ptr (.named id)) v' raw →
      ∃ a, v' = .ptr a ∧ Marshaled W h (.named id) (h.deref (.named id) a) raw)
    (hfit : ∀ t' v', Outside W h t v t' v' → Simple W t' → Fit W h t' v')
    (tx : Bytes) (hm : MarshalGives W h (some (t, v)) (.ok tx)) (hl : tx.length < 2 ^ 63)
    (hd : ∃ d m, tx = d.text ∧ Lax m d ∧ Levels 10000 d) (fuel : Nat) (hcomp : compileD W fuel [] t = .ok ()) :
    ∃ v', SameBy W h (HandedOver W h) t v v' ∧ unmarshal W fuel tx (.ptr t (W.zero t)) = (some v', .ok ()) := by
  refine trip hz hc hty ⟨fun id v' raw ho hb hr => ?_, hptr⟩ hfit hm hl hd hcomp
  obtain ⟨⟨d, h1, h2, h3⟩, x, h4⟩ := hwf id v' raw ho hb hr
  exact ⟨d, x, h1, h2, h3, h4, id, raw, rfl, hr, h4⟩

-- methods that are not inverse: UnmarshalPHP adds one to the byte
example :
    let W : World := { WB with unmarshal := fun _ s => match s with | [115, 58, 49, 58, 34, c, 34, 59] => .ok (.int (c.toNat + 1)) | _ => .err .invalidUnmarshal }
    (∀ id v' raw, Outside W heapB (.named 0) (.int 65) (.named id) v' → Both W id → Marshaled W heapB (.named id) v' raw →
      (∃ d, raw = d.text ∧ d ≠ .null ∧ Strict d.depth d) ∧ ∃ x, W.unmarshal id raw = .ok x) ∧
    (∀ id v', ¬ Outside W heapB (.named 0) (.int 65) (.ptr (.named id)) v') ∧
    MarshalGives W heapB (some (.named 0, .int 65)) (.ok (b! "s:1:\"A\";")) ∧
    unmarshal W 4 (b! "s:1:\"A\";") (.ptr (.named 0) (.int 0)) = (some (.int 66), .ok ()) := by
  intro W
  have no : ∀ {t' v'}, Outside W heapB (.named 0) (.int 65) t' v' → t' = .named 0 ∧ v' = .int 65 := by
    intro t' v' ho
    cases ho with
    | refl => exact ⟨rfl, rfl⟩
    | step _ hp _ => cases hp
  refine ⟨fun id v' raw ho _ hr => ?_, fun id v' ho => (by cases (no ho).1), marshalGives_of (cf := 9) (f := 9) (by simp) (by rfl), by rfl⟩
  obtain ⟨h1, rfl⟩ := no ho
  cases h1
  cases hr with
  | value _ _ _ h => cases h; exact ⟨⟨.str (b! "1") (b! "A"), rfl, by simp, .str (lenText_natText (n := 1) (by decide))⟩, _, rfl⟩

/-- C80 is false for MarshalPHP with a pointer receiver: `Marshal` of the struct `P *T1 "p"` does not call it, `Unmarshal` calls UnmarshalPHP, which refuses. -/
theorem C80_pointer_receiver_counterexample :
    (WB.named 1).mar = .pointer ∧ (WB.named 1).unm = true ∧ heapB.marshal (.ptr (.named 1)) (.ptr 0) = .ok (b! "s:1:\"B\";") ∧
    WB.unmarshal 1 (b! "s:1:\"B\";") = .ok (.int 66) ∧
    MarshalGives WB heapB (some (.struct 2, .struct [.ptr 0])) (.ok (b! "a:1:{s:1:\"p\";i:66;}")) ∧
    (unmarshal WB 4 (b! "a:1:{s:1:\"p\";i:66;}") (.ptr (.struct 2) (WB.zero (.struct 2)))).2 = .err .invalidUnmarshal :=
  ⟨rfl, rfl, rfl, rfl, marshalGives_of (cf := 9) (f := 9) (by simp) (by rfl), by rfl⟩

/-- C80 is false for map keys: `Marshal` writes them without calling MarshalPHP, `Unmarshal` calls UnmarshalPHP. -/
theorem C80_map_key_counterexample :
    Both WB 0 ∧ MarshalGives WB heapB (some (.map (.named 0) (.int .int), .map 6)) (.ok (b! "a:1:{i:65;i:1;}")) ∧
    (unmarshal WB 4 (b! "a:1:{i:65;i:1;}") (.ptr (.map (.named 0) (.int .int)) .mapNil)).2 = .err .invalidUnmarshal :=
  ⟨wb_both, marshalGives_of (cf := 9) (f := 9) (by simp) (by rfl), by rfl⟩

/-- C80 is false for the option `string`: `Marshal` writes the number as a string without calling MarshalPHP, `Unmarshal` ignores the option and calls UnmarshalPHP. -/
theorem C80_string_counterexample :
    Both WB 0 ∧ MarshalGives WB heapB (some (.struct 3, .struct [.int 65])) (.ok (b! "a:1:{s:1:\"a\";s:2:\"65\";}")) ∧
    (unmarshal WB 4 (b! "a:1:{s:1:\"a\";s:2:\"65\";}") (.ptr (.struct 3) (WB.zero (.struct 3)))).2 = .err .invalidUnmarshal :=
  ⟨wb_both, marshalGives_of (cf := 9) (f := 9) (by simp) (by rfl), by rfl⟩

/-- C80 is false for declared pointer types such as `type P *T0`, which have no methods: `Marshal` writes what they point to without calling MarshalPHP,
`Unmarshal` calls UnmarshalPHP. -/
theorem C80_declared_pointer_counterexample :
    Both WB 0 ∧ (WB.named 2).under = .ptr (.named 0) ∧ MarshalGives WB heapB (some (.slice (.named 2), .slice 9 1)) (.ok (b! "a:1:{i:0;i:69;}")) ∧
    (unmarshal WB 4 (b! "a:1:{i:0;i:69;}") (.ptr (.slice (.named 2)) .sliceNil)).2 = .err .invalidUnmarshal :=
  ⟨wb_both, rfl, marshalGives_of (cf := 9) (f := 9) (by simp) (by rfl), by rfl⟩

/-- C80 is false for methods that write null: UnmarshalPHP is not called for null, though it would accept it. -/
theorem C80_null_counterexample :
    let W : World := { WB with unmarshal := fun _ _ => .ok (.int 7) }
    let h : Heap := { heapB with marshal := fun _ _ => .ok (b! "N;") }
    Both W 0 ∧ W.unmarshal 0 (b! "N;") = .ok (.int 7) ∧ MarshalGives W h (some (.named 0, .int 7)) (.ok (b! "N;")) ∧
    unmarshal W 4 (b! "N;") (.ptr (.named 0) (.int 0)) = (some (.int 0), .ok ()) :=
  ⟨⟨rfl, rfl, rfl⟩, rfl, marshalGives_of (cf := 9) (f := 9) (by simp) (by rfl), by rfl⟩

end Verif

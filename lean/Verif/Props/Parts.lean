import Verif.Proofs.Position
import Verif.Proofs.EncFail
import Verif.Props.DemoEnc
/-
What `Marshal` writes at each place of a value: Marshalers (C24) and nil values (C39). `Steps W h .typed [] t v m p t' v'` says
that the value `v'` is a part of `v`, any number of levels deep, and how (`m`) and where (`p`) it is met. `Slots W h t v tx t' v' tx'`
says that the bytes `tx'` are at the place of `v'` in the text `tx` of `v`.
-/
namespace Verif
open Spec

/-- C39: a nil pointer, map, slice (other than `[]byte`) or interface, anywhere in the value, is written as `N;`. (Nil values of
types with a MarshalPHP method are up to that method; fields omitted because of `omitempty` are not written at all.) -/
theorem C39_nil_is_null (W : World) (h : Heap) (t : Ty) (v : GV) (tx : Bytes) (hm : MarshalGives W h (some (t, v)) (.ok tx))
    (m : Mode) (p : Path) (t' : Ty) (v' : GV) (hs : Steps W h .typed [] t v m p t' v') (hn : NilValue W t' v') (hmar : ¬ HasMarshal W t') :
    Slots W h t v tx t' v' [78, 59] := by
  obtain ⟨-, he⟩ := marshalGives_ok_iff.1 hm
  obtain ⟨st', tx', h1, h2⟩ := encG_steps he hs
  rw [← nil_text h2 hn (marOf_false_iff.2 hmar)]
  exact h1

-- a nil slice as an element
example : MarshalGives Demo.W Demo.heap (some (.slice (.slice (.int .int)), .slice 1400 2)) (.ok (b! "a:2:{i:0;N;i:1;a:2:{i:0;i:7;i:1;i:-8;}}")) ∧
    Steps Demo.W Demo.heap .typed [] (.slice (.slice (.int .int))) (.slice 1400 2) .typed [0] (.slice (.int .int)) .sliceNil ∧
    NilValue Demo.W (.slice (.int .int)) .sliceNil ∧ ¬ HasMarshal Demo.W (.slice (.int .int)) :=
  ⟨marshalGives_of (cf := 9) (f := 9) (by simp) (by rfl),
    .step (.slice (i := 0) ⟨by simp, .inr ⟨rfl, by simp⟩⟩ rfl (by simp) rfl) .refl, .slice rfl (by simp), fun h => by cases h⟩

-- a nil pointer in a field behind a pointer
example : MarshalGives Demo.W Demo.heap (some (.ptr (.struct 1), .ptr 3001)) (.ok (b! "a:2:{s:4:\"next\";N;s:1:\"n\";i:2;}")) :=
  marshalGives_of (cf := 9) (f := 9) (by simp) (by rfl)

/-- C39 at the top level: nil values of supported types are accepted. -/
theorem C39_top (W : World) (h : Heap) (t : Ty) (v : GV) (hn : NilValue W t v) (hmar : ¬ HasMarshal W t) (hs : Supported W t) :
    MarshalGives W h (some (t, v)) (.ok [78, 59]) := by
  refine marshalGives_ok_iff.2 ⟨hs, ?_⟩
  replace hmar := marOf_false_iff.2 hmar
  cases hn with
  | @ptr e hr =>
    cases hi : W.isIface e with
    | true => exact .ptrIface hmar hr hi (.heldNil (.ptrNil hr))
    | false =>
      refine .ptrNil hmar hr ?_ hi
      obtain ⟨cf, seen, hc⟩ := hs
      cases cf with
      | zero => cases hc
      | succ cf =>
        have hne : t ≠ .slice (.uint .u8) := by rintro rfl; cases hr
        simp only [compileE, hmar, hne, hr, Bool.false_eq_true, if_false] at hc
        cases hp : W.isPtr e with
        | false => rfl
        | true =>
          obtain ⟨e', hr'⟩ := isPtr_cases hp
          simp [compileEPtr, hr'] at hc
  | slice hr hb => exact .plain hmar hb (slice_not hr).1 (.sliceNil hr)
  | map hr => exact .plain hmar (by rintro rfl; cases hr) (map_not hr).1 (.mapNil hr)
  | iface hi =>
    refine .plain hmar (by rintro rfl; cases hi) ?_ (.iface hi (.heldNil (.ifaceNil hi)))
    rcases isIface_cases hi with h | ⟨i, h⟩ <;> simp [World.isPtr, h]

example : NilValue Demo.W (.map .str .any) .mapNil ∧ ¬ HasMarshal Demo.W (.map .str .any) ∧ Supported Demo.W (.map .str .any) :=
  ⟨.map rfl, (by intro h; cases h), 9, _, by rfl⟩

/-- C24, as far as it holds: if a part of the value has a type with a MarshalPHP method and is met at a place where the code looks
for it (`Honours`), then the bytes the method returned are at its place in the output, unchanged. Missing: the places where
the code does not look, see the counterexamples below. -/
theorem C24_marshaler_partial (W : World) (h : Heap) (t : Ty) (v : GV) (tx : Bytes) (hm : MarshalGives W h (some (t, v)) (.ok tx))
    (m : Mode) (p : Path) (t' : Ty) (v' : GV) (hs : Steps W h .typed [] t v m p t' v') (hmar : HasMarshal W t') (hh : Honours W m t') :
    ∃ raw, Marshaled W h t' v' raw ∧ Slots W h t v tx t' v' raw := by
  obtain ⟨-, he⟩ := marshalGives_ok_iff.1 hm
  obtain ⟨st', tx', h1, h2⟩ := encG_steps he hs
  exact ⟨tx', honours_marshaled h2 (marOf_iff.2 hmar) hh, h1⟩

/-- C24, errors: if a MarshalPHP method at such a place returns an error, and no other error stands in the way (with other answers
`m` in place of the errors `e` the value can be written), then `Marshal` returns this error. -/
theorem C24_error_partial (W : World) (h : Heap) (t : Ty) (v : GV) (e : Err) (answers : Ty → GV → Res Bytes)
    (ha : ∀ t v, h.marshal t v = .err e ∨ h.marshal t v = answers t v) (tx : Bytes)
    (hm : MarshalGives W (h.withMarshal answers) (some (t, v)) (.ok tx))
    (m : Mode) (p : Path) (t' : Ty) (v' : GV) (hs : Steps W h .typed [] t v m p t' v') (hmar : HasMarshal W t') (hh : Honours W m t')
    (herr : ∀ raw, ¬ Marshaled W h t' v' raw) : MarshalGives W h (some (t, v)) (.err e) := by
  obtain ⟨-, n, hn⟩ := hm
  have h1 := hn n n (Nat.le_refl _) (Nat.le_refl _)
  rcases marshal_fl (W := W) ha n n Ctx.clean (some (t, v)) with ⟨c, h2⟩ | h2
  · exact marshalGives_of (cf := n) (f := n) (by simp) (by rw [h2])
  · have h3 : MarshalGives W h (some (t, v)) (.ok tx) := marshalGives_of (cf := n) (f := n) (by simp) (by rw [h2]; exact h1)
    obtain ⟨raw, h4, -⟩ := C24_marshaler_partial W h t v tx h3 m p t' v' hs hmar hh
    exact absurd h4 (herr raw)

/-- Declared type 10 is an int with MarshalPHP (value receiver), type 11 is `struct 2` with MarshalPHP (pointer receiver). Struct 8 is
`P *T11 "p"`. -/
def Demo.WM : World := { Demo.W with
  fields := fun
    | 8 => [⟨b! "P", b! "p", true, false, .ptr (.named 11)⟩]
    | i => Demo.fields i
  named := fun
    | 10 => ⟨.int .int, false, .value⟩
    | 11 => ⟨.struct 2, false, .pointer⟩
    | i => Demo.named i }

/-- A memory for it: MarshalPHP of type 10 returns `b:1;`, of type 11 `b:0;`; there are slices of type 10 and of interfaces. -/
def Demo.heapM : Heap where
  deref := fun
    | .named 11, 2100 => .struct [.arr [.int 3, .int 4], .bool true]
    | _, _ => .int 0
  elems := fun
    | .named 10, 1500, 2 => [.int 7, .int 8]
    | .any, 1600, 1 => [.iface (.named 10) (.int 7)]
    | .any, 1700, 1 => [.iface (.ptr (.named 11)) (.ptr 2100)]
    | _, _, _ => []
  iter := fun _ _ _ _ => []
  marshal := fun
    | .named 10, _ => .ok (b! "b:1;")
    | .ptr (.named 11), _ => .ok (b! "b:0;")
    | _, _ => .err (.unsupported "")

-- two Marshalers in a slice
example : MarshalGives Demo.WM Demo.heapM (some (.slice (.named 10), .slice 1500 2)) (.ok (b! "a:2:{i:0;b:1;i:1;b:1;}")) ∧
    Steps Demo.WM Demo.heapM .typed [] (.slice (.named 10)) (.slice 1500 2) .typed [1] (.named 10) (.int 8) ∧
    HasMarshal Demo.WM (.named 10) ∧ Honours Demo.WM .typed (.named 10) :=
  ⟨marshalGives_of (cf := 9) (f := 9) (by simp) (by rfl),
    .step (.slice (i := 1) ⟨by simp, .inr ⟨rfl, by simp⟩⟩ rfl (by simp) rfl) .refl, .declared rfl, .inl rfl⟩

-- the second of them fails
example : let h : Heap := { Demo.heapM with marshal := fun t v => if v matches .int 8 then .err (.unsupported "mine") else Demo.heapM.marshal t v }
    (∀ t v, h.marshal t v = .err (.unsupported "mine") ∨ h.marshal t v = Demo.heapM.marshal t v) ∧
    MarshalGives Demo.WM (h.withMarshal Demo.heapM.marshal) (some (.slice (.named 10), .slice 1500 2)) (.ok (b! "a:2:{i:0;b:1;i:1;b:1;}")) ∧
    Steps Demo.WM h .typed [] (.slice (.named 10)) (.slice 1500 2) .typed [1] (.named 10) (.int 8) ∧
    (∀ raw, ¬ Marshaled Demo.WM h (.named 10) (.int 8) raw) := by
  refine ⟨fun t v => ?_, marshalGives_of (cf := 9) (f := 9) (by simp) (by rfl),
    .step (.slice (i := 1) ⟨by simp, .inr ⟨rfl, by simp⟩⟩ rfl (by simp) rfl) .refl, fun raw hr => ?_⟩
  · show (if _ then _ else _) = _ ∨ (if _ then _ else _) = _
    split
    · exact .inl rfl
    · exact .inr rfl
  · cases hr with
    | value _ _ _ h => cases h

/-- C24 is false for scalars, and for maps and slices of interfaces, held in interfaces: the method of type 10 is called for elements of
`[]T`, but not for elements of `[]any`. -/
theorem C24_any_counterexample :
    MarshalGives Demo.WM Demo.heapM (some (.slice (.named 10), .slice 1500 2)) (.ok (b! "a:2:{i:0;b:1;i:1;b:1;}")) ∧
    MarshalGives Demo.WM Demo.heapM (some (.slice .any, .slice 1600 1)) (.ok (b! "a:1:{i:0;i:7;}")) ∧
    Demo.heapM.elems .any 1600 1 = [.iface (.named 10) (.int 7)] ∧ HasMarshal Demo.WM (.named 10) :=
  ⟨marshalGives_of (cf := 9) (f := 9) (by simp) (by rfl), marshalGives_of (cf := 9) (f := 9) (by simp) (by rfl), rfl, .declared rfl⟩

/-- C24 is false for methods with pointer receivers: the method of `*T11` is called at the top level, but not for a field of this
type, nor for such a pointer in an interface. -/
theorem C24_pointer_counterexample :
    MarshalGives Demo.WM Demo.heapM (some (.ptr (.named 11), .ptr 2100)) (.ok (b! "b:0;")) ∧
    MarshalGives Demo.WM Demo.heapM (some (.struct 8, .struct [.ptr 2100])) (.ok (b! "a:1:{s:1:\"p\";a:2:{s:1:\"x\";a:2:{i:0;i:3;i:1;i:4;}s:1:\"y\";b:1;}}")) ∧
    MarshalGives Demo.WM Demo.heapM (some (.slice .any, .slice 1700 1)) (.ok (b! "a:1:{i:0;a:2:{s:1:\"x\";a:2:{i:0;i:3;i:1;i:4;}s:1:\"y\";b:1;}}")) ∧
    Demo.heapM.elems .any 1700 1 = [.iface (.ptr (.named 11)) (.ptr 2100)] ∧ HasMarshal Demo.WM (.ptr (.named 11)) :=
  ⟨marshalGives_of (cf := 9) (f := 9) (by simp) (by rfl), marshalGives_of (cf := 9) (f := 9) (by simp) (by rfl),
    marshalGives_of (cf := 9) (f := 9) (by simp) (by rfl), rfl, .ptrToPointer rfl⟩

end Verif

import Verif.Proofs.DecFacts
import Verif.Props.Demo
/-
Decoding into an `any` compared with decoding into a variable of the type that the `any` ends up holding (C58).
-/
namespace Verif
open Spec Demo

/-- The keys of the `map[any]any` made for an array are what a key of type `any` would be. -/
theorem pairs_anyKey {W : World} {v : Ty} {n : Nat} {es : List (Doc × Doc)} {m m' : List (Val × Val)}
    (h : DecPairs W .anyKey v n es m m') : DecPairs W (.ofType .any) v n es m m' := by
  generalize hk : KeyMode.anyKey = km at h
  induction es generalizing m with
  | nil => cases h; exact .nil
  | cons p es ih =>
    cases h with
    | key => cases hk
    | ptrKey => cases hk
    | anyInt hi hr hd h =>
      exact .key (.inr (.inr (.inr (.inr (.inr (.inl rfl)))))) (.anyInt ⟨rfl, rfl⟩ hi hr) hd (.iface .int) (ih h)
    | anyStr hl hd h =>
      exact .key (.inr (.inr (.inr (.inr (.inr (.inl rfl)))))) (.anyStr ⟨rfl, rfl⟩ hl) hd (.iface .str) (ih h)

/-- C58: when `Unmarshal` leaves in an `any` a value of dynamic type `dt`, then the same bytes decoded into a new variable
of type `dt` give that value. -/
theorem C58_any_typed (W : World) (data : Bytes) (hb : data.length < 2 ^ 63) (f1 f2 : Nat) (old v : Val) (dt : Ty)
    (h : unmarshal W f1 data (.ptr .any old) = (some (.iface dt v), .ok ())) :
    unmarshal W (f2 + 2) data (.ptr dt (W.zero dt)) = (some v, .ok ()) := by
  obtain ⟨-, d, v', hv, rfl, h⟩ := (unmarshal_ok_iff hb).1 h
  cases hv
  rw [unmarshal_ok_iff hb]
  generalize hn : maxDepth = n at h ⊢
  have fin : ∀ {x}, compileD W (f2 + 2) [] dt = .ok () → DecDoc W dt n d (W.zero dt) x →
      compileD W (f2 + 2) [] dt = .ok () ∧ ∃ d' v', some x = some v' ∧ d.text = d'.text ∧ DecDoc W dt n d' (W.zero dt) v' :=
    fun hc hd => ⟨hc, d, _, rfl, rfl, hd⟩
  generalize hx : Val.iface dt v = x at h
  cases h with
  | anyBool => cases hx; exact fin rfl (.bool ⟨rfl, rfl⟩)
  | anyInt _ hi hr => cases hx; exact fin rfl (.int ⟨rfl, rfl⟩ hi hr)
  | anyFloat _ h1 h2 hf => cases hx; exact fin rfl (.f64 ⟨rfl, rfl⟩ h1 h2 hf)
  | anyStr _ hl => cases hx; exact fin rfl (.str ⟨rfl, rfl⟩ hl)
  | anyArr _ hl hd => cases hx; exact fin rfl (.map ⟨rfl, rfl⟩ .arr hl .nil (pairs_anyKey hd))
  | anyObj _ hc hl hd => cases hx; exact fin rfl (.map ⟨rfl, rfl⟩ (.obj hc) hl .nil hd)
  | _ => simp_all [Plain, World.resolve, World.unmOf]

/-- The types of scalars that an `any` can hold after decoding. -/
def anyScalars : List Ty := [.bool, .int .i64, .f64, .str]

/-- C58, the other way round for scalars: what is stored, other than null, in a variable of type bool, int64, float64 or
string is also what an `any` gets. -/
theorem C58_scalar_any (W : World) (data : Bytes) (hb : data.length < 2 ^ 63) (f1 f2 : Nat) (old old' v : Val) (dt : Ty)
    (hdt : dt ∈ anyScalars) (hnull : data ≠ b! "N;")
    (h : unmarshal W f1 data (.ptr dt old) = (some v, .ok ())) :
    unmarshal W (f2 + 1) data (.ptr .any old') = (some (.iface dt v), .ok ()) := by
  obtain ⟨-, d, v', hv, rfl, h⟩ := (unmarshal_ok_iff hb).1 h
  cases hv
  have hd : d ≠ .null := by rintro rfl; exact hnull rfl
  refine (unmarshal_ok_iff hb).2 ⟨rfl, d, _, rfl, rfl, ?_⟩
  generalize hn : maxDepth = n at h ⊢
  simp only [anyScalars, List.mem_cons, List.not_mem_nil, or_false] at hdt
  rcases hdt with rfl | rfl | rfl | rfl
  · cases h with
    | bool => exact .anyBool ⟨rfl, rfl⟩
    | _ => simp_all [Plain, World.resolve, World.unmOf]
  · cases h with
    | int hp hi hr => cases hp.2; exact .anyInt ⟨rfl, rfl⟩ hi hr
    | _ => simp_all [Plain, World.resolve, World.unmOf]
  · cases h with
    | f64 _ h1 h2 hf => exact .anyFloat ⟨rfl, rfl⟩ h1 h2 hf
    | _ => simp_all [Plain, World.resolve, World.unmOf]
  · cases h with
    | str _ hl => exact .anyStr ⟨rfl, rfl⟩ hl
    | _ => simp_all [Plain, World.resolve, World.unmOf]

/-- C58, the other way round for objects: what a nil `map[string]any` gets from an object is what an `any` gets. -/
theorem C58_object_any (W : World) (data : Bytes) (hb : data.length < 2 ^ 63) (f1 f2 : Nat) (old v : Val)
    (hO : data.head? = some 79) (h : unmarshal W f1 data (.ptr (.map .str .any) .mapNil) = (some v, .ok ())) :
    unmarshal W (f2 + 1) data (.ptr .any old) = (some (.iface (.map .str .any) v), .ok ()) := by
  obtain ⟨-, d, v', hv, rfl, h⟩ := (unmarshal_ok_iff hb).1 h
  cases hv
  refine (unmarshal_ok_iff hb).2 ⟨rfl, d, _, rfl, rfl, ?_⟩
  generalize hn : maxDepth = n at h ⊢
  cases h with
  | map hp hc hl hm hd =>
    cases hp.2
    cases hm
    cases hc with
    | arr => simp [Doc.text] at hO
    | obj hcl => exact .anyObj ⟨rfl, rfl⟩ hcl hl hd
  | mapNull => simp [Doc.text] at hO
  | _ => simp_all [Plain, World.resolve, World.unmOf]

/-- An object with a nested array: the dynamic type is `map[string]any`. -/
example : unmarshal Demo.W 9 (b! "O:1:\"A\":1:{s:1:\"x\";a:1:{i:0;N;}}") (.ptr .any (.iface .bool (.bool true))) =
      (some (.iface (.map .str .any) (.map [(.str [120], .iface (.map .any .any) (.map [(.iface (.int .i64) (.int 0), .ifaceNil)]))])), .ok ()) ∧
    unmarshal Demo.W 9 (b! "O:1:\"A\":1:{s:1:\"x\";a:1:{i:0;N;}}") (.ptr (.map .str .any) .mapNil) =
      (some (.map [(.str [120], .iface (.map .any .any) (.map [(.iface (.int .i64) (.int 0), .ifaceNil)]))]), .ok ()) := by
  refine ⟨by krfl, by krfl⟩

example : Ty.int .i64 ∈ anyScalars ∧ unmarshal Demo.W 9 (b! "i:-7;") (.ptr (.int .i64) (.int 3)) = (some (.int (-7)), .ok ()) ∧
    unmarshal Demo.W 9 (b! "i:-7;") (.ptr .any .ifaceNil) = (some (.iface (.int .i64) (.int (-7))), .ok ()) :=
  ⟨by simp [anyScalars], by krfl, by krfl⟩

/-- For arrays the other way round fails: `map[any]any` has more keys than the arrays stored in an `any` may have. -/
theorem C58_array_one_way :
    (∃ v, unmarshal Demo.W 9 (b! "a:1:{b:1;N;}") (.ptr (.map .any .any) .mapNil) = (some v, .ok ())) ∧
    ∃ e, unmarshal Demo.W 9 (b! "a:1:{b:1;N;}") (.ptr .any .ifaceNil) = (some .ifaceNil, .err e) :=
  ⟨⟨_, rfl⟩, ⟨_, rfl⟩⟩

end Verif

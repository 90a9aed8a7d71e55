import Verif.Proofs.Used
import Verif.Props.Composite
import Verif.Props.Trip
import Verif.Props.DemoUsed
/-
What a variable held before it was decoded into: when that does not matter (C79).
-/
namespace Verif
open Spec Demo

/-- C79: decoding a document that replaces all that a variable holds (`Replaces`) gives, from any two values of the type, the same value,
or from neither a value. -/
theorem C79_used (W : World) (hW : WorldOk W fun _ => True) (t : Ty) (d : Doc) (n : Nat) (hl : Lax n d) (hb : d.text.length < 2 ^ 63)
    (hr : Replaces W t d) (old old' : Val) (hold : HasTy W (fun _ => True) t old) (hold' : HasTy W (fun _ => True) t old') (fuel : Nat) (v : Val) :
    unmarshal W fuel d.text (.ptr t old) = (some v, .ok ()) ↔ unmarshal W fuel d.text (.ptr t old') = (some v, .ok ()) := by
  rw [unmarshal_text_iff hb hl, unmarshal_text_iff hb hl]
  exact and_congr_right fun _ => ⟨fun h => replaces_dec (shape_zero hW) hr _ _ _ _ h (shape_of_hasTy hold) (shape_of_hasTy hold'),
    fun h => replaces_dec (shape_zero hW) hr _ _ _ _ h (shape_of_hasTy hold') (shape_of_hasTy hold)⟩

/-- The document that an array and a boolean are read from does not fill the array; what was behind is gone. -/
example : ∃ d, Replaces Demo.W (.struct 2) d ∧ Lax 2 d ∧ d.text = b! "a:2:{s:1:\"x\";a:1:{i:0;i:5;}s:1:\"y\";b:1;}" ∧
    unmarshal Demo.W 9 d.text (.ptr (.struct 2) (.struct [.arr [.int 1, .int 2], .bool false])) = (some (.struct [.arr [.int 5, .int 0], .bool true]), .ok ()) := by
  have h1 : LenText (b! "1") 1 := ⟨by unfold IsDigits; decide, rfl, by decide⟩
  have hx : FieldFor Demo.W 2 (b! "x") 0 ⟨b! "X", b! "x", true, false, .array 2 (.int .int)⟩ :=
    ⟨rfl, ⟨rfl, by simp⟩, hasKey_iff.2 (by decide), fun j g hj => absurd hj (Nat.not_lt_zero _)⟩
  have hy : FieldFor Demo.W 2 (b! "y") 1 ⟨b! "Y", b! "y", true, false, .bool⟩ := by
    refine ⟨rfl, ⟨rfl, by simp⟩, hasKey_iff.2 (by decide), fun j g hj hg _ hk => ?_⟩
    obtain rfl : j = 0 := by omega
    cases hg
    rw [hasKey_iff] at hk
    revert hk; decide
  have hs : ∀ f : Field, f.tag.length = 1 → f ∈ Demo.W.fields 2 → ¬ HasString Demo.W f := fun f _ hf ⟨k, om, h⟩ => by
    have := (tagMeaning_iff.1 h).2.2
    simp [Demo.W, Demo.fields] at hf
    rcases hf with rfl | rfl <;> revert this <;> decide
  refine ⟨.arr (b! "2") [(.str (b! "1") (b! "x"), .arr (b! "1") [(.int (b! "0"), .int (b! "5"))]), (.str (b! "1") (b! "y"), .bool true)], ?_, ?_, by rfl, by krfl⟩
  · refine .struct (id := 2) ⟨rfl, rfl⟩ .arr (fun i f hf => ?_) (fun kd dv s i f hm hk hf _ => ?_) (fun kd dv s i f hm hk hf hh => ?_)
    · rcases i with _ | _ | i
      · cases hf; exact ⟨_, _, _, .head _, .str h1, hx⟩
      · cases hf; exact ⟨_, _, _, .tail _ (.head _), .str h1, hy⟩
      · simp [Demo.W, Demo.fields] at hf
    · simp at hm
      rcases hm with ⟨rfl, rfl⟩ | ⟨rfl, rfl⟩ <;> cases hk
      · have := fieldFor_same hf hx; subst this
        cases hf.1
        exact .array (l := 2) ⟨rfl, rfl⟩ (by simp)
      · have := fieldFor_same hf hy; subst this
        cases hf.1
        exact .scalar (.inl ⟨rfl, rfl⟩) (by simp)
    · have hm' := List.mem_of_getElem? hf.1
      refine absurd hh (hs f ?_ hm')
      simp [Demo.W, Demo.fields] at hm'
      rcases hm' with rfl | rfl <;> rfl
  · refine .arr (by unfold IsDigits; decide) (fun k v hm => ?_) (fun k v hm => ?_) <;> simp at hm <;> rcases hm with ⟨rfl, rfl⟩ | ⟨rfl, rfl⟩
    · exact .str h1
    · exact .str h1
    · exact .arr h1.1 (fun k v hm => by simp at hm; rw [hm.1]; exact .int (.pos (by unfold IsDigits; decide))) (fun k v hm => by simp at hm; rw [hm.2]; exact .int (.pos (by unfold IsDigits; decide)))
    · exact .bool

/-- C79 for texts written by `Marshal` for a value of the same type. All variables that decoding writes to where they are must have types whose
values are written wholly (`Whole`); other types may be used inside slices, arrays and `any`. Methods within the value must return well-formed texts,
as in C07.
Missing, because it is false: maps (`C79_map_counterexample`), fields with `omitempty` (`C79_omitempty_counterexample`), fields that are never written,
slices of bytes with a declared type (`C79_bytes_counterexample`). Interfaces with methods cannot be decoded into, unless they hold something. -/
theorem C79_marshal_partial (W : World) (hW : WorldOk W fun _ => True) (h : Heap) (hf : FloatTextsOk W) (t : Ty) (v : GV) (tx : Bytes)
    (hm : ∀ t' v' raw, Within W h t v t' v' → W.marOf t' = true → Marshaled W h t' v' raw → ∃ d n, Strict n d ∧ raw = d.text)
    (ht : ∀ t', InPlace W t t' → Whole W t') (hmg : MarshalGives W h (some (t, v)) (.ok tx)) (hl : tx.length < 2 ^ 63)
    (old old' : Val) (hold : HasTy W (fun _ => True) t old) (hold' : HasTy W (fun _ => True) t old') (fuel : Nat) (w : Val) :
    unmarshal W fuel tx (.ptr t old) = (some w, .ok ()) ↔ unmarshal W fuel tx (.ptr t old') = (some w, .ok ()) := by
  obtain ⟨-, he⟩ := marshalGives_ok_iff.1 hmg
  obtain ⟨d, rfl, h2, h3⟩ := encG_replaces hf he fun t' v' raw a b c => by
    obtain ⟨d, n, h3, h4⟩ := hm t' v' raw a b c
    exact ⟨d, h4, fun _ => strict_of_depth h3 (Nat.le_refl _)⟩
  cases hc : compileD W fuel [] t with
  | ok _ => exact C79_used W hW t d _ (lax_of_strict (h2 hl)) hl (h3 hl fun t' ht' => ⟨ht t' ht', compileD_uses hc (uses_of_inPlace ht')⟩) old old' hold hold' fuel w
  | _ => rw [unmarshal_text_iff hl (lax_of_strict (h2 hl)), unmarshal_text_iff hl (lax_of_strict (h2 hl)), hc]; simp

/-- C79 and C06 together: under the conditions of both, a text written by `Marshal` is read into any variable, used or not, as the same value. -/
theorem C79_roundtrip_partial (W : World) (hW : WorldOk W fun _ => True) (h : Heap) (hf : FloatTextsOk W) (hz : ZeroOk W) (hc : Convert32 W) (t : Ty) (v : GV)
    (hty : ∀ t', Uses W t t' → Ordinary W t') (hfit : ∀ t' v', Within W h t v t' v' → Fit W h t' v') (ht : ∀ t', InPlace W t t' → Whole W t')
    (tx : Bytes) (hmg : MarshalGives W h (some (t, v)) (.ok tx)) (hl : tx.length < 2 ^ 63)
    (hd : ∃ d m, tx = d.text ∧ Lax m d ∧ Levels 10000 d) (fuel : Nat) (hcomp : compileD W fuel [] t = .ok ())
    (old : Val) (hold : HasTy W (fun _ => True) t old) :
    ∃ v', SameVal W h t v v' ∧ unmarshal W fuel tx (.ptr t old) = (some v', .ok ()) := by
  obtain ⟨v', h1, h2⟩ := C06_roundtrip_partial W h hz hc t v hty hfit tx hmg hl hd fuel hcomp
  refine ⟨v', h1, (C79_marshal_partial W hW h hf t v tx (fun t' v' raw hw hm => ?_) ht hmg hl _ _ (zero_hasTy hW t) hold fuel v').1 h2⟩
  rw [(hty _ (within_uses hty hw .refl)).mar] at hm
  cases hm

/-- A linked list of two is read into a list of three. -/
example : WorldOk Demo.WZ (fun _ => True) ∧ FloatTextsOk Demo.WZ ∧ ZeroOk Demo.WZ ∧ Convert32 Demo.WZ ∧
    (∀ t', Uses Demo.WZ (.struct 1) t' → Ordinary Demo.WZ t') ∧
    (∀ t' v', Within Demo.WZ Demo.heapZ (.struct 1) (.struct [.ptr 7, .int 3]) t' v' → Fit Demo.WZ Demo.heapZ t' v') ∧
    (∀ t', InPlace Demo.WZ (.struct 1) t' → Whole Demo.WZ t') ∧
    MarshalGives Demo.WZ Demo.heapZ (some (.struct 1, .struct [.ptr 7, .int 3])) (.ok Demo.docZ.text) ∧
    Levels 10000 Demo.docZ ∧ compileD Demo.WZ 9 [] (.struct 1) = .ok () ∧
    HasTy Demo.WZ (fun _ => True) (.struct 1) (.struct [.ptr (.struct [.ptr (.struct [.ptrNil, .int 5]), .int 6]), .int 7]) ∧
    unmarshal Demo.WZ 9 Demo.docZ.text (.ptr (.struct 1) (.struct [.ptr (.struct [.ptr (.struct [.ptrNil, .int 5]), .int 6]), .int 7])) =
      (some (.struct [.ptr (.struct [.ptrNil, .int 8]), .int 3]), .ok ()) := by
  have hr : ∀ n : Int, 0 ≤ n → n < 10 → InRange .int n := fun n h1 h2 => by simp [InRange, intMax]; omega
  exact ⟨Demo.wz_ok, ⟨Demo.wc_floats.1, Demo.wc_floats.2⟩, Demo.wz_zero, ⟨rfl, rfl, by unfold NaN32; decide⟩, fun _ => Demo.wz_ordinary, fun _ _ => Demo.wz_fit, fun _ => Demo.wz_whole,
    Demo.wz_marshal, levels_of_depth (by decide), by rfl,
    Demo.wz_s1 (.ptr rfl (Demo.wz_s1 (.ptr rfl (Demo.wz_s1 (.ptrNil rfl) (hr _ (by decide) (by decide)))) (hr _ (by decide) (by decide)))) (hr _ (by decide) (by decide)), by krfl⟩

/-! ### Where it does not hold -/

/-- The demo world with `type Raw []byte` (declared type 20). -/
def Demo.WU : World := { Demo.W with
  named := fun i => if i = 20 then ⟨.slice (.uint .u8), false, .none⟩ else Demo.named i
  namedZero := fun i => if i = 20 then .sliceNil else Demo.namedZero i }

/-- C79 is false for maps: what `Marshal` writes for the map with the entry 1 is read into a map that holds the entry 2. The entry 2 stays. -/
theorem C79_map_counterexample :
    MarshalGives Demo.WU { Demo.heap with iter := fun _ _ _ _ => [(.int 1, .int 5)] } (some (.map (.int .int) (.int .int), .map 7)) (.ok (b! "a:1:{i:1;i:5;}")) ∧
    unmarshal Demo.WU 4 (b! "a:1:{i:1;i:5;}") (.ptr (.map (.int .int) (.int .int)) .mapNil) = (some (.map [(.int 1, .int 5)]), .ok ()) ∧
    unmarshal Demo.WU 4 (b! "a:1:{i:1;i:5;}") (.ptr (.map (.int .int) (.int .int)) (.map [(.int 2, .int 6)])) =
      (some (.map [(.int 2, .int 6), (.int 1, .int 5)]), .ok ()) :=
  ⟨marshalGives_of (cf := 9) (f := 9) (by simp) (by rfl), by rfl, by rfl⟩

/-- C79 is false for fields with `omitempty`: an empty string is not written, so the field keeps the old one. -/
theorem C79_omitempty_counterexample :
    MarshalGives Demo.WU Demo.heap (some (.struct 0, .struct [.int 1, .str [], .int 0, .int 0, .ptrNil])) (.ok (b! "a:2:{s:1:\"a\";i:1;s:1:\"e\";N;}")) ∧
    unmarshal Demo.WU 4 (b! "a:2:{s:1:\"a\";i:1;s:1:\"e\";N;}") (.ptr (.struct 0) (Demo.structZero 0)) =
      (some (.struct [.int 1, .str [], .int 0, .int 0, .ptrNil]), .ok ()) ∧
    unmarshal Demo.WU 4 (b! "a:2:{s:1:\"a\";i:1;s:1:\"e\";N;}") (.ptr (.struct 0) (.struct [.int 0, .str (b! "old"), .int 0, .int 0, .ptrNil])) =
      (some (.struct [.int 1, .str (b! "old"), .int 0, .int 0, .ptrNil]), .ok ()) :=
  ⟨marshalGives_of (cf := 9) (f := 9) (by simp) (by rfl), by rfl, by rfl⟩

/-- C79 is false for byte slices with a declared type: if nil they are written as null, and null leaves the old bytes where they are. A nil `[]byte` is
written as the empty string, and a nil `[]int` read from null is nil: both replace what was there. -/
theorem C79_bytes_counterexample :
    MarshalGives Demo.WU Demo.heap (some (.named 20, .sliceNil)) (.ok (b! "N;")) ∧
    unmarshal Demo.WU 4 (b! "N;") (.ptr (.named 20) .sliceNil) = (some .sliceNil, .ok ()) ∧
    unmarshal Demo.WU 4 (b! "N;") (.ptr (.named 20) (.slice [.uint 1, .uint 2])) = (some (.slice [.uint 1, .uint 2]), .ok ()) ∧
    MarshalGives Demo.WU Demo.heap (some (.slice (.uint .u8), .sliceNil)) (.ok (b! "s:0:\"\";")) ∧
    unmarshal Demo.WU 4 (b! "s:0:\"\";") (.ptr (.slice (.uint .u8)) (.slice [.uint 1, .uint 2])) = (some (.slice []), .ok ()) ∧
    MarshalGives Demo.WU Demo.heap (some (.slice (.int .int), .sliceNil)) (.ok (b! "N;")) ∧
    unmarshal Demo.WU 4 (b! "N;") (.ptr (.slice (.int .int)) (.slice [.int 1, .int 2])) = (some .sliceNil, .ok ()) :=
  ⟨marshalGives_of (cf := 9) (f := 9) (by simp) (by rfl), by rfl, by rfl, marshalGives_of (cf := 9) (f := 9) (by simp) (by rfl), by rfl,
    marshalGives_of (cf := 9) (f := 9) (by simp) (by rfl), by rfl⟩

end Verif

import Verif.Proofs.EncStruct
import Verif.Props.DemoEnc
/-
What the output of `Marshal` looks like: C07, C26 and the encoder side of C27 and C42.
-/
namespace Verif
open Spec

/-- C07: the output of `Marshal` is the text of exactly one well-formed PHP value (`Strict`: lengths are byte lengths, counts are
numbers of pairs), and there is no other reading of it. Values may contain Marshalers as long as those return well-formed
values. strconv is trusted not to put a semicolon into the text of a number. -/
theorem C07_wellformed (W : World) (h : Heap) (hf : FloatTextsOk W) (t : Ty) (v : GV) (tx : Bytes)
    (hm : ∀ t' v' raw, Within W h t v t' v' → W.marOf t' = true → Marshaled W h t' v' raw → ∃ d n, Strict n d ∧ raw = d.text)
    (hmg : MarshalGives W h (some (t, v)) (.ok tx)) (hl : tx.length < 2 ^ 63) :
    ∃ d n, Strict n d ∧ tx = d.text ∧ ∀ d' n', Lax n' d' → tx = d'.text → d' = d := by
  obtain ⟨-, he⟩ := marshalGives_ok_iff.1 hmg
  obtain ⟨d, h1, h2⟩ := encG_wf hf he fun t' v' raw a b c => by
    obtain ⟨d, n, h3, h4⟩ := hm t' v' raw a b c
    exact ⟨d, h4, fun _ => strict_of_depth h3 (Nat.le_refl _)⟩
  have hs := h2 (by rw [← h1]; exact hl)
  exact ⟨d, _, hs, h1, fun d' n' hd' ht => (lax_unique hd' (lax_of_strict hs) (r1 := []) (r2 := []) (by rw [← ht, ← h1])).1⟩

example : FloatTextsOk Demo.W ∧
    (∀ t' v' raw, Within Demo.W Demo.heap (.slice .any) (.slice 1200 3) t' v' → Demo.W.marOf t' = true → Marshaled Demo.W Demo.heap t' v' raw →
      ∃ d n, Strict n d ∧ raw = d.text) ∧
    MarshalGives Demo.W Demo.heap (some (.slice .any, .slice 1200 3)) (.ok (b! "a:3:{i:0;i:5;i:1;N;i:2;a:2:{i:0;i:7;i:1;i:-8;}}")) :=
  ⟨⟨fun _ _ => ⟨List.cons_ne_nil _ _, show (59 : UInt8) ∉ (b! "0.5") by decide⟩, fun _ _ => ⟨List.cons_ne_nil _ _, show (59 : UInt8) ∉ (b! "0.5") by decide⟩⟩, fun t' _ _ _ h => by simp [Demo.noMarshaler] at h,
    marshalGives_of (cf := 9) (f := 9) (by simp) (by rfl)⟩

/-- C07 for `Marshal(nil)`. -/
theorem C07_nil (W : World) (h : Heap) : MarshalGives W h none (.ok [78, 59]) := marshalGives_of (cf := 0) (f := 0) (by simp) rfl

/-- C26: a struct is written as `a:<n>:{…}` with one pair per field at the positions `idxs`. These are, in increasing order,
exactly the positions of the fields that are exported, not ignored and not (omitempty and zero); `n` is their number. The
key is the one the tag gives, as a string (also C42), and the value is the text of the field's value. -/
theorem C26_struct_fields (W : World) (h : Heap) (t : Ty) (id : Nat) (hr : W.resolve t = .struct id) (hmar : W.marOf t = false)
    (vs : List GV) (tx : Bytes) (hm : MarshalGives W h (some (t, .struct vs)) (.ok tx)) :
    ∃ (idxs : List Nat) (key txt : Nat → Bytes), idxs.Pairwise (· < ·) ∧
      (∀ i, i ∈ idxs ↔ ∃ f v, (W.fields id)[i]? = some f ∧ vs[i]? = some v ∧ Shown W f v) ∧
      (∀ i ∈ idxs, ∀ f, (W.fields id)[i]? = some f → HasKey W f (key i)) ∧
      (∀ i ∈ idxs, ∀ f v, (W.fields id)[i]? = some f → vs[i]? = some v →
        ∃ str, (str = true ↔ HasString W f) ∧ EncC W h (.field str) [] [i] f.ty v (txt i)) ∧
      tx = [97, 58] ++ natText idxs.length ++ [58, 123] ++ (idxs.flatMap fun i => (strDoc (key i)).text ++ txt i) ++ [125] := by
  obtain ⟨-, he⟩ := marshalGives_ok_iff.1 hm
  have hp : W.isPtr t = false := by simp [World.isPtr, hr]
  cases he with
  | marshaler a _ => rw [hmar] at a; cases a
  | plain _ _ _ hk => exact struct_layout hr hk
  | ptrIface _ hr' => rw [hr] at hr'; cases hr'

-- five fields, of which `A` and `E` are written: `B` is empty with omitempty, `c` is unexported, `D` is ignored
example : Demo.W.resolve (.struct 0) = .struct 0 ∧ Demo.W.marOf (.struct 0) = false ∧
    MarshalGives Demo.W Demo.heap (some (.struct 0, .struct [.int 0, .str [], .int 1, .int 2, .ptr 2000]))
      (.ok (b! "a:2:{s:1:\"a\";i:0;s:1:\"e\";s:2:\"42\";}")) :=
  ⟨rfl, rfl, marshalGives_of (cf := 9) (f := 9) (by simp) (by rfl)⟩

/-- C27, encoder side: fields that are unexported or tagged `-` have no influence on anything `Marshal` does with a struct.
(That they are not written is part of `C26_struct_fields`.) -/
theorem C27_marshal_ignores (W : World) (h : Heap) (t : Ty) (id : Nat) (hr : W.resolve t = .struct id) (hmar : W.marOf t = false)
    (vs vs' : List GV) (hl : vs.length = vs'.length)
    (hv : ∀ (i : Nat) (f : Field), (W.fields id)[i]? = some f → f.exported = true → ¬ HasKey W f [45] → vs[i]? = vs'[i]?)
    (cf fuel : Nat) (c : Ctx) : marshal W h cf fuel c (some (t, .struct vs)) = marshal W h cf fuel c (some (t, .struct vs')) :=
  marshal_struct_congr hr hmar hl hv cf fuel c

example : (∀ (i : Nat) (f : Field), (Demo.W.fields 0)[i]? = some f → f.exported = true → ¬ HasKey Demo.W f [45] →
      [GV.int 0, .str [], .int 1, .int 2, .ptr 2000][i]? = [GV.int 0, .str [], .int 100, .int 200, .ptr 2000][i]?) ∧
    (marshal Demo.W Demo.heap 9 9 Ctx.clean (some (.struct 0, .struct [.int 0, .str [], .int 100, .int 200, .ptr 2000]))).2 =
      .ok (b! "a:2:{s:1:\"a\";i:0;s:1:\"e\";s:2:\"42\";}") := by
  refine ⟨fun i f hf he hk => ?_, by rfl⟩
  match i, hf with
  | 0, _ => rfl
  | 1, _ => rfl
  | 2, hf => cases hf; cases he
  | 3, hf => cases hf; exact absurd (hasKey_iff.2 (by rfl)) hk
  | 4, _ => rfl
  | n + 5, _ => rfl

/-- A hidden field can decide whether a struct inside another one counts as zero for `omitempty`, as everywhere in Go: struct 6
is `V struct 5 "v,omitempty"` and struct 5 is the single unexported field `x int`. -/
def Demo.WH : World := { Demo.W with
  fields := fun
    | 5 => [⟨b! "x", [], false, false, .int .int⟩]
    | 6 => [⟨b! "V", b! "v,omitempty", true, false, .struct 5⟩]
    | _ => [] }

theorem C27_omitempty_witness :
    MarshalGives Demo.WH Demo.heap (some (.struct 6, .struct [.struct [.int 0]])) (.ok (b! "a:0:{}")) ∧
    MarshalGives Demo.WH Demo.heap (some (.struct 6, .struct [.struct [.int 1]])) (.ok (b! "a:1:{s:1:\"v\";a:0:{}}")) :=
  ⟨marshalGives_of (cf := 9) (f := 9) (by simp) (by rfl), marshalGives_of (cf := 9) (f := 9) (by simp) (by rfl)⟩

end Verif

import Verif.Proofs.Frame
import Verif.Proofs.Depth
import Verif.Props.DemoFacts
/-
Decoding into structs: C15 (unknown keys), C16 (order of keys), C21 (objects and arrays), C27 (ignored fields, decoding
half) and C42 (struct tags, decoding half).
-/
namespace Verif
open Spec Demo

/-- The entries of a container are well-formed: keys and values are readable documents nested at most `n` deep. -/
def Readable (n : Nat) (es : List (Doc × Doc)) : Prop := ∀ k v, (k, v) ∈ es → Lax n k ∧ Lax n v

theorem container_lax {n : Nat} {d : Doc} {cnt : Bytes} {es : List (Doc × Doc)} (hc : Container d cnt es) (hd : IsDigits cnt)
    (hr : Readable n es) : Lax (n + 1) d := by
  cases hc with
  | arr => exact .arr hd (fun k v h => (hr k v h).1) fun k v h => (hr k v h).2
  | obj hl => exact .obj hl hd (fun k v h => (hr k v h).1) fun k v h => (hr k v h).2

/-- C15: in an array or object decoded into a struct, a pair whose string key names no field, with any well-formed value,
can be added at any position without changing the result (the count in the header may be adjusted or not). -/
theorem C15_unknown_keys (W : World) (t : Ty) (id : Nat) (ht : Plain W t (.struct id)) (fuel n : Nat)
    (es1 es2 : List (Doc × Doc)) (hr : Readable n (es1 ++ es2)) (len s : Bytes) (hlen : LenText len s.length) (hno : NoField W id s)
    (x : Doc) (hx : Strict 9999 x) (d d' : Doc) (cnt cnt' : Bytes) (hcnt : IsDigits cnt) (hcnt' : IsDigits cnt')
    (hd : Container d cnt (es1 ++ es2)) (hd' : Container d' cnt' (es1 ++ (.str len s, x) :: es2))
    (hb : d.text.length < 2 ^ 63) (hb' : d'.text.length < 2 ^ 63) (vs : List Val) (v : Val) :
    unmarshal W fuel d'.text (.ptr t (.struct vs)) = (some v, .ok ()) ↔
    unmarshal W fuel d.text (.ptr t (.struct vs)) = (some v, .ok ()) := by
  have hl := container_lax hd hcnt hr
  have hr' : Readable (max n 9999) (es1 ++ (.str len s, x) :: es2) := by
    intro k w hm
    rcases List.mem_append.1 hm with hm | hm
    · exact ⟨Lax.mono (hr k w (by simp [hm])).1 (by omega), Lax.mono (hr k w (by simp [hm])).2 (by omega)⟩
    · rcases List.mem_cons.1 hm with hm | hm
      · cases hm
        exact ⟨.str hlen, Lax.mono (lax_of_strict hx) (by omega)⟩
      · exact ⟨Lax.mono (hr k w (by simp [hm])).1 (by omega), Lax.mono (hr k w (by simp [hm])).2 (by omega)⟩
  have hl' := container_lax hd' hcnt' hr'
  rw [unmarshal_text_iff hb hl, unmarshal_text_iff hb' hl', decDoc_struct_iff ht hd hcnt, decDoc_struct_iff ht hd' hcnt']
  refine and_congr_right fun _ => exists_congr fun m => and_congr_right fun hm => ?_
  have hm : m = 9999 := by simp [maxDepth] at hm; omega
  subst hm
  constructor
  · rintro (⟨h, -⟩ | ⟨-, ws, ws', h1, rfl, h⟩)
    · simp at h
    · cases h1
      rw [decFields_insert (.str hlen) hno hx] at h
      by_cases he : es1 ++ es2 = []
      · rw [he] at h; cases h; exact .inl ⟨he, rfl⟩
      · exact .inr ⟨he, _, _, rfl, rfl, h⟩
  · rintro (⟨he, rfl⟩ | ⟨-, ws, ws', h1, rfl, h⟩)
    · refine .inr ⟨by simp, _, _, rfl, rfl, ?_⟩
      rw [decFields_insert (.str hlen) hno hx, he]; exact .nil
    · cases h1
      exact .inr ⟨by simp, _, _, rfl, rfl, (decFields_insert (.str hlen) hno hx).2 h⟩

example : unmarshal Demo.W 9 (b! "a:2:{s:2:\"qq\";a:1:{i:0;N;}s:1:\"y\";b:1;}") (.ptr (.struct 2) (Demo.structZero 2)) =
      (some (.struct [.arr [.int 0, .int 0], .bool true]), .ok ()) ∧
    unmarshal Demo.W 9 (b! "a:1:{s:1:\"y\";b:1;}") (.ptr (.struct 2) (Demo.structZero 2)) =
      (some (.struct [.arr [.int 0, .int 0], .bool true]), .ok ()) := ⟨rfl, rfl⟩

/-- `qq` names no field of struct 2, and `a:1:{i:0;N;}` is a well-formed value. -/
example : NoField Demo.W 2 (b! "qq") ∧ Strict 9999 (.arr (b! "1") [(.int (b! "0"), .null)]) := by
  constructor
  · refine find_none.1 ?_
    rfl
  · refine .arr ⟨⟨by simp, by simp; decide⟩, by decide, by simp⟩ ?_ ?_ <;> intro k v h <;> simp at h <;> obtain ⟨rfl, rfl⟩ := h
    · exact .int (.pos ⟨by simp, by simp; decide⟩)
    · exact .null

/-- C16: decoding into a struct gives the same result for every order of the pairs, as long as their keys differ. -/
theorem C16_field_order (W : World) (t : Ty) (id : Nat) (ht : Plain W t (.struct id)) (fuel n : Nat)
    (es es' : List (Doc × Doc)) (hr : Readable n es) (hp : es.Perm es')
    (hk : es.Pairwise fun p q => ∀ s s', FieldKey p.1 s → FieldKey q.1 s' → s ≠ s')
    (d d' : Doc) (cnt cnt' : Bytes) (hcnt : IsDigits cnt) (hcnt' : IsDigits cnt')
    (hd : Container d cnt es) (hd' : Container d' cnt' es') (hb : d.text.length < 2 ^ 63) (hb' : d'.text.length < 2 ^ 63) (old v : Val) :
    unmarshal W fuel d'.text (.ptr t old) = (some v, .ok ()) ↔ unmarshal W fuel d.text (.ptr t old) = (some v, .ok ()) := by
  have hl := container_lax hd hcnt hr
  have hl' := container_lax (n := n) hd' hcnt' fun k w hm => hr k w (hp.mem_iff.2 hm)
  rw [unmarshal_text_iff hb hl, unmarshal_text_iff hb' hl', decDoc_struct_iff ht hd hcnt, decDoc_struct_iff ht hd' hcnt']
  refine and_congr_right fun _ => exists_congr fun m => and_congr_right fun hm => ?_
  have hk' : DistinctKeys es' := distinctKeys_perm hp hk
  constructor
  · rintro (⟨rfl, rfl⟩ | ⟨hne, ws, ws', rfl, rfl, h⟩)
    · exact .inl ⟨hp.eq_nil, rfl⟩
    · refine .inr ⟨?_, _, _, rfl, rfl, decFields_perm hp.symm hk' h⟩
      rintro rfl; exact hne hp.nil_eq.symm
  · rintro (⟨rfl, rfl⟩ | ⟨hne, ws, ws', rfl, rfl, h⟩)
    · exact .inl ⟨hp.nil_eq.symm, rfl⟩
    · refine .inr ⟨?_, _, _, rfl, rfl, decFields_perm hp hk h⟩
      rintro rfl; exact hne hp.eq_nil

example : unmarshal Demo.W 9 (b! "a:2:{s:1:\"n\";i:4;s:4:\"next\";a:1:{s:1:\"n\";i:5;}}") (.ptr (.struct 1) (Demo.structZero 1)) =
      (some (.struct [.ptr (.struct [.ptrNil, .int 5]), .int 4]), .ok ()) ∧
    unmarshal Demo.W 9 (b! "a:2:{s:4:\"next\";a:1:{s:1:\"n\";i:5;}s:1:\"n\";i:4;}") (.ptr (.struct 1) (Demo.structZero 1)) =
      (some (.struct [.ptr (.struct [.ptrNil, .int 5]), .int 4]), .ok ()) := ⟨rfl, rfl⟩

/-- Without distinct keys the order matters. -/
example : unmarshal Demo.W 9 (b! "a:2:{s:1:\"n\";i:4;s:1:\"n\";i:5;}") (.ptr (.struct 1) (Demo.structZero 1)) =
      (some (.struct [.ptrNil, .int 5]), .ok ()) ∧
    unmarshal Demo.W 9 (b! "a:2:{s:1:\"n\";i:5;s:1:\"n\";i:4;}") (.ptr (.struct 1) (Demo.structZero 1)) =
      (some (.struct [.ptrNil, .int 4]), .ok ()) := ⟨rfl, rfl⟩

/-- C21: for struct and map destinations an object decodes exactly like the array with the same count and entries,
whatever the class name. -/
theorem C21_object_as_array (W : World) (t : Ty) (ht : (∃ id, Plain W t (.struct id)) ∨ ∃ k e, Plain W t (.map k e))
    (fuel n : Nat) (clen cls cnt : Bytes) (hcl : LenText clen cls.length) (hcnt : IsDigits cnt) (es : List (Doc × Doc)) (hr : Readable n es)
    (hb : (Doc.obj clen cls cnt es).text.length < 2 ^ 63) (old v : Val) :
    unmarshal W fuel (Doc.obj clen cls cnt es).text (.ptr t old) = (some v, .ok ()) ↔
    unmarshal W fuel (Doc.arr cnt es).text (.ptr t old) = (some v, .ok ()) := by
  have hb' : (Doc.arr cnt es).text.length < 2 ^ 63 := by simp [Doc.text] at hb ⊢; omega
  have hc1 : Container (.arr cnt es) cnt es := .arr
  have hc2 : Container (.obj clen cls cnt es) cnt es := .obj hcl
  rw [unmarshal_text_iff hb (container_lax hc2 hcnt hr), unmarshal_text_iff hb' (container_lax hc1 hcnt hr)]
  rcases ht with ⟨id, ht⟩ | ⟨k, e, ht⟩
  · rw [decDoc_struct_iff ht hc1 hcnt, decDoc_struct_iff ht hc2 hcnt]
  · rw [decDoc_map_iff ht hc1, decDoc_map_iff ht hc2]

example : unmarshal Demo.W 9 (b! "O:3:\"A\"B\":1:{s:1:\"y\";b:1;}") (.ptr (.struct 2) (Demo.structZero 2)) =
      (some (.struct [.arr [.int 0, .int 0], .bool true]), .ok ()) ∧
    unmarshal Demo.W 9 (b! "O:3:\"A\"B\":1:{s:1:\"y\";b:1;}") (.ptr (.map .str .bool) .mapNil) =
      (some (.map [(.str (b! "y"), .bool true)]), .ok ()) := ⟨by krfl, by krfl⟩

/-- The same object decodes alike in the middle of an input, at any nesting depth: C21 for embedded values. -/
theorem C21_object_as_array_embedded (W : World) (t : Ty) (ht : (∃ id, Plain W t (.struct id)) ∨ ∃ k e, Plain W t (.map k e))
    (n depth : Nat) (hdep : depth ≤ 10000) (clen cls cnt : Bytes) (hcl : LenText clen cls.length) (hcnt : IsDigits cnt)
    (es : List (Doc × Doc)) (hr : Readable n es) (pre post : Bytes)
    (hb : (pre ++ (Doc.obj clen cls cnt es).text ++ post).length < 2 ^ 63) (f : Nat)
    (hf : (pre ++ (Doc.obj clen cls cnt es).text ++ post).length ≤ pre.length + f) (old v : Val) :
    decodeF W (pre ++ (Doc.obj clen cls cnt es).text ++ post) f t pre.length depth old =
      (v, .ok (pre.length + (Doc.obj clen cls cnt es).text.length)) ↔
    decodeF W (pre ++ (Doc.arr cnt es).text ++ post) f t pre.length depth old = (v, .ok (pre.length + (Doc.arr cnt es).text.length)) := by
  have hc1 : Container (.arr cnt es) cnt es := .arr
  have hc2 : Container (.obj clen cls cnt es) cnt es := .obj hcl
  rw [decode_at_iff hb hdep hf (at_text_mid pre post _) (container_lax hc2 hcnt hr),
    decode_at_iff (by simp [Doc.text] at hb ⊢; omega) hdep (by simp [Doc.text] at hf ⊢; omega) (at_text_mid pre post _) (container_lax hc1 hcnt hr)]
  rcases ht with ⟨id, ht⟩ | ⟨k, e, ht⟩
  · rw [decDoc_struct_iff ht hc1 hcnt, decDoc_struct_iff ht hc2 hcnt]
  · rw [decDoc_map_iff ht hc1, decDoc_map_iff ht hc2]

/-- C27, decoding half: whatever the input and whether or not it succeeds, `Unmarshal` writes no field that is unexported or
tagged `-`, in the destination or in any struct inside it (`Frame`). -/
theorem C27_unmarshal_frame (W : World) (t : Ty) (fuel : Nat) (data : Bytes) (old v : Val) (r : Res Unit)
    (h : unmarshal W fuel data (.ptr t old) = (some v, r)) : Frame W t old v := by
  by_cases hne : data = []
  · subst hne; cases h; exact .same
  · rw [unmarshal_ptr hne] at h
    simp only [Prod.mk.injEq, Option.some.injEq] at h
    rw [← h.1]
    unfold unmarshalInto
    refine fr_onOk (W := W) (t := t) (a := old) .same fun _ => ?_
    have := fr_decodeF (W := W) (t := t) (buf := data) (f := data.length + 1) (c := 0) (depth := 0) (rv := old)
    refine fr_onOk (W := W) (t := t) (a := old) this fun c => this

/-- C27 for the fields of the destination itself, spelled out. -/
theorem C27_unmarshal_keeps_ignored (W : World) (t : Ty) (id : Nat) (ht : Plain W t (.struct id)) (fuel : Nat) (data : Bytes)
    (vs : List Val) (v : Val) (r : Res Unit) (h : unmarshal W fuel data (.ptr t (.struct vs)) = (some v, r))
    (i : Nat) (f : Field) (hf : (W.fields id)[i]? = some f) (hi : f.exported = false ∨ f.tag = [45]) :
    ∃ vs', v = .struct vs' ∧ vs'.length = vs.length ∧ vs'[i]? = vs[i]? := by
  have hn : ¬ Visible f := by rintro ⟨h1, h2⟩; rcases hi with h | h <;> simp_all
  have := C27_unmarshal_frame W t fuel data _ v r h
  cases this with
  | same => exact ⟨vs, rfl, rfl, rfl⟩
  | @struct _ id' _ vs' hp hl h1 _ =>
    cases (ht.2.symm.trans hp.2)
    exact ⟨vs', rfl, hl, h1 i f hf hn⟩
  | free h1 => exact absurd ht (h1 _)
  | ptrNil h1 => simp_all [Plain]
  | ptrNew h1 => simp_all [Plain]
  | sliceNil h1 => simp_all [Plain]
  | slice h1 => simp_all [Plain]
  | array h1 => simp_all [Plain]
  | mapNil h1 => simp_all [Plain]
  | mapNew h1 => simp_all [Plain]

/-- Fields `c` (unexported) and `D` (tagged `-`) of struct 0 keep their values although the input names them, and although it
ends in an error. -/
example : ∃ e, unmarshal Demo.W 9 (b! "a:3:{s:1:\"c\";i:1;s:1:\"D\";i:1;s:1:\"a\";i:1;x") (.ptr (.struct 0) (.struct [.int 8, .str [], .int 8, .int 8, .ptrNil])) =
    (some (.struct [.int 1, .str [], .int 8, .int 8, .ptrNil]), .err e) := ⟨_, rfl⟩

/-- C42: what a tag means is determined, and `StructTagFromField` computes it: the key is the first comma-separated part if that
is a usable key and the field name otherwise, and the options count in any later position. -/
theorem C42_tag_meaning (W : World) (f : Field) :
    TagMeaning W f (structTag W f).key ((structTag W f).omitEmpty = true) ((structTag W f).isString = true) ∧
    (∀ key om str, TagMeaning W f key om str →
      key = (structTag W f).key ∧ (om ↔ (structTag W f).omitEmpty = true) ∧ (str ↔ (structTag W f).isString = true)) ∧
    (isIgnored f = false ↔ Visible f) :=
  ⟨structTag_meaning W f, fun _ _ _ h => tagMeaning_iff.1 h, visible_iff.symm⟩

example : (structTag Demo.W ⟨b! "F", b! "k,x,string,omitempty", true, false, .int .int⟩) = ⟨b! "k", true, true⟩ ∧
    (structTag Demo.W ⟨b! "F", b! ",string", true, false, .int .int⟩) = ⟨b! "F", false, true⟩ ∧
    (structTag Demo.W ⟨b! "F", b! "a\"b", true, false, .int .int⟩) = ⟨b! "F", false, false⟩ := ⟨rfl, rfl, rfl⟩

/-- C42, decoding: the value given for a key is stored into the field whose tag (or name) is that key, as a value of that
field's type, and nothing else in the struct changes. (For fields without an effective `string` option.) -/
theorem C42_decode_key (W : World) (t : Ty) (id : Nat) (ht : Plain W t (.struct id)) (fuel : Nat) (hcomp : compileD W fuel [] t = .ok ())
    (len s : Bytes) (hlen : LenText len s.length) (i : Nat) (f : Field) (hf : FieldFor W id s i f) (hs : ¬ HasString W f ∨ StringIgnored W f.ty)
    (n : Nat) (x : Doc) (hx : Lax n x) (cnt : Bytes) (hcnt : IsDigits cnt)
    (hb : (Doc.arr cnt [(.str len s, x)]).text.length < 2 ^ 63) (vs : List Val) (v0 : Val) (h0 : vs[i]? = some v0) (v : Val) :
    unmarshal W fuel (Doc.arr cnt [(.str len s, x)]).text (.ptr t (.struct vs)) = (some v, .ok ()) ↔
    ∃ v1, v = .struct (vs.set i v1) ∧ decodeF W x.text (x.text.length + 1) f.ty 0 1 v0 = (v1, .ok x.text.length) := by
  have hc : Container (.arr cnt [(.str len s, x)]) cnt [(.str len s, x)] := .arr
  have hl := container_lax (n := n) hc hcnt fun k w hm => by
    simp at hm; obtain ⟨rfl, rfl⟩ := hm; exact ⟨.str hlen, hx⟩
  rw [unmarshal_text_iff hb hl, decDoc_struct_iff ht hc hcnt]
  have hbx : x.text.length < 2 ^ 63 := by simp [Doc.text, pairsText] at hb; omega
  have hiff := fun v1 => decode_at_iff (W := W) (t := f.ty) (f := x.text.length + 1) (depth := 1) (rv := v0) (v := v1) hbx (by decide) (by omega) (at_text x) hx
  simp only [hiff]
  constructor
  · rintro ⟨-, m, hm, ⟨h, -⟩ | ⟨-, ws, ws', h1, rfl, h⟩⟩
    · simp at h
    · cases h1
      have hm : m = 9999 := by simp [maxDepth] at hm; omega
      subst hm
      rw [decFields_cons] at h
      obtain ⟨s', mid, hk, he, hnil⟩ := h
      cases fieldKey_unique hk (.str hlen)
      cases decFields_nil.1 hnil
      cases he with
      | skip hno => exact absurd hf.2.2.1 (hno _ _ hf.1 hf.2.1)
      | @store j g w0 w hg hw hd =>
        obtain ⟨rfl, rfl⟩ := fieldFor_unique hf hg
        rw [h0] at hw; cases hw
        refine ⟨w, rfl, ?_⟩
        cases hd with
        | plain _ h => exact h
        | wrapped h1 h2 => exact (hs.elim (absurd h1) (absurd · (isScalar_not_ignored h2)))
        | wrappedPtrNull h1 h2 => exact (hs.elim (absurd h1) (absurd · (ptr_not_ignored h2)))
        | wrappedPtr h1 h2 => exact (hs.elim (absurd h1) (absurd · (ptr_not_ignored h2)))
  · rintro ⟨v1, rfl, h⟩
    refine ⟨hcomp, 9999, rfl, .inr ⟨by simp, _, _, rfl, rfl, ?_⟩⟩
    rw [decFields_cons]
    exact ⟨s, _, .str hlen, .store hf h0 (.plain hs h), decFields_nil.2 rfl⟩

/-- The first field of struct 0 is named `A` and tagged `a`. -/
example : FieldFor Demo.W 0 (b! "a") 0 ⟨[65], [97], true, false, .int .int⟩ ∧ ¬ HasString Demo.W ⟨[65], [97], true, false, .int .int⟩ ∧
    unmarshal Demo.W 9 (b! "a:1:{s:1:\"a\";i:3;}") (.ptr (.struct 0) (Demo.structZero 0)) =
      (some (.struct [.int 3, .str [], .int 0, .int 0, .ptrNil]), .ok ()) := by
  refine ⟨⟨rfl, ?_, ?_, by simp⟩, ?_, rfl⟩
  · rw [visible_iff]; rfl
  · rw [hasKey_iff]; rfl
  · rw [hasString_iff]; decide

end Verif

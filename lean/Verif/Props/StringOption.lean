import Verif.Props.Composite
import Verif.Proofs.StringOpt
import Verif.Props.Output
/-
The option `string` on bool, int and uint fields (C25).
-/
namespace Verif
open Spec

/-- C25, output: as in `C26_struct_fields`, and the value of a bool or integer field with the option `string` is written as
`s:<n>:"<text>";` where the text is true, false or the decimal number (no superfluous zeros, C07) and `n` its length. -/
theorem C25_output (W : World) (h : Heap) (t : Ty) (id : Nat) (hr : W.resolve t = .struct id) (hmar : W.marOf t = false)
    (vs : List GV) (tx : Bytes) (hm : MarshalGives W h (some (t, .struct vs)) (.ok tx)) :
    ∃ (idxs : List Nat) (key txt : Nat → Bytes), idxs.Pairwise (· < ·) ∧
      (∀ i, i ∈ idxs ↔ ∃ f v, (W.fields id)[i]? = some f ∧ vs[i]? = some v ∧ Shown W f v) ∧
      (∀ i ∈ idxs, ∀ f, (W.fields id)[i]? = some f → HasKey W f (key i)) ∧
      (∀ i ∈ idxs, ∀ f v s, (W.fields id)[i]? = some f → vs[i]? = some v → HasString W f → optText v = some s →
        txt i = [115, 58] ++ natText s.length ++ [58, 34] ++ s ++ [34, 59]) ∧
      tx = [97, 58] ++ natText idxs.length ++ [58, 123] ++ (idxs.flatMap fun i => (strDoc (key i)).text ++ txt i) ++ [125] := by
  obtain ⟨idxs, key, txt, h1, h2, h3, h4, h5⟩ := C26_struct_fields W h t id hr hmar vs tx hm
  refine ⟨idxs, key, txt, h1, h2, h3, fun i hi f v s hf hv hs ht => ?_, h5⟩
  obtain ⟨str, a, b⟩ := h4 i hi f v hf hv
  rw [a.2 hs] at b
  have hd : ∀ {t d}, StrFieldDoc W h t v d → d = strDoc s := by
    intro t d hd
    cases hd with
    | str => cases ht
    | basic hb =>
      generalize W.resolve t = t' at hb
      cases hb <;> first | (cases ht; rfl) | cases ht
    | ifaceNil hi hd => cases hd <;> first | cases ht | simp_all
    | iface hi hd => cases hd <;> first | cases ht | simp_all
  generalize txt i = tx at b ⊢
  cases b with
  | fieldPtrNil => cases ht
  | fieldStr _ hs => rw [hd hs]; simp [strDoc, Doc.text]
  | fieldStrPtr => cases ht

-- true, the smallest int8, the largest uint64
example : Demo.WC.resolve (.struct 32) = .struct 32 ∧ Demo.WC.marOf (.struct 32) = false ∧
    MarshalGives Demo.WC Demo.heap (some (.struct 32, .struct [.bool true, .int (-128), .uint 18446744073709551615]))
      (.ok (b! "a:3:{s:1:\"b\";s:4:\"true\";s:1:\"i\";s:4:\"-128\";s:1:\"u\";s:20:\"18446744073709551615\";}")) :=
  ⟨rfl, rfl, marshalGives_of (cf := 9) (f := 9) (by simp) (by rfl)⟩

/-- C25, round trip in any struct: under the hypotheses of `C06_roundtrip_partial`, every bool or integer field with the option
`string` (and a key other than `-`) gets its value back. -/
theorem C25_roundtrip_any_struct (W : World) (h : Heap) (hz : ZeroOk W) (hc : Convert32 W) (t : Ty) (id : Nat) (hr : W.resolve t = .struct id) (xs : List GV)
    (hty : ∀ t', Uses W t t' → Ordinary W t') (hfit : ∀ t' v', Within W h t (.struct xs) t' v' → Fit W h t' v')
    (tx : Bytes) (hm : MarshalGives W h (some (t, .struct xs)) (.ok tx)) (hl : tx.length < 2 ^ 63)
    (hd : ∃ d m, tx = d.text ∧ Lax m d ∧ Levels 10000 d) (fuel : Nat) (hcomp : compileD W fuel [] t = .ok ()) :
    ∃ vs, unmarshal W fuel tx (.ptr t (W.zero t)) = (some (.struct vs), .ok ()) ∧ vs.length = (W.fields id).length ∧
      ∀ (i : Nat) f x y, (W.fields id)[i]? = some f → f.exported = true → ¬ HasKey W f [45] → HasString W f → xs[i]? = some x →
        OptValue W f.ty x y → vs[i]? = some y := by
  obtain ⟨v', h1, h2⟩ := C06_roundtrip_partial W h hz hc t _ hty hfit tx hm hl hd fuel hcomp
  cases h1 with
  | own _ h => exact h.elim
  | struct hr' hl1 hl2 h3 h4 =>
    rename_i vs
    rw [hr] at hr'; cases hr'
    refine ⟨vs, h2, hl2, fun i f x y hf he hk _ hx ho => ?_⟩
    have hi : i < vs.length := by rw [hl2]; exact (List.getElem?_eq_some_iff.1 hf).1
    have hv := List.getElem?_eq_getElem hi
    rw [hv]
    by_cases hs : Shown W f x
    · have := h3 i f x _ hf hx hv hs
      generalize vs[i] = y' at this
      generalize f.ty = u at this ho
      cases ho <;> cases this <;> first | rfl | exact False.elim ‹_›
    · rw [h4 i f x _ hf hx hv hs]
      have hzero : ZeroGV x := by
        apply Classical.byContradiction
        intro hx0
        exact hs ⟨he, _, _, _, structTag_meaning W f, fun hh => hk (hasKey_iff.2 hh), fun hh => hx0 hh.2⟩
      cases ho with
      | bool hp => cases hzero; rw [zero_resolve hz, hp.2]; rfl
      | int hp => cases hzero; rw [zero_resolve hz, hp.2]; rfl
      | uint hp => cases hzero; rw [zero_resolve hz, hp.2]; rfl

/-- C25, round trip in a struct with one field, without hypotheses about results: `Marshal` succeeds and `Unmarshal` gives the value
back, for every value, omitempty or not. -/
theorem C25_roundtrip (W : World) (h : Heap) (hz : ZeroOk W) (hc : Convert32 W) (t : Ty) (id : Nat) (ht : Plain W t (.struct id)) (hm : W.marOf t = false)
    (f : Field) (hfs : W.fields id = [f]) (he : f.exported = true) (hs : HasString W f) (hmf : W.marOf f.ty = false)
    (key : Bytes) (hk : HasKey W f key) (hkey : key ≠ [45]) (hkl : key.length < 2 ^ 61) (x : GV) (y : Val) (ho : OptValue W f.ty x y)
    (fuel : Nat) (hf : 2 ≤ fuel) :
    ∃ tx, MarshalGives W h (some (t, .struct [x])) (.ok tx) ∧ unmarshal W fuel tx (.ptr t (W.zero t)) = (some (.struct [y]), .ok ()) := by
  have hkey' : ¬ HasKey W f [45] := fun hh => hkey (hasKey_unique hk hh)
  have hsup := opt_supported ht hm hfs hs ho
  have hcomp := opt_compileD ht hfs ho hf
  obtain ⟨d, hd1, hd2, hd3, hd4⟩ := opt_enc (h := h) ht hm hfs he hs hk hkey hkl ho
  have hlen : d.text.length < 2 ^ 63 := by omega
  have hg : MarshalGives W h (some (t, .struct [x])) (.ok d.text) := marshalGives_ok_iff.2 ⟨hsup, hd1⟩
  obtain ⟨vs, h1, hvl, h2⟩ := C25_roundtrip_any_struct W h hz hc t id ht.2 [x] (fun t' hu => opt_ordinary ht hm hfs hmf ho hu) (fun t' v' hw => opt_fit ht hfs ho hw)
    d.text hg hlen ⟨d, 1, rfl, hd2, levels_of_depth (by omega)⟩ fuel hcomp
  refine ⟨_, hg, ?_⟩
  rw [h1]
  have h3 := h2 0 f x y (by simp [hfs]) he hkey' hs rfl ho
  rw [hfs] at hvl
  match vs, hvl, h3 with
  | [_], _, h3 => cases h3; rfl

-- the smallest int8 in a struct `I int8 "i,string,omitempty"`, and zero
example : Plain Demo.WC (.struct 34) (.struct 34) ∧ Demo.WC.fields 34 = [⟨b! "I", b! "i,string,omitempty", true, false, .int .i8⟩] ∧
    HasString Demo.WC ⟨b! "I", b! "i,string,omitempty", true, false, .int .i8⟩ ∧ HasKey Demo.WC ⟨b! "I", b! "i,string,omitempty", true, false, .int .i8⟩ (b! "i") ∧
    OptValue Demo.WC (.int .i8) (.int (-128)) (.int (-128)) ∧ OptValue Demo.WC (.int .i8) (.int 0) (.int 0) ∧
    MarshalGives Demo.WC Demo.heap (some (.struct 34, .struct [.int (-128)])) (.ok (b! "a:1:{s:1:\"i\";s:4:\"-128\";}")) ∧
    MarshalGives Demo.WC Demo.heap (some (.struct 34, .struct [.int 0])) (.ok (b! "a:0:{}")) :=
  ⟨⟨rfl, rfl⟩, rfl, hasString_iff.2 rfl, hasKey_iff.2 rfl, .int ⟨rfl, rfl⟩ (by unfold InRange; decide), .int ⟨rfl, rfl⟩ (by unfold InRange; decide),
    marshalGives_of (cf := 9) (f := 9) (by simp) (by rfl), marshalGives_of (cf := 9) (f := 9) (by simp) (by rfl)⟩

end Verif

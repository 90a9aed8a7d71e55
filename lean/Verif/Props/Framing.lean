import Verif.Proofs.Depth
import Verif.Props.DemoFacts
import Verif.Spec.Errors
/-
Where values begin and end: C12 (trailing bytes), C13 (truncation), C23 (bytes given to Unmarshalers), C36 (declared
counts), C44 (embedding), C47 (accepted input is well-formed), and the first half of C14 (nesting limit).
-/
namespace Verif
open Spec Demo

/-- C47: accepted input is the text of a well-formed document nested at most 10000 deep (declared counts may be wrong),
and this is the only way to read it. -/
theorem C47_accepted_is_wellformed (W : World) (t : Ty) (fuel : Nat) (data : Bytes) (hb : data.length < 2 ^ 63) (old : Val)
    (o : Option Val) (h : unmarshal W fuel data (.ptr t old) = (o, .ok ())) :
    ∃ d, Lax 10000 d ∧ data = d.text ∧ ∀ d' n, Lax n d' → data = d'.text → d' = d := by
  obtain ⟨-, d, v, -, ht, hd⟩ := (unmarshal_ok_iff hb).1 h
  have hl := decDoc_lax hd
  refine ⟨d, hl, ht, fun d' n hl' ht' => ?_⟩
  exact (lax_unique hl' hl (r1 := []) (r2 := []) (by rw [← ht', ← ht])).1

example : unmarshal Demo.W 9 (b! "a:7:{s:1:\"y\";b:1;}") (.ptr (.struct 2) (Demo.structZero 2)) =
    (some (.struct [.arr [.int 0, .int 0], .bool true]), .ok ()) := rfl

/-- C12: input followed by further bytes is rejected, whatever the destination. With the same destination the value is
read as before, and the error shows the first extra byte and counts the bytes read up to and with it. -/
theorem C12_trailing_bytes (W : World) (t : Ty) (fuel : Nat) (data rest : Bytes) (hb : (data ++ rest).length < 2 ^ 63)
    (hr : rest ≠ []) (old : Val) (v : Val) (h : unmarshal W fuel data (.ptr t old) = (some v, .ok ())) :
    (∃ e, unmarshal W fuel (data ++ rest) (.ptr t old) = (some v, .err e) ∧ shownByte e = rest.head? ∧ offsetOf e = some (data.length + 1)) ∧
    ∀ t' fuel' old' o, unmarshal W fuel' (data ++ rest) (.ptr t' old') ≠ (o, .ok ()) := by
  have hb1 : data.length < 2 ^ 63 := by simp at hb; omega
  obtain ⟨hc, d, v', hv, rfl, hd⟩ := (unmarshal_ok_iff hb1).1 h
  cases hv
  constructor
  · have hat : At (d.text ++ rest) 0 d d.text.length := ⟨by simp, by simp⟩
    have hrun := (decode_at_iff (W := W) (t := t) (rv := old) (v := v) (f := (d.text ++ rest).length + 1) (depth := 0) hb
      (Nat.zero_le _) (by omega) hat (decDoc_lax hd)).2 hd
    have hne : d.text ++ rest ≠ [] := by simp [hr]
    rw [unmarshal_ptr hne]
    obtain ⟨x, r, rfl⟩ := List.exists_cons_of_ne_nil hr
    refine ⟨.trailing x (d.text.length + 1), ?_, rfl, rfl⟩
    unfold unmarshalInto
    rw [hc, hrun]
    simp only [onOk]
    unfold validateEndBuf
    rw [if_neg (by simp), show idx (d.text ++ x :: r) d.text.length = .ok x by simp [idx]]
    rfl
  · intro t' fuel' old' o h'
    obtain ⟨-, d', v', -, ht', hd'⟩ := (unmarshal_ok_iff hb).1 h'
    exact hr (lax_unique (decDoc_lax hd) (decDoc_lax hd') (r1 := rest) (r2 := []) (by rw [ht']; simp)).2

example : ∃ e, unmarshal Demo.W 1 (b! "i:5;N;") (.ptr (.int .i64) (.int 0)) = (some (.int 5), .err e) ∧ shownByte e = some 78 ∧ offsetOf e = some 5 :=
  ⟨_, rfl, rfl, rfl⟩

/-- C13: no strict prefix of accepted input is accepted, whatever the destination. -/
theorem C13_truncation (W : World) (t : Ty) (fuel : Nat) (data cut : Bytes) (hb : data.length < 2 ^ 63) (old : Val) (o : Option Val)
    (h : unmarshal W fuel data (.ptr t old) = (o, .ok ())) (hcut : cut <+: data) (hne : cut ≠ data) :
    ∀ t' fuel' old' o', unmarshal W fuel' cut (.ptr t' old') ≠ (o', .ok ()) := by
  intro t' fuel' old' o' h'
  obtain ⟨rest, rfl⟩ := hcut
  have hr : rest ≠ [] := by rintro rfl; simp at hne
  have hb1 : cut.length < 2 ^ 63 := by simp at hb; omega
  obtain ⟨-, d', v', rfl, -, -⟩ := (unmarshal_ok_iff hb1).1 h'
  exact (C12_trailing_bytes W t' fuel' cut rest hb hr old' v' h').2 t fuel old o h

example : unmarshal Demo.W 1 (b! "i:55;") (.ptr (.int .i64) (.int 0)) = (some (.int 55), .ok ()) ∧ b! "i:5" <+: b! "i:55;" :=
  ⟨rfl, by decide⟩

/-- C14, first half: whatever the destination type, accepted input is nested at most 10000 deep. -/
theorem C14_depth_limit (W : World) (t : Ty) (fuel : Nat) (d : Doc) (n : Nat) (hl : Lax n d) (hb : d.text.length < 2 ^ 63) (old : Val)
    (o : Option Val) (h : unmarshal W fuel d.text (.ptr t old) = (o, .ok ())) : d.depth ≤ 10000 := by
  obtain ⟨-, d', v, -, ht, hd⟩ := (unmarshal_ok_iff hb).1 h
  obtain ⟨rfl, -⟩ := lax_unique hl (decDoc_lax hd) (r1 := []) (r2 := []) (by rw [ht])
  exact lax_depth_le (decDoc_lax hd)

example : Lax 2 (.arr (b! "1") [(.int (b! "0"), .arr (b! "0") [])]) ∧ (Doc.arr (b! "1") [(.int (b! "0"), .arr (b! "0") [])]).depth = 2 := by
  refine ⟨?_, by simp [Doc.depth, pairsDepth]⟩
  refine .arr ⟨by simp, by simp; decide⟩ ?_ ?_
  · intro k v h; simp at h; obtain ⟨rfl, rfl⟩ := h; exact .int (.pos ⟨by simp, by simp; decide⟩)
  · intro k v h; simp at h; obtain ⟨rfl, rfl⟩ := h; exact .arr ⟨by simp, by simp; decide⟩ (by simp) (by simp)

/-- C44: what a value decodes to does not depend on the bytes around it. Decoding at the position of the value inside
one input gives a result exactly if decoding at its position inside any other input does, at the same nesting depth. -/
theorem C44_position_independent (W : World) (t : Ty) (d : Doc) (n : Nat) (hl : Lax n d) (depth : Nat) (hd : depth ≤ 10000)
    (pre post pre' post' : Bytes) (hb : (pre ++ d.text ++ post).length < 2 ^ 63) (hb' : (pre' ++ d.text ++ post').length < 2 ^ 63)
    (f f' : Nat) (hf : (pre ++ d.text ++ post).length ≤ pre.length + f) (hf' : (pre' ++ d.text ++ post').length ≤ pre'.length + f')
    (old v : Val) :
    decodeF W (pre ++ d.text ++ post) f t pre.length depth old = (v, .ok (pre.length + d.text.length)) ↔
    decodeF W (pre' ++ d.text ++ post') f' t pre'.length depth old = (v, .ok (pre'.length + d.text.length)) := by
  rw [decode_at_iff hb hd hf (at_text_mid pre post d) hl, decode_at_iff hb' hd hf' (at_text_mid pre' post' d) hl]

/-- C44 for `Unmarshal`: a value decodes on its own exactly as it does as part of a longer input. -/
theorem C44_alone_or_embedded (W : World) (t : Ty) (d : Doc) (n : Nat) (hl : Lax n d)
    (pre post : Bytes) (hb : (pre ++ d.text ++ post).length < 2 ^ 63)
    (f fuel : Nat) (hf : (pre ++ d.text ++ post).length ≤ pre.length + f) (hc : compileD W fuel [] t = .ok ()) (old v : Val) :
    unmarshal W fuel d.text (.ptr t old) = (some v, .ok ()) ↔
    decodeF W (pre ++ d.text ++ post) f t pre.length 0 old = (v, .ok (pre.length + d.text.length)) := by
  rw [decode_at_iff (depth := 0) (t := t) hb (Nat.zero_le _) hf (at_text_mid pre post d) hl,
    unmarshal_text_iff (by simp at hb; omega) hl]
  exact ⟨fun h => h.2, fun h => ⟨hc, h⟩⟩

example : decodeF Demo.W (b! "xxa:1:{s:1:\"y\";b:1;}yy") 9 (.struct 2) 2 0 (Demo.structZero 2) =
      (.struct [.arr [.int 0, .int 0], .bool true], .ok 20) ∧
    decodeF Demo.W (b! "a:1:{s:1:\"y\";b:1;}") 9 (.struct 2) 0 0 (Demo.structZero 2) =
      (.struct [.arr [.int 0, .int 0], .bool true], .ok 18) := ⟨rfl, rfl⟩

/-- C23: a type with UnmarshalPHP is handed exactly the bytes of its value, wherever the value stands in the input; the
method's result becomes the result, and so does its error, a `SyntaxError` with the position of the value. `N;` stores the
zero value without a call. -/
theorem C23_unmarshaler_bytes (W : World) (t : Ty) (id : Nat) (hu : W.unmOf t = some id) (pre post : Bytes) (d : Doc)
    (depth : Nat) (hd : depth ≤ 10000) (hs : Strict (10000 - depth) d) (hb : (pre ++ d.text ++ post).length < 2 ^ 63) (f : Nat) (hf : 0 < f)
    (old : Val) :
    (d ≠ .null → ∀ v, W.unmarshal id d.text = .ok v →
      decodeF W (pre ++ d.text ++ post) f t pre.length depth old = (v, .ok (pre.length + d.text.length))) ∧
    (d ≠ .null → ∀ e, W.unmarshal id d.text = .err e →
      ∃ e', HandedOn pre.length e e' ∧ decodeF W (pre ++ d.text ++ post) f t pre.length depth old = (old, .err e')) ∧
    (d = .null → decodeF W (pre ++ d.text ++ post) f t pre.length depth old = (W.namedZero id, .ok (pre.length + d.text.length))) := by
  obtain ⟨f, rfl⟩ : ∃ g, f = g + 1 := ⟨f - 1, by omega⟩
  rw [decodeF_unm hu]
  refine ⟨fun hn v hv => ?_, fun hn e he => ?_, fun hn => ?_⟩
  · rw [unmarshalDecode_run hb hd (at_text_mid pre post d) hs hn, hv]; rfl
  · refine ⟨annotate pre.length e, by cases e <;> first | exact ⟨rfl, rfl⟩ | rfl, ?_⟩
    rw [unmarshalDecode_run hb hd (at_text_mid pre post d) hs hn, he]; rfl
  · exact unmarshalDecode_complete hb hd (at_text_mid pre post d) hs (.inl ⟨hn, rfl⟩)

/-- C23: without a well-formed value at that place the method is not called: the result is an error that does not depend
on the method, and the old value stays. -/
theorem C23_not_called (W : World) (t : Ty) (id : Nat) (hu : W.unmOf t = some id) (b : Bytes) (hb : b.length < 2 ^ 63)
    (c depth : Nat) (hd : depth ≤ 10000) (f : Nat) (hf : 0 < f) (old : Val)
    (h : ¬ ∃ d post, Strict (10000 - depth) d ∧ b.drop c = d.text ++ post) :
    ∃ e, decodeF W b f t c depth old = (old, .err e) := by
  obtain ⟨f, rfl⟩ : ∃ g, f = g + 1 := ⟨f - 1, by omega⟩
  rw [decodeF_unm hu]
  exact unmarshalDecode_reject hb hd h

/-- C23 for a value held in an interface with methods: the held value's own UnmarshalPHP gets exactly the bytes. -/
theorem C23_held_unmarshaler_bytes (W : World) (t : Ty) (i : Nat) (ht : Plain W t (.iface i)) (dt : Ty) (dv : Val)
    (hdyn : W.dynUnm dt = true) (pre post : Bytes) (d : Doc) (hn : d ≠ .null)
    (depth : Nat) (hd : depth ≤ 10000) (hs : Strict (10000 - depth) d) (hb : (pre ++ d.text ++ post).length < 2 ^ 63) (f : Nat) (hf : 0 < f) :
    (∀ dv', W.unmarshalDyn dt dv d.text = (dv', .ok ()) →
      decodeF W (pre ++ d.text ++ post) f t pre.length depth (.iface dt dv) = (.iface dt dv', .ok (pre.length + d.text.length))) ∧
    (∀ dv' e, W.unmarshalDyn dt dv d.text = (dv', .err e) →
      decodeF W (pre ++ d.text ++ post) f t pre.length depth (.iface dt dv) = (.iface dt dv', .err e)) := by
  obtain ⟨f, rfl⟩ : ∃ g, f = g + 1 := ⟨f - 1, by omega⟩
  rw [decodeF_iface ht]
  constructor
  · intro dv' h
    rw [ifaceDecode_run hb hd (at_text_mid pre post d) hs hn hdyn, h]; rfl
  · intro dv' e h
    rw [ifaceDecode_run hb hd (at_text_mid pre post d) hs hn hdyn, h]; rfl

/-- Declared type 0 of the demo world stores the length of the bytes it is given: 18 for `a:1:{i:0;s:1:"q";}`
inside a longer input. -/
example : Demo.W.unmOf (.named 0) = some 0 ∧
    decodeF Demo.W (b! "xxa:1:{i:0;s:1:\"q\";}yyy") 9 (.named 0) 2 0 (.int 3) = (.int 18, .ok 20) := ⟨rfl, rfl⟩

/-- C36 is false: for containers that are stored, the declared count is not compared with the number of entries. -/
theorem C36_counterexamples :
    unmarshal Demo.W 9 (b! "a:7:{i:0;i:5;}") (.ptr (.slice (.int .i64)) .sliceNil) = (some (.slice [.int 5]), .ok ()) ∧
    unmarshal Demo.W 9 (b! "a:7:{i:0;i:5;}") (.ptr (.array 1 (.int .i64)) (.arr [.int 0])) = (some (.arr [.int 5]), .ok ()) ∧
    unmarshal Demo.W 9 (b! "a:0:{i:0;i:5;}") (.ptr (.map (.int .i64) (.int .i64)) .mapNil) = (some (.map [(.int 0, .int 5)]), .ok ()) ∧
    unmarshal Demo.W 9 (b! "a:0:{s:1:\"n\";i:5;}") (.ptr (.struct 1) (.struct [.ptrNil, .int 0])) =
      (some (.struct [.ptrNil, .int 5]), .ok ()) ∧
    unmarshal Demo.W 9 (b! "a:3:{}") (.ptr .any .ifaceNil) = (some (.iface (.map .any .any) (.map [])), .ok ()) :=
  ⟨rfl, rfl, rfl, rfl, rfl⟩

/-- C36, partial: counts are exact in everything that is skipped or handed to an Unmarshaler. (1) If the destination is an
Unmarshaler type, accepted input has exact counts throughout. (2) If the destination is a struct, so has the value of
every key that names no field. Missing: containers stored into maps, slices, arrays, structs and any, for which the
property is false (`C36_counterexamples`). -/
theorem C36_counts_enforced_partial (W : World) (t : Ty) (fuel : Nat) (d : Doc) (n : Nat) (hl : Lax n d) (hb : d.text.length < 2 ^ 63)
    (old : Val) (o : Option Val) (h : unmarshal W fuel d.text (.ptr t old) = (o, .ok ())) :
    (∀ id, W.unmOf t = some id → Strict 10000 d) ∧
    (∀ id cnt es, Plain W t (.struct id) → Container d cnt es →
      ∀ k s x, (k, x) ∈ es → FieldKey k s → NoField W id s → Strict 9999 x) := by
  obtain ⟨-, d', v, -, ht, hd⟩ := (unmarshal_ok_iff hb).1 h
  obtain ⟨rfl, -⟩ := lax_unique hl (decDoc_lax hd) (r1 := []) (r2 := []) (by rw [ht])
  constructor
  · intro id hu
    cases hd <;> first | exact .null | assumption | (exfalso; simp_all [Plain]; done)
  · intro id cnt es hp hc
    have hdig : IsDigits cnt := by
      cases hc with
      | arr => cases hl; assumption
      | obj => cases hl; assumption
    obtain ⟨m, hm, h⟩ := (decDoc_struct_iff hp hc hdig).1 hd
    have hm : m = 9999 := by simp [maxDepth] at hm; omega
    subst hm
    rcases h with ⟨rfl, -⟩ | ⟨-, vs, vs', -, -, h⟩
    · simp
    · clear hd hc hdig hl
      induction es generalizing vs with
      | nil => simp
      | cons e es ih =>
        obtain ⟨k0, x0⟩ := e
        obtain ⟨s0, mid, h1, h2, h3⟩ := decFields_cons.1 h
        intro k s x hx hk hn
        rcases List.mem_cons.1 hx with hx | hx
        · cases hx
          cases fieldKey_unique h1 hk
          cases h2 with
          | skip _ h => exact h
          | store h4 => exact absurd h4.2.2.1 (hn _ _ h4.1 h4.2.1)
        · exact ih mid h3 k s x hx hk hn

/-- A skipped value with a wrong count is rejected although the same value would be stored. -/
example : ∃ e, unmarshal Demo.W 9 (b! "a:1:{s:1:\"q\";a:7:{i:0;i:5;}}") (.ptr (.struct 1) (.struct [.ptrNil, .int 0])) =
    (some (.struct [.ptrNil, .int 0]), .err e) := ⟨_, rfl⟩

end Verif

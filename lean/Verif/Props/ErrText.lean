import Verif.Proofs.ErrText
import Verif.Props.Demo
/-
C76: texts of errors. The property in full: the text of every error of `Unmarshal` is UTF-8 without control characters, and its length depends only on the
names of types and fields in it. It is false for errors that show a byte or a number of the input; for all others it is proved.
`unmarshal` leaves the names out of type errors (`plainErr`), so the theorems are about an error with any names.
-/
namespace Verif
open Spec Demo

/-- C76, in part: the text of an error is UTF-8 without control characters, if the names in it are, and the byte of the input that it shows, and the number
that it repeats. The methods of the program are to return errors of their own. Missing for the full property: the last two conditions, without which it is
false (`C76_control_counterexample`, `C76_utf8_counterexample`). -/
theorem C76_clean_partial (F : Fmt) (hF : Spec.Fmt.Doc F) (W : World) (fuel : Nat) (data : Bytes) (hb : data.length < 2 ^ 63) (dst : Dst)
    (hu : ∀ id src e, W.unmarshal id src = .err e → OtherErr e) (hdyn : ∀ t v src v' e, W.unmarshalDyn t v src = (v', .err e) → OtherErr e)
    (o : Option Val) (e : Err) (h : unmarshal W fuel data dst = (o, .err e)) (e' : Err) (he : plainErr e' = plainErr e)
    (hn : ∀ t ∈ namesIn F e', Clean t) (hc : ∀ c, charIn e = some c → Showable (Char.ofNat c.toNat)) (hr : ∀ t, rawIn e = some t → Clean t) :
    OtherErr e ∨ Clean (errText F e') := by
  rcases unmarshal_texts hb hu hdyn h with h | ⟨h1, h2, -⟩
  · exact .inl h
  · rcases named_piece hF hb he h1 h2 with h | h
    · exact .inl ((other_plain he).1 h)
    · refine .inr (h.clean ⟨?_, ?_, hn⟩)
      · rw [char_plain he]; exact hc
      · rw [(raw_plain he).1]; exact hr

/-- C76, in part: the text of an error has at most 320 bytes besides the names in it and what it repeats of the input. Missing for the full property: it
may repeat any amount (`C76_long_counterexample`). -/
theorem C76_short_partial (F : Fmt) (hF : Spec.Fmt.Doc F) (W : World) (fuel : Nat) (data : Bytes) (hb : data.length < 2 ^ 63) (dst : Dst)
    (hu : ∀ id src e, W.unmarshal id src = .err e → OtherErr e) (hdyn : ∀ t v src v' e, W.unmarshalDyn t v src = (v', .err e) → OtherErr e)
    (o : Option Val) (e : Err) (h : unmarshal W fuel data dst = (o, .err e)) (e' : Err) (he : plainErr e' = plainErr e) :
    OtherErr e ∨ (errText F e').length ≤ 320 + ((rawIn e).getD []).length + 4 * ((quotedIn e).getD []).length + namesLength F e' := by
  rcases unmarshal_texts hb hu hdyn h with h | ⟨h1, h2, -⟩
  · exact .inl h
  · rcases named_piece hF hb he h1 h2 with h | h
    · exact .inl ((other_plain he).1 h)
    · have := h.short
      unfold partsLength at this
      rw [(raw_plain he).1, (raw_plain he).2] at this
      exact .inr (by omega)

/-- C76: what a text repeats stands in the input: the number and the quoted text as they are, and so does the byte it shows, but for the error about
nesting depth (`C54_shown_nowhere`). -/
theorem C76_repeated (W : World) (fuel : Nat) (data : Bytes) (hb : data.length < 2 ^ 63) (dst : Dst)
    (hu : ∀ id src e, W.unmarshal id src = .err e → OtherErr e) (hdyn : ∀ t v src v' e, W.unmarshalDyn t v src = (v', .err e) → OtherErr e)
    (o : Option Val) (e : Err) (h : unmarshal W fuel data dst = (o, .err e)) :
    (∀ t, rawIn e = some t ∨ quotedIn e = some t → t <:+: data) ∧ ∀ c, charIn e = some c → c ∈ data ∨ ∃ o, e = .maxDepth 97 o := by
  rcases unmarshal_texts hb hu hdyn h with h | ⟨h1, -, h3⟩
  · have hn : rawIn e = none ∧ quotedIn e = none ∧ charIn e = none := by cases e <;> first | exact h.elim | exact ⟨rfl, rfl, rfl⟩
    rw [hn.1, hn.2.1, hn.2.2]
    exact ⟨fun t ht => by (rcases ht with ht | ht <;> cases ht), fun c hc => by cases hc⟩
  · refine ⟨fun t ht => ?_, h3⟩
    rcases ht with ht | ht
    · cases e with
      | typeError w o x => cases w <;> cases ht; exact h1
      | _ => cases ht
    · cases e with
      | syntaxErr w o => cases w <;> cases ht; exact h1.2
      | _ => cases ht

/-- C76: the text of an error is at most a constant number of bytes longer than four times the input and the names in it. -/
theorem C76_bounded (F : Fmt) (hF : Spec.Fmt.Doc F) (W : World) (fuel : Nat) (data : Bytes) (hb : data.length < 2 ^ 63) (dst : Dst)
    (hu : ∀ id src e, W.unmarshal id src = .err e → OtherErr e) (hdyn : ∀ t v src v' e, W.unmarshalDyn t v src = (v', .err e) → OtherErr e)
    (o : Option Val) (e : Err) (h : unmarshal W fuel data dst = (o, .err e)) (e' : Err) (he : plainErr e' = plainErr e) :
    OtherErr e ∨ (errText F e').length ≤ 320 + 4 * data.length + namesLength F e' := by
  refine (C76_short_partial F hF W fuel data hb dst hu hdyn o e h e' he).imp id fun h1 => ?_
  have h2 := (C76_repeated W fuel data hb dst hu hdyn o e h).1
  have hl : ∀ t : Bytes, t <:+: data → t.length ≤ data.length := fun t ht => ht.length_le
  have h3 : ((rawIn e).getD []).length + 4 * ((quotedIn e).getD []).length ≤ 4 * data.length := by
    cases hr : rawIn e with
    | none =>
      cases hq : quotedIn e with
      | none => simp
      | some t => have := hl t (h2 t (.inr hq)); simp; omega
    | some t =>
      have := hl t (h2 t (.inl hr))
      have : quotedIn e = none := by cases e <;> first | (cases hr; done) | rfl
      rw [this]
      simp
      omega
  omega

namespace Demo

/-- Libraries for the examples: every type is called `T`. -/
def fmt : Fmt where
  typ := fun _ => b! "T"
  kind := fun _ => b! "int8"
  quote := fun t => if t = b! "x" then b! "\"x\"" else b! "``"
  float := fun _ => b! "0.5"
  reason := fun _ _ => b! "invalid syntax"
  other := fun _ => []

theorem fmt_doc : Spec.Fmt.Doc fmt where
  quote := fun t => by
    show Clean (if t = b! "x" then b! "\"x\"" else b! "``") ∧ (if t = b! "x" then b! "\"x\"" else b! "``").length ≤ _
    split
    · subst t; exact ⟨clean_ascii (by decide), by decide⟩
    · exact ⟨clean_ascii (by decide), by show 2 ≤ _; omega⟩
  float := fun _ => ⟨show Clean (b! "0.5") from clean_ascii (by decide), show 3 ≤ 24 by decide⟩
  reason := fun _ _ => .inl (show b! "invalid syntax" = lit "invalid syntax" by decide)
  kind := fun _ => ⟨show Clean (b! "int8") from clean_ascii (by decide), show 4 ≤ 14 by decide⟩

end Demo

/-- Texts: of a type error with names and without, of an overflow, of an unexpected byte, of a float that cannot be parsed. -/
example :
    errText Demo.fmt (.typeError (.number (b! "99")) 49 (some ⟨⟨b! "Node", b! "I"⟩, some (.int .i8)⟩)) =
      b! "php-serialize: cannot unmarshal number 99 into Go struct field Node.I of type T (offset 49)" ∧
    errText Demo.fmt (.typeError "array" 3 none) = b! "php-serialize: cannot unmarshal array into Go value of type T (offset: 3)" ∧
    errText Demo.fmt (.overflow (.int (-300)) (.int .i8)) = b! "php-serialize: -300 overflow type int8" ∧
    errText Demo.fmt (.unexpected "string quoted '\"'" 13 39) = b! "php-serialize: expecting string quoted '\"', get char ''' instead at offset: 13" ∧
    errText Demo.fmt (.syntaxErr (.strconv "ParseFloat" (b! "x")) 4) = b! "strconv.ParseFloat: parsing \"x\": invalid syntax" := by
  decide +kernel

/-- The hypotheses of `C76_clean_partial` hold for `i:300;` and a destination of type int8. -/
example : unmarshal Demo.W 1 (b! "i:300;") (.ptr (.int .i8) (.int 0)) = (some (.int 0), .err (.overflow (.int 300) (.int .i8))) ∧
    (∀ id src e, Demo.W.unmarshal id src = .err e → OtherErr e) ∧ (∀ t v src v' e, Demo.W.unmarshalDyn t v src = (v', .err e) → OtherErr e) ∧
    ∀ c, charIn (.overflow (.int 300) (.int .i8)) = some c → Showable (Char.ofNat c.toNat) := by
  refine ⟨rfl, fun id src e h => ?_, fun t v src v' e h => ?_, fun c h => ?_⟩
  · by_cases h0 : id = 0
    · simp [Demo.W, h0] at h
    · simp [Demo.W, h0] at h; subst h; trivial
  · simp [Demo.W] at h
  · cases h

/-- C76 is false: for the input of one newline the text of the error has a newline in it (error.go:82). -/
theorem C76_control_counterexample :
    ∃ e, unmarshal Demo.W 1 [10] (.ptr (.int .i64) (.int 0)) = (some (.int 0), .err e) ∧ ∀ F, ¬ Clean (errText F e) := by
  refine ⟨_, rfl, fun F h => ?_⟩
  have := (clean_bytes h (x := 10) (show 10 ∈ errText Demo.fmt (.unexpected "'i' to start an integer" 0 10) by decide +kernel)).1
  exact absurd this (by decide)

/-- C76 is false: a string in a field with the option `string` may put any bytes into the text, such as 255, which is nowhere in UTF-8 (int.go:28). -/
theorem C76_utf8_counterexample :
    ∃ e, unmarshal Demo.W 9 (b! "a:1:{s:1:\"e\";s:1:\"" ++ [255] ++ b! "\";}") (.ptr (.struct 0) (Demo.structZero 0)) =
        (some (.struct [.int 0, .str [], .int 0, .int 0, .ptr (.int 0)]), .err e) ∧
      ∀ (F : Fmt) (e' : Err), plainErr e' = plainErr e → 255 ∈ errText F e' ∧ ¬ Clean (errText F e') := by
  refine ⟨.typeError (.number [255]) 13, rfl, fun F e' he => ?_⟩
  have hr : rawIn e' = some [255] := (raw_plain he).1
  have hm : 255 ∈ errText F e' := (raw_infix hr).subset (by simp)
  exact ⟨hm, fun h => absurd (clean_bytes h hm).2 (by decide)⟩

/-- C76 is false: the text may be as long as one likes, with a number that does not fit (int.go:28). -/
theorem C76_long_counterexample (n : Nat) :
    ∃ data e, unmarshal Demo.W 1 data (.ptr (.int .i64) (.int 0)) = (some (.int 0), .err e) ∧
      ∀ (F : Fmt) (e' : Err), plainErr e' = plainErr e → n ≤ (errText F e').length := by
  refine ⟨[105, 58] ++ List.replicate (n + 20) 57 ++ [59], .typeError (.number (List.replicate (n + 20) 57)) ((n + 23 : Nat) : Int), ?_, ?_⟩
  · have h := nines_decode n (.int 0)
    have hl : (([105, 58] ++ List.replicate (n + 20) 57 ++ [59] : Bytes)).length ≠ 0 := by simp
    generalize ([105, 58] ++ List.replicate (n + 20) 57 ++ [59] : Bytes) = b at h hl ⊢
    have hi : unmarshalInto Demo.W 1 b (.int .i64) (.int 0) = (.int 0, .err (.typeError (.number (List.replicate (n + 20) 57)) ((n + 23 : Nat) : Int))) := by
      unfold unmarshalInto
      show (match intDecode .i64 b 0 (.int 0) with | (v', r) => onOk v' r fun c => (v', validateEndBuf b c)) = _
      rw [h]; rfl
    unfold unmarshal
    simp only [hi]
    rw [if_neg hl]
  · intro F e' he
    have hr : rawIn e' = some (List.replicate (n + 20) 57) := (raw_plain he).1
    have := (raw_infix (F := F) hr).length_le
    simp only [List.length_replicate] at this
    omega

/-- C76: the text of a type error shows what was found, the type it did not fit, the offset, and the names of struct and field, if at least
one of them is known (an unnamed struct type has no name). -/
theorem C76_names_shown (F : Fmt) (w : What) (o : Int) (x : Blame) :
    (w.text F <:+: errText F (.typeError w o (some x))) ∧ (F.typ x.type <:+: errText F (.typeError w o (some x))) ∧
    (decText o <:+: errText F (.typeError w o (some x))) ∧
    (x.names.strct ≠ [] ∨ x.names.field ≠ [] → (x.names.strct ++ lit "." ++ x.names.field) <:+: errText F (.typeError w o (some x))) := by
  show (_ <:+: typeErrorText F w o x) ∧ (_ <:+: typeErrorText F w o x) ∧ (_ <:+: typeErrorText F w o x) ∧ (_ → _ <:+: typeErrorText F w o x)
  unfold typeErrorText
  split
  · refine ⟨⟨_, _, by simp only [List.append_assoc]; rfl⟩, ⟨lit "php-serialize: cannot unmarshal " ++ w.text F ++ lit " into Go struct field " ++ x.names.strct ++ lit "." ++ x.names.field ++
      lit " of type ", _, by simp only [List.append_assoc]; rfl⟩, ⟨lit "php-serialize: cannot unmarshal " ++ w.text F ++ lit " into Go struct field " ++ x.names.strct ++ lit "." ++ x.names.field ++
      lit " of type " ++ F.typ x.type ++ lit " (offset ", _, by simp only [List.append_assoc]; rfl⟩,
      fun _ => ⟨lit "php-serialize: cannot unmarshal " ++ w.text F ++ lit " into Go struct field ", _, by simp only [List.append_assoc]; rfl⟩⟩
  · refine ⟨⟨_, _, by simp only [List.append_assoc]; rfl⟩, ⟨lit "php-serialize: cannot unmarshal " ++ w.text F ++ lit " into Go value of type ", _, by simp only [List.append_assoc]; rfl⟩,
      ⟨lit "php-serialize: cannot unmarshal " ++ w.text F ++ lit " into Go value of type " ++ F.typ x.type ++ lit " (offset: ", _, by simp only [List.append_assoc]; rfl⟩,
      fun h => absurd h (by assumption)⟩

-- the field `A` of an unnamed struct type
example : errText Demo.fmt (.typeError (.lit "string") 7 (some ⟨⟨[], b! "A"⟩, some (.int .int)⟩)) =
    lit "php-serialize: cannot unmarshal string into Go struct field .A of type " ++ Demo.fmt.typ (some (.int .int)) ++ lit " (offset 7)" := by rfl

end Verif

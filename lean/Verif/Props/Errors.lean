import Verif.Proofs.Errors
import Verif.Proofs.DeepSkip
import Verif.Props.DemoFacts
/-
C54: what the errors of `Unmarshal` say about the place in the input. The property in full: an error's Offset is a position
in the input or its end, and a byte shown in the message is the byte at that position. It fails for a few errors, listed
below with witnesses; everything else is proved.
-/
namespace Verif
open Spec Demo

/-- C54: the Offset of an error lies between 0 and the length of the input, except for the error that reports the end of
input inside a class name. The user's own methods must do the same relative to the bytes they are given (a SyntaxError of
a declared type's method is given a new Offset, so nothing is asked of it). Missing for the full property: the exception,
which is real (`C54_class_name_beyond`). -/
theorem C54_located_partial (W : World) (fuel : Nat) (data : Bytes) (hb : data.length < 2 ^ 63) (dst : Dst)
    (hu : ∀ id src e, W.unmarshal id src = .err e → message e = none → Located src e)
    (hdyn : ∀ t v src v' e, W.unmarshalDyn t v src = (v', .err e) → Located src e ∨ ∃ n, e = .unexpectedEnd "class name" n)
    (o : Option Val) (e : Err) (h : unmarshal W fuel data dst = (o, .err e)) :
    Located data e ∨ ∃ n, e = .unexpectedEnd "class name" n := by
  have hU : UserTells W data fun e => Located data e ∨ ∃ n, e = .unexpectedEnd "class name" n := by
    refine ⟨fun id src e c hs hc h => ?_, fun t v src v' e hs h => ?_⟩
    · by_cases hm : message e = none
      · have := hu id src e h hm
        left
        intro o ho
        cases e <;> simp [message] at hm <;> simp [annotate, offsetOf] at ho
        subst ho
        have := this _ rfl
        omega
      · left
        intro o ho
        cases e <;> simp [message] at hm <;> simp only [annotate, offsetOf, Option.some.injEq] at ho <;> omega
    · refine (hdyn t v src v' e h).imp (fun h o ho => ?_) id
      have := h o ho
      omega
  rcases unmarshal_tells hb (fun e he => he.1) hU h with h | ⟨x, n, rfl, hx⟩
  · exact h
  · left
    intro o ho
    cases ho
    have := (List.getElem?_eq_some_iff.1 hx).1
    omega

/-- Error at the very end of the input: Offset 2 of 2 bytes. -/
example : unmarshal Demo.W 1 (b! "i:") (.ptr (.int .i64) (.int 0)) = (some (.int 0), .err (.unexpectedEnd "integer" 0)) ∧
    unmarshal Demo.W 1 (b! "s:") (.ptr .str (.str [])) = (some (.str []), .err (.syntaxErr "length requires at least one digit" 2)) := ⟨rfl, rfl⟩

/-- C54, the exception: for a class name longer than the input the Offset lies beyond the input, and for one of 2^63-1
bytes it is negative (context.go:103-105). -/
theorem C54_class_name_beyond :
    (∃ e o, unmarshal Demo.W 9 (b! "O:99:\"x\":0:{}") (.ptr (.map .str .any) .mapNil) = (some .mapNil, .err e) ∧ offsetOf e = some o ∧
      o > (b! "O:99:\"x\":0:{}").length) ∧
    (∃ e o, unmarshal Demo.W 9 (b! "O:9223372036854775807:\"x\":0:{}") (.ptr (.map .str .any) .mapNil) = (some .mapNil, .err e) ∧ offsetOf e = some o ∧
      o < 0) :=
  ⟨⟨_, _, rfl, rfl, by decide⟩, ⟨_, _, rfl, rfl, by decide⟩⟩

/-- C54: a byte shown in an error message stands in the input, at most one byte before and at most two bytes after the
Offset; but for the error about nesting depth, which may show an 'a' whatever stands there (`C54_shown_nowhere`). The
user's own methods must not show bytes. -/
theorem C54_shown_near (W : World) (fuel : Nat) (data : Bytes) (hb : data.length < 2 ^ 63) (dst : Dst)
    (hu : ∀ id src e, W.unmarshal id src = .err e → shownByte e = none)
    (hdyn : ∀ t v src v' e, W.unmarshalDyn t v src = (v', .err e) → shownByte e = none)
    (o : Option Val) (e : Err) (h : unmarshal W fuel data dst = (o, .err e)) (hd : ∀ n, e ≠ .maxDepth 97 n) (x : Byte) (hx : shownByte e = some x) :
    ∃ (off : Int) (n : Nat), offsetOf e = some off ∧ off - 1 ≤ n ∧ n ≤ off + 2 ∧ data[n]? = some x := by
  have hU : UserTells W data fun e => (∀ n, e ≠ .maxDepth 97 n) → ∀ x, shownByte e = some x →
      ∃ (off : Int) (n : Nat), offsetOf e = some off ∧ off - 1 ≤ n ∧ n ≤ off + 2 ∧ data[n]? = some x := by
    refine ⟨fun id src e c hs hc h _ x hx => ?_, fun t v src v' e hs h _ x hx => ?_⟩
    · have := hu id src e h
      cases e <;> simp [shownByte, message, annotate] at this hx
    · rw [hdyn t v src v' e h] at hx; cases hx
  refine Or.elim (unmarshal_tells hb ?_ hU h) (fun h => h hd x hx) ?_
  · rintro e ⟨-, h | ⟨y, w, n, k, hk, rfl, hy⟩ | ⟨n, rfl⟩, -⟩ hd x hx
    · obtain ⟨n, h1, h2⟩ := h x hx
      exact ⟨n, n, h1, by omega, by omega, h2⟩
    · cases hx
      exact ⟨n, n + k, rfl, by omega, by omega, hy⟩
    · exact absurd rfl (hd n)
  · rintro ⟨y, n, rfl, hy⟩
    cases hx
    exact ⟨_, n, rfl, by omega, by omega, hy⟩

example : unmarshal Demo.W 9 (b! "a:1:{i:0;s:1:'a';}") (.ptr (.slice .str) .sliceNil) =
    (some .sliceNil, .err (.unexpected "string quoted '\"'" 13 39)) := rfl

/-- C54: the byte shown is the one at the Offset, except in messages of the form "invalid character … as null/bool",
in the one about bytes after the top-level value and in the one about nesting depth. Missing for the full property: these
exceptions, which are real (`C54_shown_elsewhere`, `C54_shown_nowhere`). -/
theorem C54_shown_partial (W : World) (fuel : Nat) (data : Bytes) (hb : data.length < 2 ^ 63) (dst : Dst)
    (hu : ∀ id src e, W.unmarshal id src = .err e → shownByte e = none)
    (hdyn : ∀ t v src v' e, W.unmarshalDyn t v src = (v', .err e) → shownByte e = none)
    (o : Option Val) (e : Err) (h : unmarshal W fuel data dst = (o, .err e))
    (h1 : ∀ y w n, e ≠ .invalidChar y w n) (h2 : ∀ y n, e ≠ .trailing y n) (h3 : ∀ n, e ≠ .maxDepth 97 n) : Shows data e := by
  have hU : UserTells W data fun e => Shows data e ∨ (∃ y w n, e = .invalidChar y w n) ∨ ∃ n, e = .maxDepth 97 n := by
    refine ⟨fun id src e c hs hc h => .inl fun x hx => ?_, fun t v src v' e hs h => .inl fun x hx => ?_⟩
    · have := hu id src e h
      cases e <;> simp [shownByte, message, annotate] at this hx
    · rw [hdyn t v src v' e h] at hx; cases hx
  refine Or.elim (unmarshal_tells hb ?_ hU h) (fun h => h.elim id fun h => h.elim (fun ⟨y, w, n, h⟩ => absurd h (h1 y w n)) fun ⟨n, h⟩ => absurd h (h3 n)) fun ⟨y, n, h, _⟩ => absurd h (h2 y _)
  · rintro e ⟨-, h | ⟨y, w, n, k, hk, rfl, hy⟩ | ⟨n, rfl⟩, -⟩
    · exact .inl h
    · exact .inr (.inl ⟨_, _, _, rfl⟩)
    · exact .inr (.inr ⟨_, rfl⟩)

/-- C54, the exceptions: `Nx` shows `x` at Offset 0 (context.go:227-229), `b:2;` shows `2` at Offset 0
(context.go:361-371), and `N;x` shows `x` at Offset 3, the end of the input (unmarshal.go:59-62). -/
theorem C54_shown_elsewhere :
    (∃ e, unmarshal Demo.W 1 (b! "Nx") (.ptr (.int .i64) (.int 0)) = (some (.int 0), .err e) ∧ ¬ Shows (b! "Nx") e) ∧
    (∃ e, unmarshal Demo.W 1 (b! "b:2;") (.ptr .bool (.bool false)) = (some (.bool false), .err e) ∧ ¬ Shows (b! "b:2;") e) ∧
    (∃ e, unmarshal Demo.W 1 (b! "N;x") (.ptr (.int .i64) (.int 0)) = (some (.int 0), .err e) ∧ ¬ Shows (b! "N;x") e) := by
  refine ⟨⟨_, rfl, fun h => ?_⟩, ⟨_, rfl, fun h => ?_⟩, ⟨_, rfl, fun h => ?_⟩⟩
  · obtain ⟨n, h1, h2⟩ := h 120 rfl
    have : n = 0 := by simpa [offsetOf] using h1.symm
    subst this
    exact absurd h2 (by decide)
  · obtain ⟨n, h1, h2⟩ := h 50 rfl
    have : n = 0 := by simpa [offsetOf] using h1.symm
    subst this
    exact absurd h2 (by decide)
  · obtain ⟨n, h1, h2⟩ := h 120 rfl
    have : n = 3 := by simp [offsetOf] at h1; omega
    subst this
    exact absurd h2 (by decide)

/-- C54, one more exception: when objects that are to be skipped are nested too deeply, the error shows an 'a' at the Offset
190007 although no byte of the input is an 'a' (context.go:134). -/
theorem C54_shown_nowhere : ∃ e, unmarshal Demo.W 9 (openObjs 10001) (.ptr (.named 0) (.int 0)) = (some (.int 0), .err e) ∧
    shownByte e = some 97 ∧ offsetOf e = some 190007 ∧ 97 ∉ openObjs 10001 := by
  obtain ⟨k, hk⟩ : ∃ k, k + 1 = 10001 := ⟨10000, rfl⟩
  rw [← hk]
  have hl := openObjs_length (k + 1)
  refine ⟨.maxDepth 97 190007, ?_, rfl, rfl, not_mem_openObjs (by decide) _⟩
  have h := openObjs_skip (b := openObjs (k + 1)) (by rw [hl, hk]; decide) k (f := (openObjs (k + 1)).length + 1) (c := 0) (d := 0) (r := []) (by simp)
    (by rw [show maxDepth = 10000 from rfl]; omega) (by omega)
  generalize openObjs (k + 1) = b at h hl
  have hu : unmarshalDecode Demo.W 0 b 0 0 (.int 0) = (.int 0, .err (.maxDepth 97 190007)) := by
    unfold unmarshalDecode skipValue
    rw [h, show 0 + 19 * k + 7 = 190007 by omega]; rfl
  have hi : unmarshalInto Demo.W 9 b (.named 0) (.int 0) = (.int 0, .err (.maxDepth 97 190007)) := by
    unfold unmarshalInto
    rw [show compileD Demo.W 9 [] (.named 0) = .ok () from rfl]
    show (match unmarshalDecode Demo.W 0 b 0 0 (.int 0) with | (v', r) => onOk v' r fun c => (v', validateEndBuf b c)) = _
    rw [hu]; rfl
  unfold unmarshal
  simp only [hi]
  rw [if_neg (by omega)]

/-- The demo world with a method that finds fault with byte 2 of what it is given, or with the type of its start. -/
def Demo.faulty : World :=
  { Demo.W with unmarshal := fun _ s => if s.head? = some 115 then .err (.unexpected "something else" 2 (s[2]?.getD 0)) else .err (.typeError "number" 0) }

/-- C54, why the methods are restricted: the byte shown by a method's SyntaxError keeps its place in the text but not in
the input, and a method's type error keeps an Offset that counts from the start of its own value (unmarshal_php.go:31-39). -/
theorem C54_methods :
    (∃ e, unmarshal Demo.faulty 9 (b! "a:1:{i:0;s:1:\"x\";}") (.ptr (.slice (.named 0)) .sliceNil) = (some .sliceNil, .err e) ∧
      shownByte e = some 49 ∧ offsetOf e = some 9 ∧ (b! "a:1:{i:0;s:1:\"x\";}")[9]? = some 115) ∧
    (∃ e, unmarshal Demo.faulty 9 (b! "a:1:{i:0;i:7;}") (.ptr (.slice (.named 0)) .sliceNil) = (some .sliceNil, .err e) ∧
      offsetOf e = some 0) :=
  ⟨⟨_, rfl, rfl, rfl, rfl⟩, ⟨_, rfl, rfl⟩⟩

end Verif

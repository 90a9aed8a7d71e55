import Verif.Proofs.Unquote
import Verif.Props.Demo
/-
C65: the unquoting of JSON strings that is left in the Unmarshaler decoder.
-/
namespace Verif

/-- The function that removes JSON quotes ends without a panic on every input, and returns a text exactly when the input is a quoted
string whose inside stands for that text; otherwise it reports that there was nothing to unquote. -/
theorem C65_exact (s : Bytes) : ∃ o, unquoteBytes s = .ok o ∧ ∀ t, o = some t ↔ ∃ u, s = 34 :: u ++ [34] ∧ Unesc u t :=
  unquoteBytes_spec s

/-- `"é\n😀\ud800"`: a character that stays, a letter escape, a surrogate pair and half of one. -/
example : ∃ u, b! "\"é\\n\\ud83d\\ude00\\ud800\"" = 34 :: u ++ [34] ∧ Unesc u ([0xC3, 0xA9, 10, 0xF0, 0x9F, 0x98, 0x80, 0xEF, 0xBF, 0xBD] : Bytes) := by
  obtain ⟨o, h1, h2⟩ := C65_exact (b! "\"é\\n\\ud83d\\ude00\\ud800\"")
  have : unquoteBytes (b! "\"é\\n\\ud83d\\ude00\\ud800\"") = .ok (some [0xC3, 0xA9, 10, 0xF0, 0x9F, 0x98, 0x80, 0xEF, 0xBF, 0xBD]) := by krfl
  rw [this] at h1
  cases h1
  exact (h2 _).1 rfl

/-- An unknown escape, a control character, half an escape and a quote inside are all refused. -/
example : unquoteBytes (b! "\"a\\x\"") = .ok none ∧ unquoteBytes [34, 10, 34] = .ok none ∧ unquoteBytes (b! "\"\\u12\"") = .ok none ∧
    unquoteBytes (b! "\"a\"b\"") = .ok none ∧ unquoteBytes (b! "\"") = .ok none := by
  refine ⟨by krfl, by krfl, by krfl, by krfl, by krfl⟩

/-- What comes out is always valid UTF-8, whatever went in. -/
theorem C65_utf8 {s t : Bytes} (h : unquoteBytes s = .ok (some t)) : ∃ cs : List Char, t = cs.flatMap utf8 := by
  obtain ⟨o, h1, h2⟩ := unquoteBytes_spec s
  rw [h] at h1
  cases h1
  obtain ⟨u, -, hu⟩ := (h2 t).1 rfl
  exact unesc_chars hu

/-- Stray bytes 0xFF and a truncated sequence become U+FFFD each. -/
example : unquoteBytes [34, 0xFF, 65, 0xE2, 0x82, 34] = .ok (some ([0xEF, 0xBF, 0xBD, 65, 0xEF, 0xBF, 0xBD, 0xEF, 0xBF, 0xBD])) ∧
    [0xEF, 0xBF, 0xBD, 65, 0xEF, 0xBF, 0xBD, 0xEF, 0xBF, 0xBD] = [Char.ofNat 0xFFFD, 'A', Char.ofNat 0xFFFD, Char.ofNat 0xFFFD].flatMap utf8 :=
  ⟨by krfl, by rfl⟩

/-- Text without quote, backslash or control character comes back unchanged when it is valid UTF-8. -/
theorem C65_plain {cs : List Char} (h : ∀ c ∈ cs, 32 ≤ c.toNat ∧ c ≠ '"' ∧ c ≠ '\\') :
    unquoteBytes (34 :: cs.flatMap utf8 ++ [34]) = .ok (some (cs.flatMap utf8)) := by
  obtain ⟨o, h1, h2⟩ := unquoteBytes_spec (34 :: cs.flatMap utf8 ++ [34])
  rw [h1, (h2 _).2 ⟨_, rfl, unesc_plain h⟩]

example : unquoteBytes (34 :: ['h', 'é', '😀'].flatMap utf8 ++ [34]) = .ok (some (['h', 'é', '😀'].flatMap utf8)) :=
  C65_plain (by decide)

end Verif

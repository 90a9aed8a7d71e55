import Verif.Proofs.Lossless
import Verif.Props.Any
/-
What an `any` tells about the PHP value that was read into it (C86).
-/
namespace Verif
open Spec

/-- C86: two PHP values, read into `any`s, give the same value exactly if they differ at most in the order of entries, the names of classes and the spelling of
floats. -/
theorem C86_tells (W : World) (f f' : Nat) (p p' : Php) (hp : p.Ok W) (hp' : p'.Ok W) (hd : p.depth ≤ 10000) (hd' : p'.depth ≤ 10000)
    (hb : p.doc.text.length < 2 ^ 63) (hb' : p'.doc.text.length < 2 ^ 63) (old old' v v' : Val)
    (hv : unmarshal W (f + 1) p.doc.text (.ptr .any old) = (some v, .ok ())) (hv' : unmarshal W (f' + 1) p'.doc.text (.ptr .any old') = (some v', .ok ())) :
    SameAny v v' ↔ AlikePhp p p' := by
  rw [C22_any_meaning W f p hp hd hb old] at hv
  rw [C22_any_meaning W f' p' hp' hd' hb' old'] at hv'
  cases hv
  cases hv'
  exact ⟨fun h => php_alike_of_same h rfl rfl, same_of_alike⟩

/-- C86: whatever text is read into an `any`, the result is that of a PHP value, with distinct keys and integers of 64 bits, that is not nested more deeply than the
text. In other words, of every text that is accepted there is one as PHP would write it that gives the same. -/
theorem C86_meaning (W : World) (f : Nat) (tx : Bytes) (hb : tx.length < 2 ^ 63) (old v : Val) (hv : unmarshal W (f + 1) tx (.ptr .any old) = (some v, .ok ())) :
    ∃ p : Php, p.Ok W ∧ p.depth ≤ 10000 ∧ v = p.val ∧
      (p.doc.text.length < 2 ^ 63 → ∀ f' old', unmarshal W (f' + 1) p.doc.text (.ptr .any old') = (some v, .ok ())) := by
  obtain ⟨d, rfl, h1, h2⟩ := (C14_any_exact W f tx hb old v).1 hv
  obtain ⟨p, h3, h4, h5⟩ := anyVal_php h1
  exact ⟨p, h3, by omega, h4.symm, fun hl f' old' => h4 ▸ C22_any_meaning W f' p h3 (by omega) hl old'⟩

namespace Demo

/-- `a:2:{s:1:"5";O:1:"B":2:{s:1:"x";d:0.5;s:0:"";N;}i:-5;b:1;}`: `samplePhp` with another class and the entries in another order. -/
def otherPhp : Php := .arr [(.str [53], .obj [66] [([120], .float [48, 46, 53] 0x3FE0000000000000), ([], .null)]), (.int (-5), .bool true)]

theorem otherPhp_ok : otherPhp.Ok W := by
  refine .arr (by decide) ?_ ?_
  · intro k v h
    simp at h
    rcases h with ⟨rfl, -⟩ | ⟨rfl, -⟩
    · trivial
    · show InRange _ _; unfold InRange; decide
  · intro k v h
    simp at h
    rcases h with ⟨-, rfl⟩ | ⟨-, rfl⟩
    · refine .obj (by decide) ?_
      intro k v h
      simp at h
      rcases h with ⟨-, rfl⟩ | ⟨-, rfl⟩
      · exact .float (by decide) (by decide) (.parsed (by decide) (by decide) (by decide) rfl)
      · exact .null
    · exact .bool

end Demo

-- the hypotheses of `C86_tells`, for values that differ in order and class
example : samplePhp.Ok Demo.W ∧ Demo.otherPhp.Ok Demo.W ∧ samplePhp.depth ≤ 10000 ∧ Demo.otherPhp.depth ≤ 10000 ∧ samplePhp.doc.text.length < 2 ^ 63 ∧
    Demo.otherPhp.doc.text.length < 2 ^ 63 ∧ unmarshal Demo.W 1 samplePhp.doc.text (.ptr .any .ifaceNil) = (some samplePhp.val, .ok ()) ∧
    unmarshal Demo.W 1 Demo.otherPhp.doc.text (.ptr .any .ifaceNil) = (some Demo.otherPhp.val, .ok ()) :=
  ⟨samplePhp_ok, Demo.otherPhp_ok, by decide, by decide, by decide, by decide, C22_any_meaning Demo.W 0 _ samplePhp_ok (by decide) (by decide) _,
    C22_any_meaning Demo.W 0 _ Demo.otherPhp_ok (by decide) (by decide) _⟩

-- they are the same in the sense of `C86_tells`
example : AlikePhp samplePhp Demo.otherPhp := by
  refine .arr (fs := [(.int (-5), .bool true), (.str [53], .obj [66] [([120], .float [48, 46, 53] 0x3FE0000000000000), ([], .null)])]) (.swap ..) rfl ?_ ?_
  · rintro (_ | _ | i) x y hx hy <;> cases hx <;> cases hy <;> rfl
  · rintro (_ | _ | i) x y hx hy <;> cases hx <;> cases hy
    · exact .bool
    · refine .obj (fs := [([], .null), ([120], .float [48, 46, 53] 0x3FE0000000000000)]) (.swap ..) rfl ?_ ?_
      · rintro (_ | _ | i) x y hx hy <;> cases hx <;> cases hy <;> rfl
      · rintro (_ | _ | i) x y hx hy <;> cases hx <;> cases hy
        · exact .null
        · exact .float

-- the hypothesis of `C86_meaning`, for a text with leading zeros, a wrong count and a doubled key
example : unmarshal Demo.W 1 (b! "a:07:{i:005;N;i:5;s:1:\"x\";}") (.ptr .any .ifaceNil) =
    (some (.iface (.map .any .any) (.map [(.iface (.int .i64) (.int 5), .iface .str (.str [120]))])), .ok ()) := by rfl

end Verif

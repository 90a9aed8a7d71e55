import Verif.Proofs.Php
import Verif.Props.DemoFacts
/-
Decoding into an empty interface (C22, second half of C14) and null (C20).
-/
namespace Verif
open Spec Demo

/-- C14, second half, and more: what is accepted into an `any` and what comes out is described exactly by `AnyVal`, which
knows nothing about nesting, and the condition that at most 10000 containers are nested. -/
theorem C14_any_exact (W : World) (fuel : Nat) (data : Bytes) (hb : data.length < 2 ^ 63) (old v : Val) :
    unmarshal W (fuel + 1) data (.ptr .any old) = (some v, .ok ()) ↔ ∃ d, data = d.text ∧ AnyVal W d v ∧ d.depth ≤ 10000 := by
  rw [unmarshal_ok_iff hb]
  constructor
  · rintro ⟨-, d, v', hv, rfl, hd⟩
    cases hv
    exact ⟨d, rfl, any_sound hd, lax_depth_le (decDoc_lax hd)⟩
  · rintro ⟨d, rfl, h, hd⟩
    exact ⟨rfl, d, v, rfl, rfl, any_complete h hd⟩

/-- A document nested too deeply is rejected, one level less is accepted: the hypotheses on both sides can be met. -/
def nestDoc : Nat → Doc
  | 0 => .null
  | n + 1 => .arr [49] [(.int [48], nestDoc n)]

def nestVal : Nat → Val
  | 0 => .ifaceNil
  | n + 1 => .iface (.map .any .any) (.map [(.iface (.int .i64) (.int 0), nestVal n)])

theorem nest_any (W : World) : ∀ n, AnyVal W (nestDoc n) (nestVal n)
  | 0 => .null
  | n + 1 => AnyVal.arr (kvs := [(_, nestVal n)]) (m := 1) ⟨⟨by simp, by simp; decide⟩, rfl, by decide⟩
      (.cons (.int (.pos ⟨by simp, by simp; decide⟩) (by unfold InRange; decide)) (nest_any W n) .nil)

theorem nest_depth : ∀ n, (nestDoc n).depth = n
  | 0 => rfl
  | n + 1 => by simp [nestDoc, Doc.depth, pairsDepth, nest_depth n]

theorem nest_length : ∀ n, (nestDoc n).text.length = 10 * n + 2
  | 0 => rfl
  | n + 1 => by
    have := nest_length n
    simp [nestDoc, Doc.text, pairsText]
    omega

/-- 10000 levels are accepted, 10001 are not, by the same theorem. -/
example (W : World) : unmarshal W 1 (nestDoc 10000).text (.ptr .any .ifaceNil) = (some (nestVal 10000), .ok ()) :=
  (C14_any_exact W 0 _ (by rw [nest_length]; decide) _ _).2 ⟨_, rfl, nest_any W _, by rw [nest_depth]; decide⟩

example (W : World) (v : Val) : unmarshal W 1 (nestDoc 10001).text (.ptr .any .ifaceNil) ≠ (some v, .ok ()) := by
  intro h
  obtain ⟨d, hd, hv, hle⟩ := (C14_any_exact W 0 _ (by rw [nest_length]; decide) _ _).1 h
  have := (lax_unique (anyVal_lax (nest_any W 10001)) (anyVal_lax hv) (r1 := []) (r2 := []) (by rw [hd])).1
  rw [← this, nest_depth] at hle
  exact absurd hle (by decide)

/-- C22: decoding the serialization of a PHP value into an `any` gives nil, bool, int64, float64, string, `map[any]any` with
int64 and string keys for arrays, and `map[string]any` for objects, recursively, whatever the `any` held before. -/
theorem C22_any_meaning (W : World) (fuel : Nat) (p : Php) (hp : p.Ok W) (hd : p.depth ≤ 10000) (hb : p.doc.text.length < 2 ^ 63) (old : Val) :
    unmarshal W (fuel + 1) p.doc.text (.ptr .any old) = (some p.val, .ok ()) :=
  (C14_any_exact W fuel _ hb old _).2 ⟨p.doc, rfl, php_anyVal p hp hb, by rw [php_depth]; exact hd⟩

/-- An array with an integer key, a string key that looks like an integer, and a nested object. -/
def samplePhp : Php := .arr [(.int (-5), .bool true), (.str [53], .obj [65] [([], .null), ([120], .float [48, 46, 53] 0x3FE0000000000000)])]

example : samplePhp.doc.text = b! "a:2:{i:-5;b:1;s:1:\"5\";O:1:\"A\":2:{s:0:\"\";N;s:1:\"x\";d:0.5;}}" := by decide

theorem samplePhp_ok : samplePhp.Ok Demo.W := by
  refine .arr (by decide) ?_ ?_
  · intro k v h
    simp at h
    rcases h with ⟨rfl, -⟩ | ⟨rfl, -⟩
    · show InRange _ _; unfold InRange; decide
    · trivial
  · intro k v h
    simp at h
    rcases h with ⟨-, rfl⟩ | ⟨-, rfl⟩
    · exact .bool
    · refine .obj (by decide) ?_
      intro k v h
      simp at h
      rcases h with ⟨-, rfl⟩ | ⟨-, rfl⟩
      · exact .null
      · exact .float (by decide) (by decide) (.parsed (by decide) (by decide) (by decide) rfl)

example : unmarshal Demo.W 1 samplePhp.doc.text (.ptr .any .ifaceNil) =
    (some (.iface (.map .any .any) (.map [(.iface (.int .i64) (.int (-5)), .iface .bool (.bool true)),
      (.iface .str (.str [53]), .iface (.map .str .any) (.map [(.str [], .ifaceNil), (.str [120], .iface .f64 (.f64 0x3FE0000000000000))]))])), .ok ()) :=
  C22_any_meaning Demo.W 0 samplePhp samplePhp_ok (by decide) (by decide) _

/-! ### Null -/

/-- The effect of null on a variable: pointers, maps, slices other than byte slices and interfaces become nil, types with
UnmarshalPHP become zero, everything else stays as it is. -/
inductive NullEffect (W : World) (t : Ty) (old : Val) : Val → Prop
  | unm {id} : W.unmOf t = some id → NullEffect W t old (W.namedZero id)
  | ptr {e} : Plain W t (.ptr e) → NullEffect W t old .ptrNil
  | map {k e} : Plain W t (.map k e) → NullEffect W t old .mapNil
  | slice {e} : Plain W t (.slice e) → W.isByte e = false → NullEffect W t old .sliceNil
  | any : Plain W t .any → NullEffect W t old .ifaceNil
  | iface {i} : Plain W t (.iface i) → NullEffect W t old .ifaceNil
  | bytes {e} : Plain W t (.slice e) → W.isByte e = true → NullEffect W t old old
  | scalar : IsScalar W t → NullEffect W t old old
  | str : Plain W t .str → NullEffect W t old old
  | array {n e} : Plain W t (.array n e) → NullEffect W t old old
  | struct {id} : Plain W t (.struct id) → NullEffect W t old old

theorem null_dec {W : World} (hW : W.NamedOk) {t : Ty} (ht : ¬ Plain W t .other) (hpp : ∀ e, Plain W t (.ptr e) → W.isPtr e = false) {n : Nat} {old : Val} :
    ∃ v, DecDoc W t (n + 1) .null old v ∧ NullEffect W t old v := by
  cases hu : W.unmOf t with
  | some id => exact ⟨_, .unmNull hu, .unm hu⟩
  | none =>
    have hp : Plain W t (W.resolve t) := ⟨hu, rfl⟩
    revert hp
    cases hr : W.resolve t with
    | bool => exact fun hp => ⟨_, .boolNull hp, .scalar (.inl hp)⟩
    | int k => exact fun hp => ⟨_, .intNull hp, .scalar (.inr (.inl ⟨_, hp⟩))⟩
    | uint k => exact fun hp => ⟨_, .uintNull hp, .scalar (.inr (.inr (.inl ⟨_, hp⟩)))⟩
    | f32 => exact fun hp => ⟨_, .f32Null hp, .scalar (.inr (.inr (.inr (.inl hp))))⟩
    | f64 => exact fun hp => ⟨_, .f64Null hp, .scalar (.inr (.inr (.inr (.inr hp))))⟩
    | str => exact fun hp => ⟨_, .strNull hp, .str hp⟩
    | slice e =>
      intro hp
      cases hb : W.isByte e with
      | true => exact ⟨_, .bytesNull hp hb, .bytes hp hb⟩
      | false => exact ⟨_, .sliceNull hp hb, .slice hp hb⟩
    | array k e => exact fun hp => ⟨_, .arrayNull hp, .array hp⟩
    | map k e => exact fun hp => ⟨_, .mapNull hp, .map hp⟩
    | ptr e => exact fun hp => ⟨_, .ptrNull hp (hpp e hp), .ptr hp⟩
    | struct id => exact fun hp => ⟨_, .structNull hp, .struct hp⟩
    | any => exact fun hp => ⟨_, .anyNull hp, .any hp⟩
    | iface i => exact fun hp => ⟨_, .ifaceNull hp, .iface hp⟩
    | other => exact fun hp => absurd hp ht
    | named i =>
      intro _
      exfalso
      cases t <;> simp [World.resolve] at hr
      exact hW _ _ hr

/-- C20, weakened: null is accepted for every type that compiles except channels, functions and the like (for which the
code has a decoder that rejects everything, see `C20_other_counterexample`), with the effect the documentation gives. It
holds at every nesting depth below 10000; see `C20_depth_counterexample` for the limit itself. -/
theorem C20_null_partial (W : World) (hW : W.NamedOk) (t : Ty) (ht : ¬ Plain W t .other) (fuel : Nat) (hc : compileD W fuel [] t = .ok ()) (old : Val) :
    ∃ v, unmarshal W fuel (b! "N;") (.ptr t old) = (some v, .ok ()) ∧ NullEffect W t old v := by
  have hpp : ∀ e, Plain W t (.ptr e) → W.isPtr e = false := by
    intro e he
    cases fuel with
    | zero => simp [compileD] at hc
    | succ f =>
      rw [compileD, he.1, he.2] at hc
      simp only [Res.bind_eq_ok] at hc
      obtain ⟨-, -, hc⟩ := hc
      cases hne : W.isPtr e
      · rfl
      · simp [hne] at hc
  obtain ⟨v, h1, h2⟩ := null_dec hW ht hpp (n := 9999) (old := old)
  exact ⟨v, (unmarshal_text_iff (d := .null) (m := 0) (by decide) .null).2 ⟨hc, h1⟩, h2⟩

example : unmarshal Demo.W 9 (b! "N;") (.ptr (.ptr (.int .i64)) (.ptr (.int 5))) = (some .ptrNil, .ok ()) := rfl
example : unmarshal Demo.W 9 (b! "N;") (.ptr (.struct 2) (.struct [.arr [.int 4, .int 5], .bool true])) =
    (some (.struct [.arr [.int 4, .int 5], .bool true]), .ok ()) := rfl

/-- Where C20 fails: the type compiles but null (like anything else) is rejected. -/
theorem C20_other_counterexample :
    compileD Demo.W 1 [] .other = .ok () ∧ ∃ e, unmarshal Demo.W 1 (b! "N;") (.ptr .other .other) = (some .other, .err e) := ⟨rfl, _, rfl⟩

/-- Where C20 fails: inside 10000 containers null is rejected for slices, arrays, maps and structs, because the depth is
checked before the input is looked at; for a pointer in the same place it is accepted. -/
theorem C20_depth_counterexample (W : World) :
    (∀ v, ∃ e, decodeF W (b! "N;") 2 (.slice (.int .i64)) 0 10000 v = (v, .err e)) ∧
    (∀ v, ∃ e, decodeF W (b! "N;") 2 (.map .str .bool) 0 10000 v = (v, .err e)) ∧
    (∀ v, ∃ e, decodeF W (b! "N;") 2 (.array 3 .bool) 0 10000 v = (v, .err e)) ∧
    (∀ v id, ∃ e, decodeF W (b! "N;") 2 (.struct id) 0 10000 v = (v, .err e)) ∧
    (∀ v, decodeF W (b! "N;") 2 (.ptr (.slice (.int .i64))) 0 10000 v = (.ptrNil, .ok 2)) :=
  ⟨fun _ => ⟨_, rfl⟩, fun _ => ⟨_, rfl⟩, fun _ => ⟨_, rfl⟩, fun _ _ => ⟨_, rfl⟩, fun _ => rfl⟩

end Verif

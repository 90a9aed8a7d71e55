import Verif.Proofs.Names
import Verif.Proofs.Places
import Verif.Props.Demo
/-
What type errors say about the variable they are about: struct, field and type (C72).
-/
namespace Verif
open Spec Demo

/-- C72, in part: a type error that a decode ends with is about a place in the input, and names the innermost struct and field that the place belongs to
and the type of its variable, with the exceptions in `RightNames`, `ReportedType` and `NamesPlace`.
The property without exceptions is false: see `C72_unsigned`, `C72_recursive` and `C72_type`. -/
theorem C72_partial (W : World) (hW : W.NamedOk) (fuel : Nat) (t : Ty) (d : Dec) (H : List StructObj) (hg : getDecoder W fuel t = .ok (d, H))
    (data : Bytes) (hb : data.length < 2 ^ 63) (v : Val) (w : What) (o : Int) (bl : Option Blame)
    (he : (decodeWith W d H data v).2 = .err (.typeError w o bl)) : ∃ x, bl = some x ∧ NamesPlace W data t w o x := by
  rcases getDecoder_spec hW fuel t with ⟨d', H', S, h1, -, h3, h4⟩ | ⟨e, h, -⟩ | ⟨p, h, -⟩ | ⟨h, -⟩
  · rw [hg] at h1
    cases h1
    exact decodeWith_named h3 hb h4 v _ he w o bl rfl
  · rw [hg] at h; cases h
  · rw [hg] at h; cases h
  · rw [hg] at h; cases h

/-- C72: an offset in the input belongs to at most one struct and field. -/
theorem C72_place_unique (W : World) (data : Bytes) (t0 t t' : Ty) (c : Nat) (n n' : Names) (h : Spot W data t0 t c n) (h' : Spot W data t0 t' c n') : n = n' :=
  (place_unique h h').1

namespace Demo

/-- `type Node struct { Next *Node "next"; U uint8 "u"; I int8 "i"; S Str "s" }`, `type Outer struct { N Node "n" }`, `type Str string`. -/
def WN : World :=
  { W with
    fields := fun
      | 0 => [⟨b! "Next", b! "next", true, false, .ptr (.named 0)⟩, ⟨b! "U", b! "u", true, false, .uint .u8⟩, ⟨b! "I", b! "i", true, false, .int .i8⟩,
          ⟨b! "S", b! "s", true, false, .named 2⟩]
      | 1 => [⟨b! "N", b! "n", true, false, .named 0⟩]
      | _ => []
    named := fun
      | 0 => ⟨.struct 0, false, .none⟩
      | 1 => ⟨.struct 1, false, .none⟩
      | _ => ⟨.str, false, .none⟩
    namedZero := fun
      | 0 => .struct [.ptrNil, .uint 0, .int 0, .str []]
      | 1 => .struct [.struct [.ptrNil, .uint 0, .int 0, .str []]]
      | _ => .str []
    typeName := fun
      | .named 0 => b! "Node"
      | .named 1 => b! "Outer"
      | .named 2 => b! "Str"
      | _ => [] }

theorem WN_namedOk : WN.NamedOk := by
  intro id n h
  match id with
  | 0 => cases h
  | 1 => cases h
  | _ + 2 => cases h

/-- The decoder of `Outer` and the struct decoders it uses. -/
def outerDec : Dec := .struct 0
def outerHeap : List StructObj :=
  [⟨noNames, [⟨b! "n", 0, .struct 1⟩]⟩,
   ⟨⟨b! "Outer", b! "N"⟩, [⟨b! "next", 0, .ptr (.struct 1) (.named 0) ⟨b! "Node", b! "Next"⟩⟩, ⟨b! "u", 1, .uint .u8 (.uint .u8) ⟨b! "Node", b! "U"⟩⟩,
     ⟨b! "i", 2, .int .i8 (.int .i8) ⟨b! "Node", b! "I"⟩⟩, ⟨b! "s", 3, .str ⟨b! "Node", b! "S"⟩⟩]⟩]

theorem outer_made : getDecoder WN 9 (.named 1) = .ok (outerDec, outerHeap) := by rfl

theorem head1 (b : Bytes) (c c' : Nat) (h : b.drop c = b! "a:1:{" ++ b.drop c') (hc : c' = c + 5) : HeadAt b c c' :=
  .arr (cnt := [49]) ⟨by simp, by decide⟩ h hc

/-- The field `key` of `Node`, at `c2`, in the field of `Outer` in an input that starts with the headers and keys. -/
theorem node_place (data : Bytes) (h : data = b! "a:1:{s:1:\"n\";a:1:{" ++ data.drop 18) :
    Spot WN data (.named 1) (.named 0) 13 ⟨b! "Outer", b! "N"⟩ ∧ EntryAt data 13 18 := by
  have h0 : data.drop 5 = b! "s:1:\"n\";a:1:{" ++ data.drop 18 := by rw [h]; simp
  have h1 : data.drop 13 = b! "a:1:{" ++ data.drop 18 := by rw [h]; simp
  refine ⟨?_, .first (head1 data 13 18 h1 rfl)⟩
  refine .field (id := 1) (kd := .str [49] [110]) (key := [110]) (i := 0) (f := ⟨b! "N", b! "n", true, false, .named 0⟩) .top ⟨rfl, rfl⟩
    (.first (head1 data 0 5 (by rw [h0]; exact h) rfl)) (.str ⟨⟨by simp, by decide⟩, rfl, by decide⟩) (by rw [h0, h1]; rfl) rfl ?_
  exact ⟨rfl, by simp [Visible], hasKey_iff.2 rfl, by intro j g hj; omega⟩

end Demo

/-- A signed integer that is out of range: the error names struct, field and type. -/
example : decodeWith Demo.WN Demo.outerDec Demo.outerHeap (b! "a:1:{s:1:\"n\";a:1:{s:1:\"i\";i:99999999999999999999;}}") (Demo.WN.namedZero 1) =
    (.struct [.struct [.ptrNil, .uint 0, .int 0, .str []]], .err (.typeError (.number (b! "99999999999999999999")) 49 (some ⟨⟨b! "Node", b! "I"⟩, some (.int .i8)⟩))) := by rfl

/-- C72, what is false: the error for an unsigned integer names no struct and no field. -/
theorem C72_unsigned :
    ¬ ∀ (W : World) (fuel : Nat) (t : Ty) (d : Dec) (H : List StructObj) (data : Bytes) (v : Val) (w : What) (o : Int) (x : Blame),
      W.NamedOk → getDecoder W fuel t = .ok (d, H) → (decodeWith W d H data v).2 = .err (.typeError w o (some x)) →
      ∀ t' c e n, Spot W data t t' c n → IntegerAt data c e → o = e → x.names = n := by
  intro h
  have hp : Spot Demo.WN (b! "a:1:{s:1:\"n\";a:1:{s:1:\"u\";i:99999999999999999999;}}") (.named 1) (.uint .u8) 26 ⟨b! "Node", b! "U"⟩ := by
    refine .field (id := 0) (kd := .str [49] [117]) (key := [117]) (i := 1) (f := ⟨b! "U", b! "u", true, false, .uint .u8⟩)
      (Demo.node_place _ rfl).1 ⟨rfl, rfl⟩ (Demo.node_place _ rfl).2 (.str ⟨⟨by simp, by decide⟩, rfl, by decide⟩) rfl rfl ?_
    refine ⟨rfl, by simp [Visible], hasKey_iff.2 rfl, ?_⟩
    intro j g hj hg
    have : j = 0 := by omega
    subst this
    cases hg
    intro _ hk
    exact absurd (hasKey_iff.1 hk) (by decide)
  have := h Demo.WN 9 (.named 1) Demo.outerDec Demo.outerHeap _ (Demo.WN.namedZero 1) (.number (b! "99999999999999999999")) 49 ⟨noNames, some (.uint .u8)⟩ Demo.WN_namedOk Demo.outer_made rfl
    _ 26 49 _ hp ⟨b! "99999999999999999999", 99999999999999999999, .pos ⟨by simp, by decide⟩, rfl, rfl⟩ rfl
  cases this

/-- C72, what is false: an error about a key of a struct that is inside another of the same type names the place of the outer one. -/
theorem C72_recursive :
    ¬ ∀ (W : World) (fuel : Nat) (t : Ty) (d : Dec) (H : List StructObj) (data : Bytes) (v : Val) (w : What) (o : Int) (x : Blame),
      W.NamedOk → getDecoder W fuel t = .ok (d, H) → (decodeWith W d H data v).2 = .err (.typeError w o (some x)) →
      ∀ t' c n, Spot W data t t' c n → o = c → x.names = n := by
  intro h
  have hp : Spot Demo.WN (b! "a:1:{s:1:\"n\";a:1:{s:4:\"next\";a:1:{i:0;N;}}}") (.named 1) .str 34 ⟨b! "Node", b! "Next"⟩ := by
    refine .structKey (id := 0) (t := .named 0) (c := 29) (.ptr (t := .ptr (.named 0)) ?_ ⟨rfl, rfl⟩) ⟨rfl, rfl⟩ ⟨.first (Demo.head1 _ 29 34 rfl rfl), by decide⟩
    refine .field (id := 0) (kd := .str [52] (b! "next")) (key := b! "next") (i := 0) (f := ⟨b! "Next", b! "next", true, false, .ptr (.named 0)⟩)
      (Demo.node_place _ rfl).1 ⟨rfl, rfl⟩ (Demo.node_place _ rfl).2 (.str ⟨⟨by simp, by decide⟩, rfl, by decide⟩) rfl rfl ?_
    exact ⟨rfl, by simp [Visible], hasKey_iff.2 rfl, by intro j g hj; omega⟩
  have := h Demo.WN 9 (.named 1) Demo.outerDec Demo.outerHeap _ (Demo.WN.namedZero 1) "number" 34 ⟨⟨b! "Outer", b! "N"⟩, some .str⟩ Demo.WN_namedOk Demo.outer_made rfl
    _ 34 _ hp rfl
  cases this

/-- C72, what is false: the error about a variable of a declared string type gives `string` as its type. -/
theorem C72_type :
    ¬ ∀ (W : World) (fuel : Nat) (t : Ty) (d : Dec) (H : List StructObj) (data : Bytes) (v : Val) (w : What) (o : Int) (x : Blame),
      W.NamedOk → getDecoder W fuel t = .ok (d, H) → (decodeWith W d H data v).2 = .err (.typeError w o (some x)) →
      ∃ t' c n, Spot W data t t' c n ∧ x.type = some t' := by
  intro h
  obtain ⟨t', c, n, hp, hx⟩ := h Demo.WN 9 (.named 2) (.str noNames) [] (b! "i:1;") (.str []) "number" 0 ⟨noNames, some .str⟩ Demo.WN_namedOk rfl rfl
  cases hx
  obtain ⟨t1, h1, h2⟩ := place_start hp
  rcases h1 with ⟨rfl, rfl, rfl⟩ | ⟨tp, p, np, h3, h4⟩
  · cases ptrTo_stuck h2 (by intro e he; cases he.2)
  · have : ∀ t c n, Spot Demo.WN (b! "i:1;") (.named 2) t c n → t = .named 2 := by
      intro t c n h
      induction h with
      | top => rfl
      | ptr _ h ih => subst ih; cases h.2
      | slice _ h _ _ ih | array _ h _ _ ih | mapVal _ h _ _ ih | mapKey _ h _ ih | structKey _ h _ ih => subst ih; cases h.2
      | anyKey _ h _ ih | anyVal _ h _ _ ih => subst ih; rcases h with h | ⟨i, h⟩ <;> cases h.2
      | field _ h _ _ _ _ _ ih => subst ih; cases h.2
    have := this _ _ _ h3
    subst this
    cases h4 with
    | slice h | array h | mapKey h | mapVal h | structKey h | field h => cases h.2
    | anyKey h | anyVal h => rcases h with h | ⟨i, h⟩ <;> cases h.2

/-- The hypotheses of `C72_partial` hold in these examples. -/
example : ∃ x, (some ⟨⟨b! "Node", b! "I"⟩, some (.int .i8)⟩ : Option Blame) = some x ∧
    NamesPlace Demo.WN (b! "a:1:{s:1:\"n\";a:1:{s:1:\"i\";i:99999999999999999999;}}") (.named 1) (.number (b! "99999999999999999999")) 49 x :=
  C72_partial Demo.WN Demo.WN_namedOk 9 (.named 1) Demo.outerDec Demo.outerHeap Demo.outer_made _ (by decide) (Demo.WN.namedZero 1) (.number (b! "99999999999999999999")) 49 _ rfl

end Verif

import Verif.Proofs.Widen
import Verif.Props.DemoBack
/-
Two versions of a list type, for the examples about wider types.
-/
namespace Verif
open Spec

/-- Version 1 of a list, struct 40: `Next *S40 "next"`, `N int8 "n"`, `Old bool "old"`, `Xs []uint16 "xs"`. Version 2, struct 41: `Xs []int32 "xs"`,
`N int64 "n"`, `Next *S41 "next"`, `New string "new"`. Struct 42: `M map[string]int "m"`. -/
def Demo.WV : World := { Demo.WF with
  fields := fun
    | 40 => [⟨b! "Next", b! "next", true, false, .ptr (.struct 40)⟩, ⟨b! "N", b! "n", true, false, .int .i8⟩, ⟨b! "Old", b! "old", true, false, .bool⟩,
        ⟨b! "Xs", b! "xs", true, false, .slice (.uint .u16)⟩]
    | 41 => [⟨b! "Xs", b! "xs", true, false, .slice (.int .i32)⟩, ⟨b! "N", b! "n", true, false, .int .i64⟩,
        ⟨b! "Next", b! "next", true, false, .ptr (.struct 41)⟩, ⟨b! "New", b! "new", true, false, .str⟩]
    | 42 => [⟨b! "M", b! "m", true, false, .map .str (.int .int)⟩]
    | _ => []
  structZero := fun
    | 40 => .struct [.ptrNil, .int 0, .bool false, .sliceNil]
    | 41 => .struct [.sliceNil, .int 0, .ptrNil, .str []]
    | 42 => .struct [.mapNil]
    | _ => .struct []
  named := fun _ => ⟨.int .int, false, .none⟩
  namedZero := fun _ => .int 0
  toF32 := fun x => if x = 0 then 0 else Demo.WF.toF32 x }

theorem Demo.wv_zeroOk : ZeroOk Demo.WV := by
  refine ⟨fun id => ?_, fun id => ?_⟩
  · rfl
  · show Demo.WV.structZero id = .struct ((Demo.WV.fields id).map fun f => Demo.WV.zero f.ty)
    unfold Demo.WV
    dsimp only
    split <;> rfl

/-- From version 1 to version 2 the field `old` is dropped, `new` is added, elements of 8 bytes are the largest. -/
def Demo.change : Change := ⟨True, (· = b! "new"), 8⟩

/-- Which types correspond. -/
inductive Demo.Rel : Ty → Ty → Prop
  | list : Demo.Rel (.struct 40) (.struct 41)
  | next : Demo.Rel (.ptr (.struct 40)) (.ptr (.struct 41))
  | n : Demo.Rel (.int .i8) (.int .i64)
  | x : Demo.Rel (.uint .u16) (.int .i32)
  | xs : Demo.Rel (.slice (.uint .u16)) (.slice (.int .i32))
  | two : Demo.Rel (.array 2 (.uint .u16)) (.array 2 (.int .i32))

theorem Demo.keys40 {s : Bytes} {i : Nat} {f : Field} (h : FieldFor Demo.WV 40 s i f) :
    ¬ HasString Demo.WV f ∧ ((s = b! "next" ∧ f.ty = .ptr (.struct 40)) ∨ (s = b! "n" ∧ f.ty = .int .i8) ∨ s = b! "old" ∨
      (s = b! "xs" ∧ f.ty = .slice (.uint .u16))) := by
  obtain ⟨h1, -, h2, -⟩ := h
  rw [hasKey_iff] at h2
  rcases i with _ | _ | _ | _ | i
  all_goals cases h1
  all_goals subst h2
  all_goals refine ⟨by rw [hasString_iff]; simp [structTag]; decide, ?_⟩
  · exact .inl ⟨rfl, rfl⟩
  · exact .inr (.inl ⟨rfl, rfl⟩)
  · exact .inr (.inr (.inl rfl))
  · exact .inr (.inr (.inr ⟨rfl, rfl⟩))

theorem Demo.field41 {i : Nat} {f : Field} {s : Bytes} (h : (Demo.WV.fields 41)[i]? = some f) (hv : Visible f) (hk : (structTag Demo.WV f).key = s)
    (hn : ((Demo.WV.fields 41).take i).all (fun g => (structTag Demo.WV g).key != s) = true) : FieldFor Demo.WV 41 s i f := by
  refine ⟨h, hv, hasKey_iff.2 hk, fun j g hj hg _ hk' => ?_⟩
  rw [List.all_eq_true] at hn
  have := hn g (List.mem_of_getElem? (i := j) (by rw [List.getElem?_take, if_pos hj]; exact hg))
  rw [hasKey_iff] at hk'
  simp [hk'] at this

theorem Demo.fields_widen : FieldsWiden Demo.WV Demo.change Demo.Rel 40 41 := by
  refine ⟨fun s i f h => ?_, fun s h => ?_⟩
  · obtain ⟨hs, ⟨rfl, ht⟩ | ⟨rfl, ht⟩ | rfl | ⟨rfl, ht⟩⟩ := Demo.keys40 h
    · exact .inr ⟨2, _, Demo.field41 rfl ⟨rfl, by decide⟩ rfl rfl, ht ▸ .next, .inl ⟨.inl hs, .inl (by rw [hasString_iff]; decide)⟩⟩
    · exact .inr ⟨1, _, Demo.field41 rfl ⟨rfl, by decide⟩ rfl rfl, ht ▸ .n, .inl ⟨.inl hs, .inl (by rw [hasString_iff]; decide)⟩⟩
    · refine .inl ⟨trivial, fun j g hg _ hk => ?_⟩
      rw [hasKey_iff] at hk
      rcases j with _ | _ | _ | _ | j
      all_goals cases hg
      all_goals revert hk; decide
    · exact .inr ⟨0, _, Demo.field41 rfl ⟨rfl, by decide⟩ rfl rfl, ht ▸ .xs, .inl ⟨.inl hs, .inl (by rw [hasString_iff]; decide)⟩⟩
  · by_cases hn : s = b! "new"
    · exact .inr hn
    refine .inl fun j g hg hv hk => ?_
    rw [hasKey_iff] at hk
    rcases j with _ | _ | _ | _ | j
    all_goals cases hg
    all_goals subst hk
    · exact h 3 _ rfl ⟨rfl, by decide⟩ (hasKey_iff.2 rfl)
    · exact h 1 _ rfl ⟨rfl, by decide⟩ (hasKey_iff.2 rfl)
    · exact h 0 _ rfl ⟨rfl, by decide⟩ (hasKey_iff.2 rfl)
    · exact hn rfl

theorem Demo.widening : Widening Demo.WV Demo.change Demo.Rel := fun t t' h => by
  cases h with
  | list => exact .struct ⟨rfl, rfl⟩ ⟨rfl, rfl⟩ Demo.fields_widen
  | next => exact .ptr ⟨rfl, rfl⟩ ⟨rfl, rfl⟩ rfl .list
  | n => exact .int ⟨rfl, rfl⟩ ⟨rfl, rfl⟩ (by decide)
  | x => exact .uintInt ⟨rfl, rfl⟩ ⟨rfl, rfl⟩ (by decide)
  | xs => exact .slice ⟨rfl, rfl⟩ ⟨rfl, rfl⟩ rfl (.inr (by decide)) .x
  | two => exact .array ⟨rfl, rfl⟩ ⟨rfl, rfl⟩ .x

/-- A list of two nodes of version 1. -/
def Demo.list40 : Doc := .arr (b! "5") [(.str (b! "4") (b! "next"), .arr (b! "2") [(.str (b! "1") (b! "n"), .int (b! "2")), (.str (b! "4") (b! "next"), .null)]),
  (.str (b! "1") (b! "n"), .int (b! "-5")), (.str (b! "3") (b! "old"), .bool true), (.str (b! "7") (b! "unknown"), .null),
  (.str (b! "2") (b! "xs"), .arr (b! "2") [(.int (b! "0"), .int (b! "7")), (.int (b! "1"), .int (b! "65535"))])]

example : Demo.list40.text = b! "a:5:{s:4:\"next\";a:2:{s:1:\"n\";i:2;s:4:\"next\";N;}s:1:\"n\";i:-5;s:3:\"old\";b:1;s:7:\"unknown\";N;s:2:\"xs\";a:2:{i:0;i:7;i:1;i:65535;}}" := by
  rfl

theorem Demo.digits {ds : Bytes} (h : ds ≠ [] ∧ ds.all (fun c => decide (IsDigit c)) = true) : IsDigits ds := by
  refine ⟨h.1, fun c hc => ?_⟩
  have := List.all_eq_true.1 h.2 c hc
  exact of_decide_eq_true this

theorem Demo.list40_lax : Lax 2 Demo.list40 := by
  refine .arr (Demo.digits (by decide)) (fun k v h => ?_) (fun k v h => ?_) <;>
    (simp only [List.mem_cons, Prod.mk.injEq, List.not_mem_nil, or_false] at h; rcases h with ⟨rfl, rfl⟩ | ⟨rfl, rfl⟩ | ⟨rfl, rfl⟩ | ⟨rfl, rfl⟩ | ⟨rfl, rfl⟩)
  iterate 5 exact .str ⟨Demo.digits (by decide), rfl, by decide⟩
  · refine .arr (Demo.digits (by decide)) (fun k v h => ?_) (fun k v h => ?_) <;>
      (simp only [List.mem_cons, Prod.mk.injEq, List.not_mem_nil, or_false] at h; rcases h with ⟨rfl, rfl⟩ | ⟨rfl, rfl⟩)
    · exact .str ⟨Demo.digits (by decide), rfl, by decide⟩
    · exact .str ⟨Demo.digits (by decide), rfl, by decide⟩
    · exact .int (.pos (Demo.digits (by decide)))
    · exact .null
  · exact .int (.neg (Demo.digits (by decide)))
  · exact .bool
  · exact .null
  · refine .arr (Demo.digits (by decide)) (fun k v h => ?_) (fun k v h => ?_) <;>
      (simp only [List.mem_cons, Prod.mk.injEq, List.not_mem_nil, or_false] at h; rcases h with ⟨rfl, rfl⟩ | ⟨rfl, rfl⟩)
    all_goals exact .int (.pos (Demo.digits (by decide)))

theorem Demo.list40_suits : Suits Demo.change Demo.list40 := by
  have hk : ∀ {len s key}, FieldKey (.str len s) key → s ≠ b! "new" → ¬ Demo.change.adds key := by
    intro len s key h hn
    cases h with | str _ => exact hn
  refine .arr (fun _ => ⟨Demo.digits (by decide), rfl, by decide⟩) (by decide) (fun k v s h hs => ?_) (fun k v t i h ht => ?_) (fun k v h => ?_) (fun k v h => ?_) <;>
    (simp only [List.mem_cons, Prod.mk.injEq, List.not_mem_nil, or_false] at h; rcases h with ⟨rfl, rfl⟩ | ⟨rfl, rfl⟩ | ⟨rfl, rfl⟩ | ⟨rfl, rfl⟩ | ⟨rfl, rfl⟩)
  iterate 5 exact hk hs (by decide)
  iterate 5 cases ht
  iterate 5 exact .str
  · refine .arr (fun _ => ⟨Demo.digits (by decide), rfl, by decide⟩) (by decide) (fun k v s h hs => ?_) (fun k v t i h ht => ?_) (fun k v h => ?_)
      (fun k v h => ?_) <;> (simp only [List.mem_cons, Prod.mk.injEq, List.not_mem_nil, or_false] at h; rcases h with ⟨rfl, rfl⟩ | ⟨rfl, rfl⟩)
    iterate 2 exact hk hs (by decide)
    iterate 2 cases ht
    iterate 2 exact .str
    · exact .int
    · exact .null
  · exact .int
  · exact .bool
  · exact .null
  · refine .arr (fun _ => ⟨Demo.digits (by decide), rfl, by decide⟩) (by decide) (fun k v s h hs => ?_) (fun k v t i h ht => ?_) (fun k v h => ?_)
      (fun k v h => ?_) <;> (simp only [List.mem_cons, Prod.mk.injEq, List.not_mem_nil, or_false] at h; rcases h with ⟨rfl, rfl⟩ | ⟨rfl, rfl⟩)
    iterate 2 cases hs
    · cases ht
      intro hi
      have := intText_unique hi (.pos (ds := b! "0") (Demo.digits (by decide)))
      have : i = 0 := by simpa [digitsVal] using this
      subst this
      decide
    · cases ht
      intro hi
      have := intText_unique hi (.pos (ds := b! "1") (Demo.digits (by decide)))
      have : (i : Int) = 1 := by simpa [digitsVal] using this
      obtain rfl : i = 1 := by omega
      decide
    all_goals exact .int

end Verif

import Verif.Proofs.Reorder
import Verif.Props.Rearrange
/-
C92: what is stored does not depend on the order of entries, at any depth. `KeysOnce` and `SameMaps` are in Spec/Reorder.lean.
-/
namespace Verif
open Spec Demo

/-- C92: if no key occurs twice in an array or object, then a text with the entries in another order, at any depth, gives the same value, but for the order
in which maps list their entries. Methods of the types that are reached are asked to do so as well; keys of maps are of types without methods. -/
theorem C92_value (W : World) (t : Ty) (hi : ∀ t' i, Reach W t t' → ¬ Plain W t' (.iface i)) (hk : ∀ t' k e, Reach W t t' → Plain W t' (.map k e) → W.unmOf k = none)
    (hm : ∀ t' id d d' v, Reach W t t' → W.unmOf t' = some id → Rearranged d d' → W.unmarshal id d.text = .ok v →
      ∃ v', W.unmarshal id d'.text = .ok v' ∧ SameMaps True v v')
    (old v : Val) (fuel : Nat) (d d' : Doc) (hs : Rearranged d d') (ho : KeysOnce d) (hl : ∃ n, Lax n d) (hb : d.text.length < 2 ^ 63)
    (h : unmarshal W fuel d.text (.ptr t old) = (some v, .ok ())) :
    ∃ v', unmarshal W fuel d'.text (.ptr t old) = (some v', .ok ()) ∧ SameMaps True v v' := by
  obtain ⟨n, hl⟩ := hl
  obtain ⟨hc, h1⟩ := (unmarshal_text_iff hb hl).1 h
  obtain ⟨v', h2, h3⟩ := follows_rearranged (Q := True) hs ho t _ old v
    (fun t' hr => ⟨fun id d d' v => hm t' id d d' v hr, fun i => hi t' i hr, fun _ => trivial, fun k e => hk t' k e hr⟩) h1
  exact ⟨v', (unmarshal_text_iff (rearranged_length hs ▸ hb) (lax_rearranged hl hs)).2 ⟨hc, h2⟩, h3⟩

/-- C92: if there are no maps and no interfaces in the type, the same value without any difference. -/
theorem C92_equal (W : World) (t : Ty) (hi : ∀ t' i, Reach W t t' → ¬ Plain W t' (.iface i) ∧ ¬ Plain W t' .any) (hk : ∀ t' k e, Reach W t t' → ¬ Plain W t' (.map k e))
    (hm : ∀ t' id d d' v, Reach W t t' → W.unmOf t' = some id → Rearranged d d' → W.unmarshal id d.text = .ok v → W.unmarshal id d'.text = .ok v)
    (old v : Val) (fuel : Nat) (d d' : Doc) (hs : Rearranged d d') (ho : KeysOnce d) (hl : ∃ n, Lax n d) (hb : d.text.length < 2 ^ 63) :
    unmarshal W fuel d.text (.ptr t old) = (some v, .ok ()) ↔ unmarshal W fuel d'.text (.ptr t old) = (some v, .ok ()) := by
  have one : ∀ {d d' : Doc} {v : Val}, Rearranged d d' → KeysOnce d → (∃ n, Lax n d) → d.text.length < 2 ^ 63 →
      unmarshal W fuel d.text (.ptr t old) = (some v, .ok ()) → unmarshal W fuel d'.text (.ptr t old) = (some v, .ok ()) := by
    rintro d d' v hs ho ⟨n, hl⟩ hb h
    obtain ⟨hc, h1⟩ := (unmarshal_text_iff hb hl).1 h
    obtain ⟨v', h2, h3⟩ := follows_rearranged (Q := False) hs ho t _ old v
      (fun t' hr => ⟨fun id d d' v h1 h2 h3 => ⟨v, hm t' id d d' v hr h1 h2 h3, .refl⟩, fun i => (hi t' i hr).1, (fun h => by
        rcases h with ⟨k, e, h⟩ | h
        · exact hk t' k e hr h
        · exact (hi t' 0 hr).2 h), fun k e h => absurd h (hk t' k e hr)⟩) h1
    cases sameMaps_eq h3
    exact (unmarshal_text_iff (rearranged_length hs ▸ hb) (lax_rearranged hl hs)).2 ⟨hc, h2⟩
  obtain ⟨n, hl'⟩ := hl
  exact ⟨one hs ho ⟨n, hl'⟩ hb, one (rearranged_symm hs) (once_rearranged hs ho) ⟨n, lax_rearranged hl' hs⟩ (rearranged_length hs ▸ hb)⟩

/-- C92: a key that occurs twice is the exception, the last entry counts. -/
theorem C92_twice_witness : ∃ d d' v v', Rearranged d d' ∧ unmarshal Demo.W 9 d.text (.ptr (.slice (.int .int)) .sliceNil) = (some v, .ok ()) ∧
    unmarshal Demo.W 9 d'.text (.ptr (.slice (.int .int)) .sliceNil) = (some v', .ok ()) ∧ ¬ SameMaps True v v' := by
  refine ⟨.arr (b! "2") [(.int (b! "0"), .int (b! "5")), (.int (b! "0"), .int (b! "6"))], .arr (b! "2") [(.int (b! "0"), .int (b! "6")), (.int (b! "0"), .int (b! "5"))],
    .slice [.int 6], .slice [.int 5], .arr (.swap ..), by krfl, by krfl, fun h => ?_⟩
  have key : ∀ {v v' : Val}, SameMaps True v v' → (∀ i, v = .int i → v' = .int i) ∧ ∀ i, v = .slice [.int i] → v' = .slice [.int i] := by
    intro v v' h
    induction h with
    | refl => exact ⟨fun _ h => h, fun _ h => h⟩
    | trans _ _ h1 h2 => exact ⟨fun i h => h2.1 i (h1.1 i h), fun i h => h2.2 i (h1.2 i h)⟩
    | @slice pre x y post _ ih =>
      refine ⟨(fun i h => by cases h), fun i h => ?_⟩
      cases pre with
      | nil =>
        simp only [List.nil_append, Val.slice.injEq, List.cons.injEq] at h
        obtain ⟨rfl, rfl⟩ := h
        rw [ih.1 i rfl]; rfl
      | cons a pre => simp at h
    | _ => exact ⟨(fun i h => by cases h), fun i h => by cases h⟩
  have := (key h).2 6 rfl
  simp at this

-- a list in a list, the inner one in two orders
example : unmarshal Demo.W 9 (b! "a:1:{i:0;a:2:{i:0;i:5;i:1;i:6;}}") (.ptr (.slice (.slice (.int .int))) .sliceNil) = (some (.slice [.slice [.int 5, .int 6]]), .ok ()) ↔
    unmarshal Demo.W 9 (b! "a:1:{i:0;a:2:{i:1;i:6;i:0;i:5;}}") (.ptr (.slice (.slice (.int .int))) .sliceNil) = (some (.slice [.slice [.int 5, .int 6]]), .ok ()) := by
  have dig : ∀ c ∈ (b! "01256"), IntText [c] (digitsVal [c]) := by
    intro c hc
    refine .pos ⟨by simp, ?_⟩
    simp only [List.mem_cons, List.not_mem_nil, or_false] at hc
    rcases hc with rfl | rfl | rfl | rfl | rfl <;> decide
  have hin : Lax 1 (.arr (b! "2") [(.int (b! "0"), .int (b! "5")), (.int (b! "1"), .int (b! "6"))]) := by
    refine .arr ⟨by simp, by decide⟩ ?_ ?_
    all_goals
      intro k v hm
      simp only [List.mem_cons, List.not_mem_nil, or_false, Prod.mk.injEq] at hm
      rcases hm with ⟨rfl, rfl⟩ | ⟨rfl, rfl⟩ <;> exact .int (dig _ (by simp))
  have hout : Lax 2 (.arr (b! "1") [(.int (b! "0"), .arr (b! "2") [(.int (b! "0"), .int (b! "5")), (.int (b! "1"), .int (b! "6"))])]) := by
    refine .arr ⟨by simp, by decide⟩ ?_ ?_
    all_goals
      intro k v hm
      simp only [List.mem_cons, List.not_mem_nil, or_false, Prod.mk.injEq] at hm
      obtain ⟨rfl, rfl⟩ := hm
      first
        | exact hin
        | exact .int (dig _ (by simp))
  have hone : KeysOnce (.arr (b! "1") [(.int (b! "0"), .arr (b! "2") [(.int (b! "0"), .int (b! "5")), (.int (b! "1"), .int (b! "6"))])]) := by
    refine .arr (by simp) fun k x hm => ?_
    simp only [List.mem_cons, List.not_mem_nil, or_false, Prod.mk.injEq] at hm
    obtain ⟨rfl, rfl⟩ := hm
    refine .arr ?_ fun k x hm => ?_
    · refine List.pairwise_cons.2 ⟨fun p hp => ?_, List.pairwise_singleton ..⟩
      cases List.mem_singleton.1 hp
      exact .ints (dig 48 (by simp)) (dig 49 (by simp)) (by decide)
    · simp only [List.mem_cons, List.not_mem_nil, or_false, Prod.mk.injEq] at hm
      rcases hm with ⟨rfl, rfl⟩ | ⟨rfl, rfl⟩ <;> exact .int
  exact C92_equal Demo.W _ (fun t' i h => by rcases demo_reach_rows h with rfl | rfl | rfl <;> exact ⟨(fun h => by cases h.2), fun h => by cases h.2⟩)
    (fun t' k e h hp => by rcases demo_reach_rows h with rfl | rfl | rfl <;> cases hp.2)
    (fun t' id d d' v h hu => by rcases demo_reach_rows h with rfl | rfl | rfl <;> cases hu) .sliceNil _ 9 _ _
    (.inArr (pre := []) (post := []) (.arr (.swap ..))) hone ⟨2, hout⟩ (by decide)

-- an any: the entries of the map come out in another order
example : ∃ v', unmarshal Demo.W 9 (b! "a:2:{s:1:\"k\";N;i:0;i:5;}") (.ptr .any .ifaceNil) = (some v', .ok ()) ∧
    SameMaps True (.iface (.map .any .any) (.map [(.iface (.int .i64) (.int 0), .iface (.int .i64) (.int 5)), (.iface .str (.str (b! "k")), .ifaceNil)])) v' := by
  have d0 : IntText (b! "0") (digitsVal (b! "0")) := .pos ⟨by simp, by decide⟩
  have d5 : IntText (b! "5") (digitsVal (b! "5")) := .pos ⟨by simp, by decide⟩
  have lk : LenText (b! "1") (b! "k").length := ⟨by unfold IsDigits; decide, rfl, by decide⟩
  refine C92_value Demo.W .any (fun t' i h hp => by rw [reach_any h] at hp; cases hp.2) (fun t' k e h hp => by rw [reach_any h] at hp; cases hp.2)
    (fun t' id d d' v h hu => by rw [reach_any h] at hu; cases hu) .ifaceNil _ 9
    (.arr (b! "2") [(.int (b! "0"), .int (b! "5")), (.str (b! "1") (b! "k"), .null)]) (.arr (b! "2") [(.str (b! "1") (b! "k"), .null), (.int (b! "0"), .int (b! "5"))])
    (.arr (.swap ..)) (.arr ?_ fun k x hm => ?_) ⟨1, .arr ⟨by simp, by decide⟩ (fun k x hm => ?_) fun k x hm => ?_⟩ (by decide) (by krfl)
  · refine List.pairwise_cons.2 ⟨fun p hp => ?_, List.pairwise_singleton ..⟩
    cases List.mem_singleton.1 hp
    exact .intStr
  all_goals
    simp only [List.mem_cons, List.not_mem_nil, or_false, Prod.mk.injEq] at hm
  · rcases hm with ⟨rfl, rfl⟩ | ⟨rfl, rfl⟩
    · exact .int
    · exact .null
  · rcases hm with ⟨rfl, rfl⟩ | ⟨rfl, rfl⟩
    · exact .int d0
    · exact .str lk
  · rcases hm with ⟨rfl, rfl⟩ | ⟨rfl, rfl⟩
    · exact .int d5
    · exact .null

end Verif

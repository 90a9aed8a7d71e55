import Verif.Proofs.Rearrange
import Verif.Props.Accept
/-
C91: the order of entries, at any depth, has no influence on whether a text is taken. `Rearranged` is in Spec/Rearrange.lean.
-/
namespace Verif
open Spec Demo

/-- C91: if the methods of the types that are reached do not mind the order of entries either, then a text is taken if and only if every text is taken that
has the same entries in another order, in arrays and objects at any depth. -/
theorem C91_order (W : World) (hW : WorldOk W fun _ => True) (t : Ty) (hi : ∀ t' i, Reach W t t' → ¬ Plain W t' (.iface i))
    (hm : ∀ t' id d d' v, Reach W t t' → W.unmOf t' = some id → Rearranged d d' → W.unmarshal id d.text = .ok v → ∃ v', W.unmarshal id d'.text = .ok v')
    (old : Val) (hold : HasTy W (fun _ => True) t old) (fuel : Nat) (d d' : Doc) (hs : Rearranged d d') (hl : ∃ n, Lax n d) (hb : d.text.length < 2 ^ 63) :
    (unmarshal W fuel d.text (.ptr t old)).2 = .ok () ↔ (unmarshal W fuel d'.text (.ptr t old)).2 = .ok () := by
  obtain ⟨n, hl⟩ := hl
  have key : ∀ d : Doc, Lax n d → d.text.length < 2 ^ 63 → ((unmarshal W fuel d.text (.ptr t old)).2 = .ok () ↔ compileD W fuel [] t = .ok () ∧ AllOk W t 10000 d) := by
    intro d hd hb
    rw [← accepts_iff hW hi (shape_of_hasTy hold)]
    constructor
    · intro h
      obtain ⟨hc, d', v, h0, -, -⟩ := (unmarshal_ok_iff (o := (unmarshal W fuel d.text (.ptr t old)).1) hb).1 (by rw [← h])
      obtain ⟨-, h1⟩ := (unmarshal_text_iff hb hd).1 (show unmarshal W fuel d.text (.ptr t old) = (some v, .ok ()) by rw [← h0, ← h])
      exact ⟨hc, v, h1⟩
    · rintro ⟨hc, v, h⟩
      rw [(unmarshal_text_iff hb hd).2 ⟨hc, h⟩]
  have ho : OrdersOk W t := fun t' hr id d d' v => hm t' id d d' v hr
  rw [key _ hl hb, key _ (lax_rearranged hl hs) (rearranged_length hs ▸ hb)]
  exact and_congr_right fun _ => ⟨allOk_rearranged ho hs, allOk_rearranged ho (rearranged_symm hs)⟩

/-- C91: and such a text has the same length. -/
theorem C91_length (d d' : Doc) (hs : Rearranged d d') : d.text.length = d'.text.length := rearranged_length hs

theorem demo_reach_rows {t : Ty} (h : Reach Demo.W (.slice (.slice (.int .int))) t) : t = .slice (.slice (.int .int)) ∨ t = .slice (.int .int) ∨ t = .int .int := by
  induction h with
  | refl => exact .inl rfl
  | step _ h ih =>
    rcases ih with rfl | rfl | rfl
    · cases h with
      | slice h => cases h.2; exact .inr (.inl rfl)
      | _ h => cases h.2
    · cases h with
      | slice h => cases h.2; exact .inr (.inr rfl)
      | _ h => cases h.2
    · cases h with | _ h => cases h.2

-- a list in a list, the inner one in two orders
example : (unmarshal Demo.W 9 (b! "a:1:{i:0;a:2:{i:0;i:5;i:1;i:6;}}") (.ptr (.slice (.slice (.int .int))) .sliceNil)).2 = .ok () ↔
    (unmarshal Demo.W 9 (b! "a:1:{i:0;a:2:{i:1;i:6;i:0;i:5;}}") (.ptr (.slice (.slice (.int .int))) .sliceNil)).2 = .ok () := by
  have dig : ∀ c ∈ (b! "01256"), IntText [c] (digitsVal [c]) := by
    intro c hc
    refine .pos ⟨by simp, ?_⟩
    simp only [List.mem_cons, List.not_mem_nil, or_false] at hc
    rcases hc with rfl | rfl | rfl | rfl | rfl <;> decide
  have hin : Lax 1 (.arr (b! "2") [(.int (b! "0"), .int (b! "5")), (.int (b! "1"), .int (b! "6"))]) := by
    refine .arr ⟨by simp, by decide⟩ ?_ ?_
    all_goals
      intro k v hm
      simp only [List.mem_cons, List.not_mem_nil, or_false, Prod.mk.injEq] at hm
      rcases hm with ⟨rfl, rfl⟩ | ⟨rfl, rfl⟩ <;> exact .int (dig _ (by simp))
  have hout : Lax 2 (.arr (b! "1") [(.int (b! "0"), .arr (b! "2") [(.int (b! "0"), .int (b! "5")), (.int (b! "1"), .int (b! "6"))])]) := by
    refine .arr ⟨by simp, by decide⟩ ?_ ?_
    all_goals
      intro k v hm
      simp only [List.mem_cons, List.not_mem_nil, or_false, Prod.mk.injEq] at hm
      obtain ⟨rfl, rfl⟩ := hm
      first
        | exact hin
        | exact .int (dig _ (by simp))
  exact C91_order Demo.W (demo_ok _) _ (fun t' i h hp => by rcases demo_reach_rows h with rfl | rfl | rfl <;> cases hp.2)
    (fun t' id d d' v h hu => by rcases demo_reach_rows h with rfl | rfl | rfl <;> cases hu) .sliceNil (.sliceNil rfl) 9 _ _
    (.inArr (pre := []) (post := []) (.arr (.swap ..))) ⟨2, hout⟩ (by decide)

-- entries of an object inside an array
example : (b! "a:1:{i:0;O:1:\"C\":2:{s:1:\"a\";i:5;s:1:\"b\";N;}}").length = (b! "a:1:{i:0;O:1:\"C\":2:{s:1:\"b\";N;s:1:\"a\";i:5;}}").length :=
  C91_length (.arr (b! "1") [(.int (b! "0"), .obj (b! "1") (b! "C") (b! "2") [(.str (b! "1") (b! "a"), .int (b! "5")), (.str (b! "1") (b! "b"), .null)])])
    (.arr (b! "1") [(.int (b! "0"), .obj (b! "1") (b! "C") (b! "2") [(.str (b! "1") (b! "b"), .null), (.str (b! "1") (b! "a"), .int (b! "5"))])])
    (.inArr (pre := []) (post := []) (.obj (.swap ..)))

end Verif

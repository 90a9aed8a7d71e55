import Verif.Proofs.Accept
import Verif.Props.Overlay
/-
C90: which texts `Unmarshal` takes for a type, place by place. `DocAt` and `HereOk` are in Spec/Accept.lean.
-/
namespace Verif
open Spec Demo

/-- C90: `Unmarshal` returns nil if and only if the type can be prepared and the input is the text of a document of which every part that is read into a
variable is what the type of that variable asks for. -/
theorem C90_accepted (W : World) (hW : WorldOk W fun _ => True) (t : Ty) (hi : ∀ t' i, Reach W t t' → ¬ Plain W t' (.iface i)) (old : Val)
    (hold : HasTy W (fun _ => True) t old) (fuel : Nat) (data : Bytes) (hb : data.length < 2 ^ 63) :
    (unmarshal W fuel data (.ptr t old)).2 = .ok () ↔
      compileD W fuel [] t = .ok () ∧ ∃ d, data = d.text ∧ ∀ t' n d', DocAt W t 10000 d t' n d' → HereOk W t' n d' := by
  constructor
  · intro h
    obtain ⟨hc, d, v, -, rfl, h1⟩ := (unmarshal_ok_iff (o := (unmarshal W fuel data (.ptr t old)).1) hb).1 (by rw [← h])
    exact ⟨hc, d, rfl, (accepts_iff hW hi (shape_of_hasTy hold)).1 ⟨v, h1⟩⟩
  · rintro ⟨hc, d, rfl, h⟩
    obtain ⟨v, h1⟩ := (accepts_iff hW hi (shape_of_hasTy hold)).2 h
    rw [(unmarshal_ok_iff hb).2 ⟨hc, d, v, rfl, rfl, h1⟩]

/-- C90: if a well-formed text is not taken for a type that can be prepared, then there is a part of it that is read into a variable of another kind than it
is for, or whose text does not suit that variable. -/
theorem C90_refused (W : World) (hW : WorldOk W fun _ => True) (t : Ty) (hi : ∀ t' i, Reach W t t' → ¬ Plain W t' (.iface i)) (old : Val)
    (hold : HasTy W (fun _ => True) t old) (fuel : Nat) (hc : compileD W fuel [] t = .ok ()) (d : Doc) (hb : d.text.length < 2 ^ 63)
    (h : (unmarshal W fuel d.text (.ptr t old)).2 ≠ .ok ()) : ∃ t' n d', DocAt W t 10000 d t' n d' ∧ ¬ HereOk W t' n d' := by
  apply Classical.byContradiction
  intro hn
  refine h ((C90_accepted W hW t hi old hold fuel _ hb).2 ⟨hc, d, rfl, fun t' n d' ha => Classical.byContradiction fun hno => hn ⟨t', n, d', ha, hno⟩⟩)

/-- C90: in which order the entries of an array stand, and how often, has no influence on whether the text is taken. -/
theorem C90_entries (W : World) (hW : WorldOk W fun _ => True) (t : Ty) (hi : ∀ t' i, Reach W t t' → ¬ Plain W t' (.iface i)) (old : Val)
    (hold : HasTy W (fun _ => True) t old) (hu : W.unmOf t = none) (hp : ∀ e, W.resolve t ≠ .ptr e) (fuel : Nat) (cnt : Bytes)
    (es es' : List (Doc × Doc)) (he : ∀ p, p ∈ es ↔ p ∈ es') (hl : ∃ n, Lax n (.arr cnt es)) (hb : (Doc.arr cnt es).text.length < 2 ^ 63)
    (hb' : (Doc.arr cnt es').text.length < 2 ^ 63) :
    (unmarshal W fuel (Doc.arr cnt es).text (.ptr t old)).2 = .ok () ↔ (unmarshal W fuel (Doc.arr cnt es').text (.ptr t old)).2 = .ok () := by
  obtain ⟨n, hl⟩ := hl
  have hl' : Lax n (.arr cnt es') := by
    cases hl with
    | arr h1 h2 h3 => exact .arr h1 (fun k v hm => h2 k v ((he _).2 hm)) fun k v hm => h3 k v ((he _).2 hm)
  have key : ∀ d : Doc, Lax n d → d.text.length < 2 ^ 63 → ((unmarshal W fuel d.text (.ptr t old)).2 = .ok () ↔ compileD W fuel [] t = .ok () ∧ AllOk W t 10000 d) := by
    intro d hd hb
    rw [← accepts_iff hW hi (shape_of_hasTy hold)]
    constructor
    · intro h
      obtain ⟨hc, d', v, h0, -, -⟩ := (unmarshal_ok_iff (o := (unmarshal W fuel d.text (.ptr t old)).1) hb).1 (by rw [← h])
      obtain ⟨-, h1⟩ := (unmarshal_text_iff hb hd).1 (show unmarshal W fuel d.text (.ptr t old) = (some v, .ok ()) by rw [← h0, ← h])
      exact ⟨hc, v, h1⟩
    · rintro ⟨hc, v, h⟩
      rw [(unmarshal_text_iff hb hd).2 ⟨hc, h⟩]
  rw [key _ hl hb, key _ hl' hb']
  exact and_congr_right fun _ => ⟨allOk_entries hu hp he, allOk_entries hu hp fun p => (he p).symm⟩

theorem demo_reach_ints {t : Ty} (h : Reach Demo.W (.slice (.int .int)) t) : t = .slice (.int .int) ∨ t = .int .int := by
  induction h with
  | refl => exact .inl rfl
  | step _ h ih =>
    rcases ih with rfl | rfl
    · cases h with
      | slice h => cases h.2; exact .inr rfl
      | _ h => cases h.2
    · cases h with | _ h => cases h.2

-- a list of integers in two orders; the first entry stands twice in the second
example : (unmarshal Demo.W 9 (b! "a:2:{i:0;i:5;i:1;i:6;}") (.ptr (.slice (.int .int)) .sliceNil)).2 = .ok () ↔
    (unmarshal Demo.W 9 (b! "a:2:{i:1;i:6;i:0;i:5;i:1;i:6;}") (.ptr (.slice (.int .int)) .sliceNil)).2 = .ok () := by
  have dig : ∀ c ∈ (b! "01256"), IntText [c] (digitsVal [c]) := by
    intro c hc
    refine .pos ⟨by simp, ?_⟩
    simp only [List.mem_cons, List.not_mem_nil, or_false] at hc
    rcases hc with rfl | rfl | rfl | rfl | rfl <;> decide
  exact C90_entries Demo.W (demo_ok _) (.slice (.int .int)) (fun t' i h hp => by rcases demo_reach_ints h with rfl | rfl <;> cases hp.2) .sliceNil (.sliceNil rfl) rfl
    (by simp [World.resolve]) 9 (b! "2") [(.int (b! "0"), .int (b! "5")), (.int (b! "1"), .int (b! "6"))]
    [(.int (b! "1"), .int (b! "6")), (.int (b! "0"), .int (b! "5")), (.int (b! "1"), .int (b! "6"))]
    (by rintro ⟨k, v⟩; simp only [List.mem_cons, List.not_mem_nil, or_false]; exact ⟨fun h => h.elim (fun h => .inr (.inl h)) .inl, fun h => h.elim .inr fun h => h⟩)
    ⟨1, .arr ⟨by simp, by decide⟩
      (by
        intro k v hm
        simp only [List.mem_cons, List.not_mem_nil, or_false, Prod.mk.injEq] at hm
        rcases hm with ⟨rfl, rfl⟩ | ⟨rfl, rfl⟩ <;> exact .int (dig _ (by simp)))
      (by
        intro k v hm
        simp only [List.mem_cons, List.not_mem_nil, or_false, Prod.mk.injEq] at hm
        rcases hm with ⟨rfl, rfl⟩ | ⟨rfl, rfl⟩ <;> exact .int (dig _ (by simp)))⟩ (by decide) (by decide)

-- a string among integers: refused, and this is the part at fault
example : (unmarshal Demo.W 9 (Doc.arr (b! "1") [(.int (b! "0"), .str (b! "1") (b! "x"))]).text (.ptr (.slice (.int .int)) .sliceNil)).2 ≠ .ok () ∧
    DocAt Demo.W (.slice (.int .int)) 10000 (.arr (b! "1") [(.int (b! "0"), .str (b! "1") (b! "x"))]) (.int .int) 9999 (.str (b! "1") (b! "x")) ∧
    ¬ HereOk Demo.W (.int .int) 9999 (.str (b! "1") (b! "x")) := by
  refine ⟨fun h => ?_, .step (.slice (n := 9999) ⟨rfl, rfl⟩ (List.mem_cons_self ..)) .here, fun h => ?_⟩
  · have : (unmarshal Demo.W 9 (Doc.arr (b! "1") [(.int (b! "0"), .str (b! "1") (b! "x"))]).text (.ptr (.slice (.int .int)) .sliceNil)).2 =
      .err (.unexpected "'i' to start an integer" 9 115) := by krfl
    rw [this] at h
    cases h
  · cases h with
    | unm h => cases h
    | _ h => cases h.2

end Verif

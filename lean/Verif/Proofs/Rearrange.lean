import Verif.Spec.Rearrange
import Verif.Proofs.Accept
/-
Rearranging entries at any depth and the parts of a document that are read into something.
-/
namespace Verif
open Spec
variable {W : World}

theorem rearranged_symm {d d' : Doc} (h : Rearranged d d') : Rearranged d' d := by
  induction h with
  | refl => exact .refl
  | arr h => exact .arr h.symm
  | obj h => exact .obj h.symm
  | inArr _ ih => exact .inArr ih
  | inObj _ ih => exact .inObj ih
  | trans _ _ ih1 ih2 => exact .trans ih2 ih1

/-- Entries with the same keys and rearranged values, in some order. -/
def SameEntries (es es' : List (Doc × Doc)) : Prop :=
  es.length = es'.length ∧ (∀ k x, (k, x) ∈ es → ∃ x', (k, x') ∈ es' ∧ Rearranged x x') ∧ ∀ k x', (k, x') ∈ es' → ∃ x, (k, x) ∈ es ∧ Rearranged x x'

theorem same_refl (es : List (Doc × Doc)) : SameEntries es es := ⟨rfl, fun _ x h => ⟨x, h, .refl⟩, fun _ x h => ⟨x, h, .refl⟩⟩

theorem same_perm {es es' : List (Doc × Doc)} (h : es.Perm es') : SameEntries es es' :=
  ⟨h.length_eq, fun _ x hm => ⟨x, h.mem_iff.1 hm, .refl⟩, fun _ x hm => ⟨x, h.mem_iff.2 hm, .refl⟩⟩

theorem same_in {pre post : List (Doc × Doc)} {k x x' : Doc} (h : Rearranged x x') : SameEntries (pre ++ (k, x) :: post) (pre ++ (k, x') :: post) := by
  refine ⟨by simp, fun k1 x1 hm => ?_, fun k1 x1 hm => ?_⟩
  all_goals
    rcases List.mem_append.1 hm with hm | hm
    · exact ⟨x1, List.mem_append_left _ hm, .refl⟩
    · rcases List.mem_cons.1 hm with hm | hm
      · cases hm; exact ⟨_, List.mem_append_right _ (List.mem_cons_self ..), h⟩
      · exact ⟨x1, List.mem_append_right _ (List.mem_cons_of_mem _ hm), .refl⟩

theorem same_trans {a b c : List (Doc × Doc)} (h : SameEntries a b) (h' : SameEntries b c) : SameEntries a c := by
  refine ⟨h.1.trans h'.1, fun k x hm => ?_, fun k x hm => ?_⟩
  · obtain ⟨y, h1, h2⟩ := h.2.1 k x hm
    obtain ⟨z, h3, h4⟩ := h'.2.1 k y h1
    exact ⟨z, h3, .trans h2 h4⟩
  · obtain ⟨y, h1, h2⟩ := h'.2.2 k x hm
    obtain ⟨z, h3, h4⟩ := h.2.2 k y h1
    exact ⟨z, h3, .trans h4 h2⟩

/-- What can differ between rearranged documents. -/
inductive Rows : Doc → Doc → Prop
  | same {d} : Rows d d
  | arr {cnt es es'} : SameEntries es es' → Rows (.arr cnt es) (.arr cnt es')
  | obj {clen cls cnt es es'} : SameEntries es es' → Rows (.obj clen cls cnt es) (.obj clen cls cnt es')

theorem rows_of {d d' : Doc} (h : Rearranged d d') : Rows d d' := by
  induction h with
  | refl => exact .same
  | arr h => exact .arr (same_perm h)
  | obj h => exact .obj (same_perm h)
  | inArr h => exact .arr (same_in h)
  | inObj h => exact .obj (same_in h)
  | trans _ _ ih1 ih2 =>
    cases ih1 with
    | same => exact ih2
    | arr h => cases ih2 with
      | same => exact .arr h
      | arr h' => exact .arr (same_trans h h')
    | obj h => cases ih2 with
      | same => exact .obj h
      | obj h' => exact .obj (same_trans h h')

theorem strict_rearranged {n : Nat} {d : Doc} (h : Strict n d) : ∀ {d' : Doc}, Rearranged d d' → Strict n d' := by
  induction h with
  | null => intro d' hs; cases rows_of hs; exact .null
  | bool => intro d' hs; cases rows_of hs; exact .bool
  | int h => intro d' hs; cases rows_of hs; exact .int h
  | float h1 h2 => intro d' hs; cases rows_of hs; exact .float h1 h2
  | str h => intro d' hs; cases rows_of hs; exact .str h
  | @arr n cnt es h1 h2 h3 ih1 ih2 =>
    intro d' hs
    cases rows_of hs with
    | same => exact .arr h1 h2 h3
    | arr he =>
      refine .arr (he.1 ▸ h1) (fun k v hm => ?_) fun k v hm => ?_
      all_goals obtain ⟨x, hx, hs⟩ := he.2.2 k v hm
      · exact h2 k x hx
      · exact ih2 k x hx hs
  | @obj n clen cls cnt es h0 h1 h2 h3 ih1 ih2 =>
    intro d' hs
    cases rows_of hs with
    | same => exact .obj h0 h1 h2 h3
    | obj he =>
      refine .obj h0 (he.1 ▸ h1) (fun k v hm => ?_) fun k v hm => ?_
      all_goals obtain ⟨x, hx, hs⟩ := he.2.2 k v hm
      · exact h2 k x hx
      · exact ih2 k x hx hs

theorem lax_rearranged {n : Nat} {d : Doc} (h : Lax n d) : ∀ {d' : Doc}, Rearranged d d' → Lax n d' := by
  induction h with
  | null => intro d' hs; cases rows_of hs; exact .null
  | bool => intro d' hs; cases rows_of hs; exact .bool
  | int h => intro d' hs; cases rows_of hs; exact .int h
  | float h1 h2 => intro d' hs; cases rows_of hs; exact .float h1 h2
  | str h => intro d' hs; cases rows_of hs; exact .str h
  | @arr n cnt es h1 h2 h3 ih1 ih2 =>
    intro d' hs
    cases rows_of hs with
    | same => exact .arr h1 h2 h3
    | arr he =>
      refine .arr h1 (fun k v hm => ?_) fun k v hm => ?_
      all_goals obtain ⟨x, hx, hs⟩ := he.2.2 k v hm
      · exact h2 k x hx
      · exact ih2 k x hx hs
  | @obj n clen cls cnt es h0 h1 h2 h3 ih1 ih2 =>
    intro d' hs
    cases rows_of hs with
    | same => exact .obj h0 h1 h2 h3
    | obj he =>
      refine .obj h0 h1 (fun k v hm => ?_) fun k v hm => ?_
      all_goals obtain ⟨x, hx, hs⟩ := he.2.2 k v hm
      · exact h2 k x hx
      · exact ih2 k x hx hs

theorem container_rearranged {d d' : Doc} (h : Rearranged d d') {cnt : Bytes} {es' : List (Doc × Doc)} (hc : Container d' cnt es') :
    ∃ es, Container d cnt es ∧ SameEntries es es' := by
  cases rows_of h with
  | same => exact ⟨_, hc, same_refl _⟩
  | arr he => cases hc; exact ⟨_, .arr, he⟩
  | obj he => cases hc with | obj hl => exact ⟨_, .obj hl, he⟩

theorem pairsText_append (a b : List (Doc × Doc)) : pairsText (a ++ b) = pairsText a ++ pairsText b := by
  induction a with
  | nil => simp [pairsText]
  | cons p a ih => simp [pairsText, ih, List.append_assoc]

theorem pairsText_perm {es es' : List (Doc × Doc)} (h : es.Perm es') : (pairsText es).length = (pairsText es').length := by
  induction h with
  | nil => rfl
  | cons p _ ih => simp [pairsText, ih]
  | swap p q l => simp [pairsText]; omega
  | trans _ _ ih1 ih2 => exact ih1.trans ih2

theorem rearranged_length {d d' : Doc} (h : Rearranged d d') : d.text.length = d'.text.length := by
  induction h with
  | refl => rfl
  | arr h => simp [Doc.text, pairsText_perm h]
  | obj h => simp [Doc.text, pairsText_perm h]
  | inArr _ ih => simp [Doc.text, pairsText_append, pairsText, ih]
  | inObj _ ih => simp [Doc.text, pairsText_append, pairsText, ih]
  | trans _ _ ih1 ih2 => exact ih1.trans ih2

/-- A part of the rearranged document that is read into something is a rearranged part of the document. -/
theorem step_rearranged {t t' : Ty} {n n' : Nat} {d d' x' : Doc} (h : Rearranged d d') (hs : DocStep W t n d' t' n' x') :
    ∃ x, DocStep W t n d t' n' x ∧ Rearranged x x' := by
  cases hs with
  | ptr h1 h2 =>
    refine ⟨d, .ptr h1 ?_, h⟩
    rintro rfl
    cases rows_of h
    exact h2 rfl
  | slice h1 h2 =>
    cases rows_of h with
    | same => exact ⟨_, .slice h1 h2, .refl⟩
    | arr he => obtain ⟨x, hx, hsx⟩ := he.2.2 _ _ h2; exact ⟨x, .slice h1 hx, hsx⟩
  | array h1 h2 h3 h4 =>
    cases rows_of h with
    | same => exact ⟨_, .array h1 h2 h3 h4, .refl⟩
    | arr he => obtain ⟨x, hx, hsx⟩ := he.2.2 _ _ h2; exact ⟨x, .array h1 hx h3 h4, hsx⟩
  | mapKey h1 h2 h3 h4 =>
    obtain ⟨es, hc, he⟩ := container_rearranged h h3
    obtain ⟨x, hx, -⟩ := he.2.2 _ _ h4
    exact ⟨_, .mapKey h1 h2 hc hx, .refl⟩
  | mapVal h1 h3 h4 =>
    obtain ⟨es, hc, he⟩ := container_rearranged h h3
    obtain ⟨x, hx, hsx⟩ := he.2.2 _ _ h4
    exact ⟨x, .mapVal h1 hc hx, hsx⟩
  | field h1 h3 h4 h5 h6 h7 =>
    obtain ⟨es, hc, he⟩ := container_rearranged h h3
    obtain ⟨x, hx, hsx⟩ := he.2.2 _ _ h4
    exact ⟨x, .field h1 hc hx h5 h6 h7, hsx⟩
  | any h1 h3 h4 =>
    obtain ⟨es, hc, he⟩ := container_rearranged h h3
    obtain ⟨x, hx, hsx⟩ := he.2.2 _ _ h4
    exact ⟨x, .any h1 hc hx, hsx⟩

theorem at_rearranged {t t' : Ty} {n n' : Nat} {d' x' : Doc} (ha : DocAt W t n d' t' n' x') :
    ∀ {d : Doc}, Rearranged d d' → ∃ x, DocAt W t n d t' n' x ∧ Rearranged x x' := by
  induction ha with
  | here => intro d h; exact ⟨d, .here, h⟩
  | step hs _ ih =>
    intro d h
    obtain ⟨x, h1, h2⟩ := step_rearranged h hs
    obtain ⟨y, h3, h4⟩ := ih h2
    exact ⟨y, .step h1 h3, h4⟩

theorem quoted_rearranged {t : Ty} {d d' : Doc} (h : Rearranged d d') (hq : QuotedOk W t d) : QuotedOk W t d' := by
  cases rows_of h with
  | same => exact hq
  | _ => cases hq

/-- The method of a type takes a document in any order if it takes it in one. -/
def OrderFree (W : World) (t : Ty) : Prop :=
  ∀ id d d' v, W.unmOf t = some id → Rearranged d d' → W.unmarshal id d.text = .ok v → ∃ v', W.unmarshal id d'.text = .ok v'

theorem here_rearranged {t : Ty} {n : Nat} {d d' : Doc} (hm : OrderFree W t) (hs : Rearranged d d') (h : HereOk W t n d) : HereOk W t n d' := by
  cases rows_of hs with
  | same => exact h
  | @arr cnt es es' he =>
    have hne : es ≠ [] → es' ≠ [] := by
      rintro h rfl
      exact h (List.length_eq_zero_iff.1 he.1)
    cases h with
    | unm h1 h2 h3 h4 => obtain ⟨v', hv⟩ := hm _ _ _ _ h1 hs h4; exact .unm h1 (by simp) (strict_rearranged h3 hs) hv
    | ptr h1 h2 => exact .ptr h1 h2
    | sliceEmpty h => rw [List.length_eq_zero_iff.1 (he.1.symm.trans rfl)]; exact .sliceEmpty h
    | slice h1 h2 h3 h4 h5 h6 =>
      refine .slice h1 h2 h3 h4 (hne h5) fun k x' hx' => ?_
      obtain ⟨x, hx, -⟩ := he.2.2 k x' hx'
      exact h6 k x hx
    | arrayEmpty h => rw [List.length_eq_zero_iff.1 (he.1.symm.trans rfl)]; exact .arrayEmpty h
    | array h1 h2 h3 h4 h5 =>
      refine .array h1 h2 h3 (hne h4) fun k x' hx' => ?_
      obtain ⟨x, hx, hsx⟩ := he.2.2 k x' hx'
      obtain ⟨txt, i, hk, hi, hb, hl⟩ := h5 k x hx
      exact ⟨txt, i, hk, hi, hb, fun h => strict_rearranged (hl h) hsx⟩
    | map h1 h2 h3 h4 =>
      cases h2
      refine .map h1 .arr h3 fun k x' hx' => ?_
      obtain ⟨x, hx, -⟩ := he.2.2 k x' hx'
      exact h4 k x hx
    | struct h1 h2 h3 h4 =>
      cases h2
      refine .struct h1 .arr h3 fun k x' hx' => ?_
      obtain ⟨x, hx, hsx⟩ := he.2.2 k x' hx'
      obtain ⟨s, hk, h⟩ := h4 k x hx
      refine ⟨s, hk, h.imp (fun h => ⟨h.1, strict_rearranged h.2 hsx⟩) ?_⟩
      rintro ⟨i, f, hf, h⟩
      exact ⟨i, f, hf, h.imp id fun h => ⟨h.1, quoted_rearranged hsx h.2⟩⟩
    | anyArr h1 h2 h3 =>
      refine .anyArr h1 h2 fun k x' hx' => ?_
      obtain ⟨x, hx, -⟩ := he.2.2 k x' hx'
      exact h3 k x hx
  | @obj clen cls cnt es es' he =>
    cases h with
    | unm h1 h2 h3 h4 => obtain ⟨v', hv⟩ := hm _ _ _ _ h1 hs h4; exact .unm h1 (by simp) (strict_rearranged h3 hs) hv
    | ptr h1 h2 => exact .ptr h1 h2
    | map h1 h2 h3 h4 =>
      cases h2 with
      | obj hl =>
      refine .map h1 (.obj hl) h3 fun k x' hx' => ?_
      obtain ⟨x, hx, -⟩ := he.2.2 k x' hx'
      exact h4 k x hx
    | struct h1 h2 h3 h4 =>
      cases h2 with
      | obj hl =>
      refine .struct h1 (.obj hl) h3 fun k x' hx' => ?_
      obtain ⟨x, hx, hsx⟩ := he.2.2 k x' hx'
      obtain ⟨s, hk, h⟩ := h4 k x hx
      refine ⟨s, hk, h.imp (fun h => ⟨h.1, strict_rearranged h.2 hsx⟩) ?_⟩
      rintro ⟨i, f, hf, h⟩
      exact ⟨i, f, hf, h.imp id fun h => ⟨h.1, quoted_rearranged hsx h.2⟩⟩
    | anyObj h1 h2 h3 h4 =>
      refine .anyObj h1 h2 h3 fun k x' hx' => ?_
      obtain ⟨x, hx, -⟩ := he.2.2 k x' hx'
      exact h4 k x hx

/-- The methods of all types that are reached take documents in any order. -/
def OrdersOk (W : World) (t : Ty) : Prop := ∀ t', Reach W t t' → OrderFree W t'

theorem ordersOk_comp {t t' : Ty} (h : OrdersOk W t) (hc : Component W t t') : OrdersOk W t' := fun t'' hr => h t'' (reach_front hc hr)

theorem ordersOk_step {t t' : Ty} {n n' : Nat} {d d' : Doc} (h : OrdersOk W t) (hs : DocStep W t n d t' n' d') : OrdersOk W t' := by
  cases hs with
  | ptr hp => exact ordersOk_comp h (.ptr hp)
  | slice hp => exact ordersOk_comp h (.slice hp)
  | array hp => exact ordersOk_comp h (.array hp)
  | mapKey hp => exact ordersOk_comp h (.mapKey hp)
  | mapVal hp => exact ordersOk_comp h (.mapVal hp)
  | field hp _ _ _ hf => exact ordersOk_comp h (.field hp (List.mem_iff_getElem?.2 ⟨_, hf.1⟩))
  | any =>
    intro t' hr id d d' v hu
    rw [reach_any hr] at hu
    cases hu

theorem ordersOk_at {t t' : Ty} {n n' : Nat} {d d' : Doc} (hs : DocAt W t n d t' n' d') (h : OrdersOk W t) : OrdersOk W t' := by
  induction hs with
  | here => exact h
  | step hs _ ih => exact ih (ordersOk_step h hs)

theorem allOk_rearranged {t : Ty} {n : Nat} {d d' : Doc} (ho : OrdersOk W t) (hs : Rearranged d d') (h : AllOk W t n d) : AllOk W t n d' := by
  intro t' n' x' ha
  obtain ⟨x, h1, h2⟩ := at_rearranged ha hs
  exact here_rearranged (ordersOk_at h1 ho t' .refl) h2 (h _ _ _ h1)

end Verif

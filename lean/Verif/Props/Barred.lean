import Verif.Proofs.Barred
import Verif.Props.Obstacle
/-
C89: `Marshal` returns a text exactly if nothing bars the way. `Barred` (Spec/Barred.lean) speaks of the places that `Marshal` gets to (Spec/Position.lean)
and of faults of types (Spec/Fault.lean).
-/
namespace Verif
open Spec Demo

/-- C89: a value with something that bars the way is never written, not even in part. -/
theorem C89_barred (W : World) (h : Heap) (t : Ty) (v : GV) (hb : Barred W h t v) (tx : Bytes) : ¬ MarshalGives W h (some (t, v)) (.ok tx) :=
  fun hg => text_not_barred hg hb

/-- C89: every failure, be it an error or a panic, has something that bars the way, except for reports of recursion. -/
theorem C89_failure (W : World) (h : Heap) (t : Ty) (v : GV) (hw : WellFormed W h t v)
    (hf : (∃ e, e ≠ .recursive ∧ MarshalGives W h (some (t, v)) (.err e)) ∨ ∃ p, MarshalGives W h (some (t, v)) (.panic p)) : Barred W h t v := by
  rcases hf with ⟨e, he, -, n, hn⟩ | ⟨p, -, n, hn⟩
  · exact marshal_barred (x := .err e) (by simp) (by simpa using he) hw (hn n n (Nat.le_refl _) (Nat.le_refl _))
  · exact marshal_barred (x := .panic p) (by simp) (by simp) hw (hn n n (Nat.le_refl _) (Nat.le_refl _))

/-- C89: finite acyclic values, whose addresses tell the parts apart, are written if and only if nothing bars the way. (Slices of other things than
interfaces are held in interfaces at less than 1000 levels only, no array type contains itself, methods end and do not return the error about recursion.) -/
theorem C89_exact (W : World) (h : Heap) (t : Ty) (v : GV) (hw : WellFormed W h t v) (hf : FiniteValue W h t v) (hc : Acyclic W h t v)
    (ht : AddressesTell W h t v) (hs : ShallowHeld W h t v) (ha : ∀ t' v', Within W h t v t' v' → ArrayGuarded W t')
    (hd : ∀ t v, h.marshal t v ≠ .diverge) (hr : ∀ t v, h.marshal t v ≠ .err .recursive) :
    (∃ tx, MarshalGives W h (some (t, v)) (.ok tx)) ↔ ¬ Barred W h t v := by
  constructor
  · rintro ⟨tx, hg⟩ hb
    exact C89_barred W h t v hb tx hg
  · intro hn
    obtain ⟨r, hg⟩ := C50_ends W h t v hf hc ha hd
    cases r with
    | ok tx => exact ⟨tx, hg⟩
    | err e =>
      refine absurd (C89_failure W h t v hw (.inl ⟨e, ?_, hg⟩)) hn
      rintro rfl
      exact C29_acyclic_partial W h t v hr hc ht hs hg
    | panic p => exact absurd (C89_failure W h t v hw (.inr ⟨p, hg⟩)) hn
    | diverge => exact absurd rfl hg.1

-- `[]any{1}` meets the hypotheses
example : (∃ tx, MarshalGives Demo.W Demo.heapA (some (.slice .any, .slice 1700 1)) (.ok tx)) ↔ ¬ Barred Demo.W Demo.heapA (.slice .any) (.slice 1700 1) :=
  C89_exact _ _ _ _ inObs_form inObs_finite (acyclic_of_rank (S := Demo.InObs) (fun _ v => Demo.rankObs v) Demo.inObs_part (by simp [Demo.InObs]))
    inObs_tell inObs_shallow (fun _ _ hw => inObs_guarded (inObs_within hw)) (by simp [Demo.heapA]) (by simp [Demo.heapA])

namespace Demo

/-- Declared type 10: arrays of one interface, with a method. -/
def WK : World := { W with named := fun | 10 => ⟨.array 1 .any, false, .value⟩ | i => Demo.named i }

end Demo

/-- An array in an interface bars the way; but not if a method is called before it is reached. (So the list of C88 is not exact and that of C89 is.) -/
theorem C89_hidden_witness :
    Barred Demo.WK Demo.heapA (.array 1 .any) (.arr [.iface (.array 1 .bool) (.arr [.bool true])]) ∧
    Obstacle Demo.WK Demo.heapA (.named 10) (.arr [.iface (.array 1 .bool) (.arr [.bool true])]) (.unsupported "interface value") ∧
    MarshalGives Demo.WK Demo.heapA (some (.named 10, .arr [.iface (.array 1 .bool) (.arr [.bool true])])) (.ok []) := by
  refine ⟨.held (u := .array 1 .bool) (p := [0]) (.step (.array (i := 0) ⟨by simp, .inr ⟨rfl, by simp⟩⟩ (by simp) rfl rfl)
    (.step (.iface (.inr ⟨by simp, .inr ⟨rfl, by simp⟩⟩) rfl) .refl)) rfl rfl (by simp [HeldKind, EncKeyKind, World.resolve]),
    .held (u := .array 1 .bool) ⟨.any, _, _, rfl, .step (.array rfl (List.mem_cons_self ..)) .refl, .refl⟩ rfl rfl (by simp [HeldKind, EncKeyKind, World.resolve]),
    marshalGives_of (cf := 9) (f := 9) (by simp) (by rfl)⟩

end Verif

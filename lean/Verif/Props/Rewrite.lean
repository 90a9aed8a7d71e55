import Verif.Proofs.RewriteBack
import Verif.Proofs.RewriteMove
import Verif.Props.Composite
import Verif.Props.Recursion
/-
The text of a value does not depend on where in memory the value is, and writing again what was read gives the same text (C83).
-/
namespace Verif
open Spec

namespace Demo

/-- Struct type 41 has an unexported and an exported field, struct type 40 a field of type 41 with omitempty. Infinities and NaN are
converted as they should. -/
def WR : World := { W with
  fields := fun
    | 40 => [⟨b! "F", b! "f,omitempty", true, false, .struct 41⟩]
    | 41 => [⟨b! "c", [], false, false, .int .int⟩, ⟨b! "B", b! "b", true, false, .int .int⟩]
    | i => fields i
  structZero := fun
    | 40 => .struct [.struct [.int 0, .int 0]]
    | 41 => .struct [.int 0, .int 0]
    | i => structZero i
  toF32 := fun x => if x = 0x7FF0000000000000 then 0x7F800000 else if x = 0xFFF0000000000000 then 0xFF800000
    else if x = 0x7FF8000000000001 then 0x7FC00000 else 0x3F000000 }

/-- Another memory: interfaces at 7, ints at 8, a map at 9 that is iterated in one order. -/
def heapR : Heap := { heap with
  elems := fun
    | .any, 7, 3 => [.iface (.int .int) (.int 5), .ifaceNil, .iface (.slice (.int .int)) (.slice 8 2)]
    | .int .int, 8, 2 => [.int 7, .int (-8)]
    | _, _, _ => []
  iter := fun
    | .str, .int .int, _, 9 => [(.str (b! "k"), .int 1), (.str (b! "l"), .int 2)]
    | _, _, _, _ => [] }

theorem wr_mar (t : Ty) : WR.marOf t = false := noMarshaler t

theorem wr_zeroOk : ZeroOk WR := by
  refine ⟨fun id => ?_, fun id => ?_⟩
  · rcases id with _ | _ | _ | _ | id <;> rfl
  · show WR.structZero id = .struct ((WR.fields id).map fun f => WR.zero f.ty)
    unfold WR
    dsimp only
    split <;> try rfl
    rcases id with _ | _ | _ | _ | _ | id <;> rfl

theorem wr_convert : Convert32 WR := ⟨rfl, rfl, by unfold NaN32; decide⟩
theorem wr_nans : NaNsAlike WR := ⟨fun _ _ _ _ _ => rfl, fun _ _ _ _ _ => rfl⟩

theorem wr_methods (h h' : Heap) (t : Ty) (v : GV) : MethodsAgree WR h h' t v := fun t' _ _ _ _ hm => by rw [wr_mar] at hm; cases hm

theorem heap_reordered : Reordered heap heap := by
  refine ⟨rfl, rfl, fun k e p p' a => ?_⟩
  show (heapIter k e p a).Perm (heapIter k e p' a)
  unfold heapIter
  split <;> split <;> first | exact .refl _ | exact .swap _ _ _ | simp_all

theorem sameMap : SameIn WR heap heapR (.map .str (.int .int)) (.map 5000) (.map 9) := by
  have hp : ∀ p, (heap.iter .str (.int .int) p 5000).Perm [(.str (b! "k"), .int 1), (.str (b! "l"), .int 2)] := fun p =>
    heap_reordered.iter .str (.int .int) p [0] 5000
  refine .map (k := .str) (e := .int .int) (fun _ _ => [(.str (b! "k"), .int 1), (.str (b! "l"), .int 2)]) rfl (fun p _ => hp p) (fun _ _ => rfl)
    (fun _ _ i x y hx hy _ => ?_) fun _ _ i x y hx hy => ?_
  · cases hx.symm.trans hy; rfl
  · cases hx.symm.trans hy
    rcases i with _ | _ | i
    · cases hx; exact .int
    · cases hx; exact .int
    · simp at hx

theorem sameSlice : SameIn WR heap heapR (.slice .any) (.slice 1200 3) (.slice 7 3) := by
  refine .slice (e := .any) rfl rfl fun i x y hx hy => ?_
  rcases i with _ | _ | _ | i
  · cases hx; cases hy; exact .iface .int
  · cases hx; cases hy; exact .ifaceNil
  · cases hx; cases hy
    refine .iface (.slice (e := .int .int) rfl rfl fun i x y hx hy => ?_)
    rcases i with _ | _ | i
    · cases hx; cases hy; exact .int
    · cases hx; cases hy; exact .int
    · simp [heap, heapElems] at hx
  · simp [heap, heapElems] at hx

/-- The document of the map. -/
def docR : Doc := .arr (b! "2") [(.str (b! "1") (b! "l"), .int (b! "2")), (.str (b! "1") (b! "k"), .int (b! "1"))]

theorem docR_lax : Lax 1 docR := by
  have d1 : LenText (b! "1") 1 := ⟨by unfold IsDigits; decide, rfl, by decide⟩
  refine .arr (by unfold IsDigits; decide) (fun k v hm => ?_) (fun k v hm => ?_) <;> simp at hm <;> rcases hm with ⟨rfl, rfl⟩ | ⟨rfl, rfl⟩
  · exact .str d1
  · exact .str d1
  · exact .int (.pos (by unfold IsDigits; decide))
  · exact .int (.pos (by unfold IsDigits; decide))

end Demo

/-- C83: values of any type, with interfaces, methods and pointers in them. If `Marshal` returns texts for the same value in two memories
(`SameIn`), then these are the same text; entries may stand in different orders, but only if there is a map in the value. The methods
MarshalPHP, which are not part of the library, must return the same for the same value, and strconv must write all NaNs alike. -/
theorem C83_same_text (W : World) (h h' : Heap) (hn : NaNsAlike W) (t : Ty) (v v' : GV) (hM : MethodsAgree W h h' t v) (hs : SameIn W h h' t v v')
    (tx tx' : Bytes) (hm : MarshalGives W h (some (t, v)) (.ok tx)) (hm' : MarshalGives W h' (some (t, v')) (.ok tx')) :
    Shuffled (∃ t' a, Within W h t v t' (.map a)) tx tx' :=
  encG_same hn (P := Within W h t v) (fun t' a hw => ⟨t', a, hw⟩) hM (marshalGives_ok_iff.1 hm).2 (marshalGives_ok_iff.1 hm').2 hs (fun hh => by cases hh)
    fun _ _ hw => hw

-- a map in two memories, iterated in two orders
example : NaNsAlike Demo.WR ∧ MethodsAgree Demo.WR Demo.heap Demo.heapR (.map .str (.int .int)) (.map 5000) ∧
    SameIn Demo.WR Demo.heap Demo.heapR (.map .str (.int .int)) (.map 5000) (.map 9) ∧
    MarshalGives Demo.WR Demo.heap (some (.map .str (.int .int), .map 5000)) (.ok (b! "a:2:{s:1:\"l\";i:2;s:1:\"k\";i:1;}")) ∧
    MarshalGives Demo.WR Demo.heapR (some (.map .str (.int .int), .map 9)) (.ok (b! "a:2:{s:1:\"k\";i:1;s:1:\"l\";i:2;}")) :=
  ⟨Demo.wr_nans, Demo.wr_methods _ _ _ _, Demo.sameMap, marshalGives_of (cf := 9) (f := 9) (by simp) (by rfl), marshalGives_of (cf := 9) (f := 9) (by simp) (by rfl)⟩

/-- C83: if there is no map in the value, the texts are equal, byte by byte. -/
theorem C83_equal_text (W : World) (h h' : Heap) (hn : NaNsAlike W) (t : Ty) (v v' : GV) (hM : MethodsAgree W h h' t v) (hs : SameIn W h h' t v v')
    (hno : ∀ t' a, ¬ Within W h t v t' (.map a))
    (tx tx' : Bytes) (hm : MarshalGives W h (some (t, v)) (.ok tx)) (hm' : MarshalGives W h' (some (t, v')) (.ok tx')) : tx = tx' :=
  shuffled_eq (C83_same_text W h h' hn t v v' hM hs tx tx' hm hm') fun ⟨t', a, hw⟩ => hno t' a hw

/-- C83: if `Marshal` returns a text for a value, then for the same value in another memory it returns the same text as well, up to the order
of map entries, or it reports a recursive structure; there is no other error. (Whether a structure is reported as recursive depends on the
addresses, see C29.) -/
theorem C83_outcome (W : World) (h h' : Heap) (hn : NaNsAlike W) (t : Ty) (v v' : GV) (hM : MethodsAgree W h h' t v) (hs : SameIn W h h' t v v')
    (tx : Bytes) (hm : MarshalGives W h (some (t, v)) (.ok tx)) :
    (∃ tx', MarshalGives W h' (some (t, v')) (.ok tx') ∧ Shuffled (∃ t' a, Within W h t v t' (.map a)) tx tx') ∨
      MarshalGives W h' (some (t, v')) (.err .recursive) := by
  obtain ⟨h1, h2⟩ := marshalGives_ok_iff.1 hm
  obtain ⟨tx', h3⟩ := encG_move (P := Within W h t v) (st' := []) (p' := []) hM h2 hs (fun hh => by cases hh) fun _ _ hw => hw
  exact (marshalGives_of_encT h1 h3).imp (fun h4 => ⟨tx', h4, C83_same_text W h h' hn t v v' hM hs tx tx' hm h4⟩) id

/-- C83: the text is returned if the value has no cycles and no two addresses that are confused (the hypotheses of `C29_acyclic_partial`). -/
theorem C83_acyclic_outcome (W : World) (h h' : Heap) (hn : NaNsAlike W) (t : Ty) (v v' : GV) (hM : MethodsAgree W h h' t v) (hs : SameIn W h h' t v v')
    (hr : ∀ t v, h'.marshal t v ≠ .err .recursive) (ha : Acyclic W h' t v') (ht : AddressesTell W h' t v') (hl : ShallowHeld W h' t v')
    (tx : Bytes) (hm : MarshalGives W h (some (t, v)) (.ok tx)) :
    ∃ tx', MarshalGives W h' (some (t, v')) (.ok tx') ∧ Shuffled (∃ t' a, Within W h t v t' (.map a)) tx tx' :=
  (C83_outcome W h h' hn t v v' hM hs tx hm).resolve_right (C29_acyclic_partial W h' t v' hr ha ht hl)

-- the map is the only address in the other memory, and every path ends after one step
example : MethodsAgree Demo.WR Demo.heap Demo.heapR (.map .str (.int .int)) (.map 5000) ∧
    SameIn Demo.WR Demo.heap Demo.heapR (.map .str (.int .int)) (.map 5000) (.map 9) ∧
    (∀ t v, Demo.heapR.marshal t v ≠ .err .recursive) ∧ Acyclic Demo.WR Demo.heapR (.map .str (.int .int)) (.map 9) ∧
    AddressesTell Demo.WR Demo.heapR (.map .str (.int .int)) (.map 9) ∧ ShallowHeld Demo.WR Demo.heapR (.map .str (.int .int)) (.map 9) ∧
    MarshalGives Demo.WR Demo.heap (some (.map .str (.int .int), .map 5000)) (.ok (b! "a:2:{s:1:\"l\";i:2;s:1:\"k\";i:1;}")) := by
  let S : Ty → GV → Prop := fun t w => (t = .map .str (.int .int) ∧ w = .map 9) ∨ t = .int .int ∧ ∃ i, w = .int i
  let r : Ty → GV → Nat := fun _ w => match w with | .map _ => 1 | _ => 0
  have part : ∀ t v t' v', S t v → Part Demo.WR Demo.heapR t v t' v' → S t' v' ∧ r t' v' < r t v := by
    rintro t v t' v' (⟨rfl, rfl⟩ | ⟨rfl, i, rfl⟩) hp
    · cases hp with
      | map hr hm =>
        cases hr
        simp only [Demo.heapR, List.mem_cons, List.not_mem_nil, or_false] at hm
        rcases hm with h | h <;> cases h <;> exact ⟨.inr ⟨rfl, _, rfl⟩, Nat.lt_succ_self 0⟩
    · cases hp
  have start : S (.map .str (.int .int)) (.map 9) := .inl ⟨rfl, rfl⟩
  have all := fun t' v' => closed_within (t' := t') (v' := v') (fun t v t' v' a b => (part t v t' v' a b).1) start
  refine ⟨Demo.wr_methods _ _ _ _, Demo.sameMap, by simp [Demo.heapR, Demo.heap], acyclic_of_rank r part start, ?_, ?_,
    marshalGives_of (cf := 9) (f := 9) (by simp) (by rfl)⟩
  · rintro t1 v1 t2 v2 a h1 ⟨t3, v3, h2, h3⟩ h4 h5
    obtain ⟨h6, h7⟩ := part _ _ _ _ (all _ _ h1) h2
    rcases h6 with ⟨rfl, rfl⟩ | ⟨rfl, i, rfl⟩
    · rcases all _ _ h1 with ⟨rfl, rfl⟩ | ⟨rfl, j, rfl⟩
      · exact absurd h7 (Nat.lt_irrefl _)
      · cases h2
    · cases h3 with
      | refl => cases h5 <;> rename_i hr <;> cases hr
      | step hp => cases hp
  · rintro n t v e ⟨ti, dt, dv, h1, h2, -⟩ - -
    rcases all _ _ (below_within h2) with ⟨rfl, h⟩ | ⟨rfl, i, h⟩ <;> cases h

namespace Demo

/-- The slices of `heapA`, where the innermost has an address of its own. -/
def heapQ : Heap := { heapA with
  elems := fun
    | .any, 1800, 1 => [.iface (.slice .any) (.slice 1700 2)]
    | .any, 1700, 2 => [.iface (.int .int) (.int 1), .iface (.slice .any) (.slice 1600 1)]
    | .any, 1600, 1 => [.iface (.int .int) (.int 1)]
    | _, _, _ => [] }

theorem sameQ : SameIn W heapQ heapA (.slice .any) (.slice 1800 1) (.slice 1800 1) := by
  refine .slice (e := .any) rfl rfl fun i x y hx hy => ?_
  rcases i with _ | i
  · cases hx; cases hy
    refine .iface (.slice (e := .any) rfl rfl fun i x y hx hy => ?_)
    rcases i with _ | _ | i
    · cases hx; cases hy; exact .iface .int
    · cases hx; cases hy
      refine .iface (.slice (e := .any) rfl rfl fun i x y hx hy => ?_)
      rcases i with _ | i
      · cases hx; cases hy; exact .iface .int
      · simp [heapQ] at hx
    · simp [heapQ] at hx
  · simp [heapQ] at hx

end Demo

/-- C83: the report of a recursive structure cannot be left out of `C83_outcome`: a value without cycles has a text in one memory and is
reported as recursive in another. -/
theorem C83_addresses_counterexample : NaNsAlike Demo.W ∧ MethodsAgree Demo.W Demo.heapQ Demo.heapA (.slice .any) (.slice 1800 1) ∧
    SameIn Demo.W Demo.heapQ Demo.heapA (.slice .any) (.slice 1800 1) (.slice 1800 1) ∧
    MarshalGives Demo.W Demo.heapQ (some (.slice .any, .slice 1800 1)) (.ok (b! "a:1:{i:0;a:2:{i:0;i:1;i:1;a:1:{i:0;i:1;}}}")) ∧
    Acyclic Demo.W Demo.heapA (.slice .any) (.slice 1800 1) ∧ MarshalGives Demo.W Demo.heapA (some (.slice .any, .slice 1800 1)) (.err .recursive) :=
  ⟨⟨fun _ _ _ _ _ => rfl, fun _ _ _ _ _ => rfl⟩, fun t' _ _ _ _ hm => (by
      rw [show Demo.W.marOf t' = false from Demo.noMarshaler t'] at hm; cases hm),
    Demo.sameQ, marshalGives_of (cf := 9) (f := 9) (by simp) (by rfl), C29_slice_counterexample.1, C29_slice_counterexample.2⟩

-- a slice of interfaces, one of which holds a slice, at different addresses
example : SameIn Demo.WR Demo.heap Demo.heapR (.slice .any) (.slice 1200 3) (.slice 7 3) ∧
    (∀ t' a, ¬ Within Demo.WR Demo.heap (.slice .any) (.slice 1200 3) t' (.map a)) ∧
    MarshalGives Demo.WR Demo.heap (some (.slice .any, .slice 1200 3)) (.ok (b! "a:3:{i:0;i:5;i:1;N;i:2;a:2:{i:0;i:7;i:1;i:-8;}}")) ∧
    MarshalGives Demo.WR Demo.heapR (some (.slice .any, .slice 7 3)) (.ok (b! "a:3:{i:0;i:5;i:1;N;i:2;a:2:{i:0;i:7;i:1;i:-8;}}")) := by
  refine ⟨Demo.sameSlice, fun t' a hw => ?_, marshalGives_of (cf := 9) (f := 9) (by simp) (by rfl), marshalGives_of (cf := 9) (f := 9) (by simp) (by rfl)⟩
  have int : ∀ {t i}, ¬ Within Demo.WR Demo.heap t (.int i) t' (.map a) := fun hw => by
    generalize hv : GV.map a = w at hw
    cases hw with
    | refl => cases hv
    | step hp => cases hp
  generalize hv : GV.map a = w at hw
  cases hw with
  | refl => cases hv
  | step hp hw =>
    subst hv
    cases hp with
    | slice r hm =>
      cases r
      simp only [Demo.heap, Demo.heapElems, List.mem_cons, List.not_mem_nil, or_false] at hm
      rcases hm with rfl | rfl | rfl
      · generalize hv : GV.map a = w at hw
        cases hw with
        | refl => cases hv
        | step hp hw => subst hv; cases hp with | iface => exact int hw
      · generalize hv : GV.map a = w at hw
        cases hw with
        | refl => cases hv
        | step hp hw => cases hp
      · generalize hv : GV.map a = w at hw
        cases hw with
        | refl => cases hv
        | step hp hw =>
          subst hv
          cases hp with
          | iface =>
            generalize hv : GV.map a = w at hw
            cases hw with
            | refl => cases hv
            | step hp hw =>
              subst hv
              cases hp with
              | slice r hm =>
                cases r
                simp only [Demo.heap, Demo.heapElems, List.mem_cons, List.not_mem_nil, or_false] at hm
                rcases hm with rfl | rfl <;> exact int hw

/-- C83: what `Unmarshal` makes of a text of `Marshal` is written as the same text again, up to the order of map entries,
or reported as recursive (see C29). The hypotheses are
those of `C06_roundtrip_partial` and that every iteration of a map gives the same entries (`Reordered h h`). The variable `v2` in
the memory `h'` holds what was read (`KeptAs`).
Missing, because it is false: an empty slice is read back as nil and then written as null (`C83_empty_slice_counterexample`), and a struct with
the option omitempty that differs from zero only in fields that are not written is left out the second time
(`C83_hidden_field_counterexample`); `Robust` excludes both. Also missing are the values for which C06 is false. -/
theorem C83_again_partial (W : World) (h h' : Heap) (hn : NaNsAlike W) (hz : ZeroOk W) (hc : Convert32 W) (ho : Reordered h h) (t : Ty) (v v2 : GV)
    (hty : ∀ t', Uses W t t' → Ordinary W t') (hfit : ∀ t' v', Within W h t v t' v' → Fit W h t' v')
    (hrob : ∀ t' v', Within W h t v t' v' → Robust W h t' v')
    (tx : Bytes) (hm : MarshalGives W h (some (t, v)) (.ok tx)) (hl : tx.length < 2 ^ 63)
    (hd : ∃ d m, tx = d.text ∧ Lax m d ∧ Levels 10000 d) (fuel : Nat) (hcomp : compileD W fuel [] t = .ok ())
    (x : Val) (hu : unmarshal W fuel tx (.ptr t (W.zero t)) = (some x, .ok ())) (hk : KeptAs W h' t v2 x) :
    (∃ tx2, MarshalGives W h' (some (t, v2)) (.ok tx2) ∧ Shuffled (∃ t' a, Within W h t v t' (.map a)) tx tx2) ∨
      MarshalGives W h' (some (t, v2)) (.err .recursive) := by
  obtain ⟨y, h1, h2⟩ := C06_roundtrip_partial W h hz hc t v hty hfit tx hm hl hd fuel hcomp
  rw [hu] at h2
  cases h2
  have hM : MethodsAgree W h h' t v := fun t' w w' _ hw ha => by rw [(hty t' (within_uses hty hw .refl)).mar] at ha; cases ha
  exact C83_outcome W h h' hn t v v2 hM (same_of_kept hz ho h1 hk hrob) tx hm

-- the map is written, read, and written again in another order
example : Reordered Demo.heap Demo.heap ∧ ZeroOk Demo.WR ∧ Convert32 Demo.WR ∧
    (∀ t', Uses Demo.WR (.map .str (.int .int)) t' → Ordinary Demo.WR t') ∧
    (∀ t' v', Within Demo.WR Demo.heap (.map .str (.int .int)) (.map 5000) t' v' → Fit Demo.WR Demo.heap t' v' ∧ Robust Demo.WR Demo.heap t' v') ∧
    MarshalGives Demo.WR Demo.heap (some (.map .str (.int .int), .map 5000)) (.ok (b! "a:2:{s:1:\"l\";i:2;s:1:\"k\";i:1;}")) ∧
    (∃ d m, b! "a:2:{s:1:\"l\";i:2;s:1:\"k\";i:1;}" = d.text ∧ Lax m d ∧ Levels 10000 d) ∧ compileD Demo.WR 4 [] (.map .str (.int .int)) = .ok () ∧
    unmarshal Demo.WR 4 (b! "a:2:{s:1:\"l\";i:2;s:1:\"k\";i:1;}") (.ptr (.map .str (.int .int)) .mapNil) =
      (some (.map [(.str (b! "l"), .int 2), (.str (b! "k"), .int 1)]), .ok ()) ∧
    KeptAs Demo.WR Demo.heapR (.map .str (.int .int)) (.map 9) (.map [(.str (b! "l"), .int 2), (.str (b! "k"), .int 1)]) ∧
    MarshalGives Demo.WR Demo.heapR (some (.map .str (.int .int), .map 9)) (.ok (b! "a:2:{s:1:\"k\";i:1;s:1:\"l\";i:2;}")) := by
  refine ⟨Demo.heap_reordered, Demo.wr_zeroOk, Demo.wr_convert, fun t' hu => ?_, fun t' v' hw => ?_, marshalGives_of (cf := 9) (f := 9) (by simp) (by rfl),
    ⟨Demo.docR, 1, by rfl, Demo.docR_lax, levels_of_depth (by decide)⟩, by rfl, by rfl, ?_, marshalGives_of (cf := 9) (f := 9) (by simp) (by rfl)⟩
  · have : t' = .map .str (.int .int) ∨ t' = .str ∨ t' = .int .int := by
      induction hu with
      | refl => simp
      | step _ hn ih =>
        rcases ih with rfl | rfl | rfl
        · cases hn with
          | ptr h => cases h.2
          | slice h => cases h.2
          | array h => cases h.2
          | mapKey h => cases h.2; simp
          | mapVal h => cases h.2; simp
          | field h => cases h.2
        · exact (needs_scalar (by simp [ScalarKind, World.resolve]) hn).elim
        · exact (needs_scalar (by simp [ScalarKind, World.resolve]) hn).elim
    rcases this with rfl | rfl | rfl <;> exact ⟨rfl, Demo.wr_mar _, by simp [World.resolve, OrdinaryKind]⟩
  · have hi : ∀ p x, x ∈ Demo.heap.iter .str (.int .int) p 5000 → x = (.str (b! "l"), .int 2) ∨ x = (.str (b! "k"), .int 1) := fun p x hx => by
      simpa [Demo.heap, Demo.heapIter] using (Demo.heap_reordered.iter .str (.int .int) p [] 5000).mem_iff.1 hx
    cases hw with
    | refl =>
      refine ⟨fun k e p hr => ?_, trivial⟩
      cases hr
      refine ⟨?_, fun x hx => ?_⟩
      · by_cases hp : p = []
        · subst hp; simp [Demo.heap, Demo.heapIter]
        · simp [Demo.heap, Demo.heapIter]
      · rcases hi p x hx with rfl | rfl <;> trivial
    | step hp hw =>
      cases hp with
      | map hr hm =>
        cases hr
        have int : ∀ {i : Int}, InRange .int i → Within Demo.WR Demo.heap (.int .int) (.int i) t' v' → Fit Demo.WR Demo.heap t' v' ∧ Robust Demo.WR Demo.heap t' v' := by
          intro i hi hw
          cases hw with
          | refl => exact ⟨fun k hk => by cases hk; exact hi, trivial⟩
          | step hp => cases hp
        rcases hi _ _ hm with h | h <;> cases h <;> exact int (by unfold InRange; decide) hw
  · refine .map (k := .str) (e := .int .int) (fun _ => [(.str (b! "k"), .int 1), (.str (b! "l"), .int 2)]) rfl (fun _ => .swap _ _ _) (fun _ => rfl)
      (fun _ i u y hu hy => ?_) fun _ i u y hu hy => ?_ <;> rcases i with _ | _ | i
    · cases hu; cases hy; exact .str rfl
    · cases hu; cases hy; exact .str rfl
    · simp at hy
    · cases hu; cases hy; exact .int rfl
    · cases hu; cases hy; exact .int rfl
    · simp at hy

/-- C83 is false for empty slices: an empty `[]int` is written as an empty array, read back as nil, and nil is written as null. -/
theorem C83_empty_slice_counterexample :
    MarshalGives Demo.WR Demo.heap (some (.slice (.int .int), .slice 1 0)) (.ok (b! "a:0:{}")) ∧
    unmarshal Demo.WR 4 (b! "a:0:{}") (.ptr (.slice (.int .int)) .sliceNil) = (some .sliceNil, .ok ()) ∧
    KeptAs Demo.WR Demo.heapR (.slice (.int .int)) .sliceNil .sliceNil ∧
    MarshalGives Demo.WR Demo.heapR (some (.slice (.int .int), .sliceNil)) (.ok (b! "N;")) ∧ ∀ Q, ¬ Shuffled Q (b! "a:0:{}") (b! "N;") :=
  ⟨marshalGives_of (cf := 9) (f := 9) (by simp) (by rfl), by rfl, .sliceNil (e := .int .int) rfl, marshalGives_of (cf := 9) (f := 9) (by simp) (by rfl),
    fun _ hs => absurd (shuffled_length hs) (by decide)⟩

/-- C83 is false for structs with omitempty that differ from zero in an unexported field only: such a field is written the first time and
left out the second time. -/
theorem C83_hidden_field_counterexample :
    MarshalGives Demo.WR Demo.heap (some (.struct 40, .struct [.struct [.int 5, .int 0]])) (.ok (b! "a:1:{s:1:\"f\";a:1:{s:1:\"b\";i:0;}}")) ∧
    unmarshal Demo.WR 4 (b! "a:1:{s:1:\"f\";a:1:{s:1:\"b\";i:0;}}") (.ptr (.struct 40) (Demo.WR.zero (.struct 40))) =
      (some (.struct [.struct [.int 0, .int 0]]), .ok ()) ∧
    KeptAs Demo.WR Demo.heapR (.struct 40) (.struct [.struct [.int 0, .int 0]]) (.struct [.struct [.int 0, .int 0]]) ∧
    MarshalGives Demo.WR Demo.heapR (some (.struct 40, .struct [.struct [.int 0, .int 0]])) (.ok (b! "a:0:{}")) ∧
    ∀ Q, ¬ Shuffled Q (b! "a:1:{s:1:\"f\";a:1:{s:1:\"b\";i:0;}}") (b! "a:0:{}") := by
  refine ⟨marshalGives_of (cf := 9) (f := 9) (by simp) (by rfl), by rfl, ?_, marshalGives_of (cf := 9) (f := 9) (by simp) (by rfl),
    fun _ hs => absurd (shuffled_length hs) (by decide)⟩
  refine .struct (id := 40) rfl rfl rfl fun i f u y hf hu hy => ?_
  rcases i with _ | i
  · cases hf; cases hu; cases hy
    refine .struct (id := 41) rfl rfl rfl fun i f u y hf hu hy => ?_
    rcases i with _ | _ | i
    · cases hf; cases hu; cases hy; exact .int rfl
    · cases hf; cases hu; cases hy; exact .int rfl
    · simp at hu
  · simp at hu

end Verif

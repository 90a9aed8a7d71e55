import Verif.Spec.Share
import Verif.Proofs.MemSim
/-
A decoder changes only its place and objects that references lead to from there. For every set `X` of objects that is closed under references and
has all new objects: if what the place refers to is in `X`, then only `X` and the place change, and this stays so.
-/
set_option linter.unusedSimpArgs false
namespace Verif
open Spec

/-! ### References in parts -/

theorem mem_refsAll {r : Nat} : ∀ {hs : List HV}, r ∈ refsAll hs ↔ ∃ h ∈ hs, r ∈ refs h
  | [] => by simp [refsAll]
  | h :: hs => by simp [refsAll, mem_refsAll (hs := hs)]

theorem refs_at {r : Nat} : ∀ {p : List Nat} {h g : HV}, h.at p = some g → r ∈ refs g → r ∈ refs h
  | [], h, g, hg, hr => by
    rw [HV.at_nil] at hg
    cases hg
    exact hr
  | i :: p, h, g, hg, hr => by
    cases h with
    | arr es =>
      simp only [HV.at] at hg
      cases he : es[i]? with
      | none => rw [he] at hg; cases hg
      | some e =>
        rw [he] at hg
        exact mem_refsAll.2 ⟨e, List.mem_of_getElem? he, refs_at hg hr⟩
    | struct es =>
      simp only [HV.at] at hg
      cases he : es[i]? with
      | none => rw [he] at hg; cases hg
      | some e =>
        rw [he] at hg
        exact mem_refsAll.2 ⟨e, List.mem_of_getElem? he, refs_at hg hr⟩
    | _ => cases hg

theorem refs_set {r : Nat} {es : List HV} {i : Nat} {x : HV} (h : r ∈ refsAll (es.set i x)) : r ∈ refsAll es ∨ r ∈ refs x := by
  obtain ⟨y, hy, hr⟩ := mem_refsAll.1 h
  rcases List.mem_or_eq_of_mem_set hy with hy | rfl
  · exact .inl (mem_refsAll.2 ⟨y, hy, hr⟩)
  · exact .inr hr

theorem refs_put {r : Nat} {x : HV} : ∀ {p : List Nat} {h : HV}, r ∈ refs (h.put p x) → r ∈ refs h ∨ ((h.put p x).at p = some x ∧ r ∈ refs x)
  | [], h, hr => by
    rw [HV.put_nil] at hr ⊢
    exact .inr ⟨HV.at_nil, hr⟩
  | i :: p, h, hr => by
    cases h with
    | arr es =>
      simp only [HV.put] at hr ⊢
      cases he : es[i]? with
      | none => rw [he] at hr; exact .inl hr
      | some e =>
        rw [he] at hr
        have hi := (List.getElem?_eq_some_iff.1 he).1
        rcases refs_set hr with h | h
        · exact .inl h
        · rcases refs_put h with h | ⟨h1, h2⟩
          · exact .inl (mem_refsAll.2 ⟨e, List.mem_of_getElem? he, h⟩)
          · exact .inr ⟨by simpa only [HV.at, List.getElem?_set_self hi] using h1, h2⟩
    | struct es =>
      simp only [HV.put] at hr ⊢
      cases he : es[i]? with
      | none => rw [he] at hr; exact .inl hr
      | some e =>
        rw [he] at hr
        have hi := (List.getElem?_eq_some_iff.1 he).1
        rcases refs_set hr with h | h
        · exact .inl h
        · rcases refs_put h with h | ⟨h1, h2⟩
          · exact .inl (mem_refsAll.2 ⟨e, List.mem_of_getElem? he, h⟩)
          · exact .inr ⟨by simpa only [HV.at, List.getElem?_set_self hi] using h1, h2⟩
    | _ => exact .inl hr

theorem at_put_none : ∀ {p : List Nat} {h x : HV}, h.at p = none → h.put p x = h
  | [], h, x, hh => by rw [HV.at_nil] at hh; cases hh
  | i :: p, h, x, hh => by
    cases h with
    | arr es =>
      simp only [HV.at] at hh
      simp only [HV.put]
      cases he : es[i]? with
      | none => rfl
      | some e =>
        rw [he] at hh
        obtain ⟨hi, rfl⟩ := List.getElem?_eq_some_iff.1 he
        simp only [at_put_none hh, List.set_getElem_self]
    | struct es =>
      simp only [HV.at] at hh
      simp only [HV.put]
      cases he : es[i]? with
      | none => rfl
      | some e =>
        rw [he] at hh
        obtain ⟨hi, rfl⟩ := List.getElem?_eq_some_iff.1 he
        simp only [at_put_none hh, List.set_getElem_self]
    | _ => rfl

mutual
theorem refs_flat : ∀ {v : Val}, refs (flat v) = []
  | .bool _ | .int _ | .uint _ | .f32 _ | .f64 _ | .str _ | .sliceNil | .slice _ | .mapNil | .map _ | .ptrNil | .ptr _ | .ifaceNil | .iface _ _
  | .other | .win _ _ _ => rfl
  | .arr _ => refsAll_flat
  | .struct _ => refsAll_flat
theorem refsAll_flat : ∀ {vs : List Val}, refsAll (flatList vs) = []
  | [] => rfl
  | v :: vs => by simp only [flatList, refsAll, refs_flat, refsAll_flat, List.append_nil]
end

theorem mem_refs_insert {r : Nat} {k v : HV} : ∀ {es : List (HV × HV)}, r ∈ refsOf (.map (hvInsert k v es)) → r ∈ refsOf (.map es) ∨ r ∈ refs k ∨ r ∈ refs v
  | [], h => by
    simp only [hvInsert, refsOf, List.flatMap_cons, List.flatMap_nil, List.append_nil, List.mem_append] at h
    exact .inr h
  | (k', v') :: es, h => by
    simp only [hvInsert] at h
    split at h
    · simp only [refsOf, List.flatMap_cons, List.mem_append] at h ⊢
      rcases h with h | h
      · exact .inr h
      · exact .inl (.inr h)
    · simp only [refsOf, List.flatMap_cons, List.mem_append] at h ⊢
      rcases h with h | h
      · exact .inl (.inl h)
      · rcases mem_refs_insert (es := es) h with h | h
        · exact .inl (.inr h)
        · exact .inr h

/-! ### Closed sets -/

/-- `X` has all objects that do not exist yet, what its objects refer to, and what the place refers to. -/
structure Inv (X : Nat → Prop) (l : Loc) (m : Mem) : Prop where
  new : ∀ a, m.length ≤ a → X a
  closed : ∀ a c, X a → m[a]? = some c → ∀ r ∈ refsOf c, X r
  roots : ∀ h, m.read l = some h → ∀ r ∈ refs h, X r

/-- Only `X` and the place have changed. -/
structure Only (X : Nat → Prop) (l : Loc) (m m' : Mem) : Prop where
  grows : m.length ≤ m'.length
  same : ∀ a, ¬ X a → a ≠ l.obj → m'[a]? = m[a]?
  around : ¬ X l.obj → m'[l.obj]? = m[l.obj]? ∨ ∃ x h, m[l.obj]? = some (.var x) ∧ m'[l.obj]? = some (.var (x.put l.path h))

/-- Both after a step. -/
def Conf (X : Nat → Prop) (l : Loc) (m m' : Mem) : Prop := Inv X l m' ∧ Only X l m m'

/-- For a decoder. -/
def ConfD (X : Nat → Prop) (d : Loc → Mem → DM) : Prop := ∀ l m, Inv X l m → Conf X l m (d l m).1

section Steps
variable {X : Nat → Prop} {l l' : Loc} {m m1 m2 : Mem}

theorem Only.refl : Only X l m m := ⟨Nat.le_refl _, fun _ _ _ => rfl, fun _ => .inl rfl⟩

theorem Only.trans (h1 : Only X l m m1) (h2 : Only X l m1 m2) : Only X l m m2 where
  grows := Nat.le_trans h1.grows h2.grows
  same a ha hl := (h2.same a ha hl).trans (h1.same a ha hl)
  around hx := by
    rcases h2.around hx with h | ⟨x, h, e1, e2⟩
    · rw [h]
      exact h1.around hx
    · rcases h1.around hx with h' | ⟨x', h', e1', e2'⟩
      · exact .inr ⟨x, h, h' ▸ e1, e2⟩
      · rw [e1] at e2'
        cases e2'
        exact .inr ⟨x', h, e1', by rw [e2, HV.put_put]⟩

theorem Inv.conf (h : Inv X l m) : Conf X l m m := ⟨h, .refl⟩

theorem Conf.trans (h1 : Conf X l m m1) (h2 : Inv X l m1 → Conf X l m1 m2) : Conf X l m m2 := ⟨(h2 h1.1).1, h1.2.trans (h2 h1.1).2⟩

theorem Inv.at (h : Inv X l m) {o : Nat} (ho : X o) {p : List Nat} : Inv X ⟨o, p⟩ m where
  new := h.new
  closed := h.closed
  roots g hg r hr := by
    obtain ⟨x, h1, h2⟩ := read_eq_some.1 hg
    exact h.closed _ _ ho h1 r (refs_at h2 hr)

/-- A step at a place in `X`. -/
theorem Conf.inside (h : Inv X l m) (ho : X l'.obj) (h1 : Conf X l' m m1) : Conf X l m m1 := by
  have hs : ∀ a, ¬ X a → m1[a]? = m[a]? := fun a ha => h1.2.same a ha fun e => ha (e ▸ ho)
  refine ⟨⟨h1.1.new, h1.1.closed, ?_⟩, h1.2.grows, fun a ha _ => hs a ha, fun ha => .inl (hs _ ha)⟩
  intro g hg r hr
  by_cases hx : X l.obj
  · obtain ⟨x, h2, h3⟩ := read_eq_some.1 hg
    exact h1.1.closed _ _ hx h2 r (refs_at h3 hr)
  · rw [read_congr (hs _ hx)] at hg
    exact h.roots g hg r hr

theorem Inv.sub (h : Inv X l m) {i : Nat} : Inv X (l.sub i) m where
  new := h.new
  closed := h.closed
  roots g hg r hr := by
    obtain ⟨x, h1, h2⟩ := read_eq_some.1 hg
    simp only [Loc.sub, HV.at_append] at h2
    cases h3 : x.at l.path with
    | none => rw [h3] at h2; cases h2
    | some y =>
      rw [h3] at h2
      exact h.roots y (read_eq_some.2 ⟨x, h1, h3⟩) r (refs_at h2 hr)

/-- A step at a part of the place. -/
theorem Conf.part (h : Inv X l m) {i : Nat} (h1 : Conf X (l.sub i) m m1) : Conf X l m m1 := by
  refine ⟨⟨h1.1.new, h1.1.closed, ?_⟩, h1.2.grows, h1.2.same, ?_⟩
  · intro g hg r hr
    by_cases hx : X l.obj
    · obtain ⟨x, h2, h3⟩ := read_eq_some.1 hg
      exact h1.1.closed _ _ hx h2 r (refs_at h3 hr)
    · rcases h1.2.around hx with he | ⟨x, y, e1, e2⟩
      · rw [read_congr (l := l) he] at hg
        exact h.roots g hg r hr
      · simp only [Loc.sub] at e1 e2
        obtain ⟨x', h2, h3⟩ := read_eq_some.1 hg
        rw [e2] at h2
        cases h2
        cases h4 : x.at l.path with
        | none =>
          have : x.at (l.path ++ [i]) = none := by rw [HV.at_append, h4]
          rw [at_put_none this, h4] at h3
          cases h3
        | some z =>
          rw [HV.put_append h4] at h3 e2
          rw [HV.at_put h4] at h3
          cases h3
          rcases refs_put hr with hr | ⟨h5, hr⟩
          · exact h.roots z (read_eq_some.2 ⟨x, e1, h4⟩) r hr
          · refine h1.1.roots y (read_eq_some.2 ⟨_, e2, ?_⟩) r hr
            simp only [Loc.sub, HV.at_append, HV.at_put h4, h5]
  · intro hx
    rcases h1.2.around hx with he | ⟨x, y, e1, e2⟩
    · exact .inl he
    · simp only [Loc.sub] at e1 e2
      cases h4 : x.at l.path with
      | none =>
        have : x.at (l.path ++ [i]) = none := by rw [HV.at_append, h4]
        rw [at_put_none this] at e2
        exact .inl (e2.trans e1.symm)
      | some z =>
        rw [HV.put_append h4] at e2
        exact .inr ⟨x, _, e1, e2⟩

theorem Inv.write (h : Inv X l m) {x : HV} (hx : ∀ r ∈ refs x, X r) : Conf X l m (m.write l x) := by
  refine ⟨⟨fun a ha => h.new a (by rwa [write_length] at ha), ?_, ?_⟩, by rw [write_length]; exact Nat.le_refl _, fun a _ hl => write_other hl, ?_⟩
  · intro a c ha hc r hr
    by_cases he : a = l.obj
    · subst he
      cases hm : m[l.obj]? with
      | none =>
        unfold Mem.write at hc
        rw [hm] at hc
        exact h.closed _ _ ha (hm.symm ▸ hc : m[l.obj]? = some c) r hr
      | some y =>
        cases y with
        | var y =>
          rw [write_at hm] at hc
          cases hc
          rcases refs_put hr with hr | ⟨-, hr⟩
          · exact h.closed _ _ ha hm r hr
          · exact hx r hr
        | map es =>
          unfold Mem.write at hc
          rw [hm] at hc
          exact h.closed _ _ ha hc r hr
    · rw [write_other he] at hc
      exact h.closed a c ha hc r hr
  · intro g hg r hr
    cases hm : m.read l with
    | some g0 =>
      rw [read_write hm] at hg
      cases hg
      exact hx r hr
    | none =>
      obtain ⟨y, h1, h2⟩ := read_eq_some.1 hg
      cases hm' : m[l.obj]? with
      | none =>
        unfold Mem.write at h1
        rw [hm'] at h1
        rw [hm'] at h1
        cases h1
      | some z =>
        cases z with
        | map es =>
          unfold Mem.write at h1
          rw [hm'] at h1
          rw [hm'] at h1
          cases h1
        | var z =>
          rw [write_at hm'] at h1
          cases h1
          have hz : z.at l.path = none := by
            unfold Mem.read at hm
            rwa [hm'] at hm
          rw [at_put_none hz, hz] at h2
          cases h2
  · intro _
    cases hm' : m[l.obj]? with
    | none => exact .inl (by unfold Mem.write; rw [hm']; exact hm')
    | some z =>
      cases z with
      | map es => exact .inl (by unfold Mem.write; rw [hm']; exact hm')
      | var z => exact .inr ⟨z, x, rfl, write_at hm'⟩

theorem Inv.alloc (h : Inv X l m) {o : Cell} (ho : ∀ r ∈ refsOf o, X r) : Conf X l m (m.new o) := by
  have hs : ∀ a, ¬ X a → (m.new o)[a]? = m[a]? := by
    intro a ha
    exact new_old (Nat.lt_of_not_le fun e => ha (h.new a e))
  refine ⟨⟨fun a ha => h.new a (by rw [new_length] at ha; omega), ?_, ?_⟩, by rw [new_length]; omega, fun a ha _ => hs a ha, fun ha => .inl (hs _ ha)⟩
  · intro a c ha hc r hr
    by_cases hl : a < m.length
    · rw [new_old hl] at hc
      exact h.closed a c ha hc r hr
    · have := cell_lt hc
      rw [new_length] at this
      have : a = m.length := by omega
      subst this
      rw [new_new] at hc
      cases hc
      exact ho r hr
  · intro g hg r hr
    by_cases hl : l.obj < m.length
    · rw [read_congr (new_old hl)] at hg
      exact h.roots g hg r hr
    · have := read_lt hg
      rw [new_length] at this
      have he : l.obj = m.length := by omega
      obtain ⟨x, h1, h2⟩ := read_eq_some.1 hg
      rw [he, new_new] at h1
      cases h1
      exact ho r (refs_at h2 hr)

theorem Inv.set (h : Inv X l m) {o : Nat} (ho : X o) {c : Cell} (hc : ∀ r ∈ refsOf c, X r) : Conf X l m (m.set o c) := by
  have hs : ∀ a, ¬ X a → (m.set o c)[a]? = m[a]? := fun a ha => List.getElem?_set_ne fun e : o = a => ha (e ▸ ho)
  have hcl : ∀ a c', X a → (m.set o c)[a]? = some c' → ∀ r ∈ refsOf c', X r := by
    intro a c' ha hc' r hr
    by_cases he : a = o
    · subst he
      have := cell_lt hc'
      rw [List.length_set] at this
      rw [List.getElem?_set_self this] at hc'
      cases hc'
      exact hc r hr
    · rw [List.getElem?_set_ne (Ne.symm he)] at hc'
      exact h.closed a c' ha hc' r hr
  refine ⟨⟨fun a ha => h.new a (by rwa [List.length_set] at ha), hcl, ?_⟩, by rw [List.length_set]; exact Nat.le_refl _, fun a ha _ => hs a ha, fun ha => .inl (hs _ ha)⟩
  intro g hg r hr
  by_cases hx : X l.obj
  · obtain ⟨x, h2, h3⟩ := read_eq_some.1 hg
    exact hcl _ _ hx h2 r (refs_at h3 hr)
  · rw [read_congr (hs _ hx)] at hg
    exact h.roots g hg r hr

theorem Inv.leads (h : Inv X l m) {g : HV} (hg : ∀ r ∈ refs g, X r) {a : Nat} (ha : LeadsTo m g a) : X a := by
  induction ha with
  | here ha => exact hg _ ha
  | step _ hc ha ih => exact h.closed _ _ ih hc _ ha

theorem conf_onOk {α β : Type} {r : Res α} {k : α → Mem × Res β} (h1 : Conf X l m m1) (hk : ∀ a, r = .ok a → Conf X l m (k a).1) :
    Conf X l m (onOkM m1 r k).1 := by
  cases r with
  | ok a => exact hk a rfl
  | _ => exact h1

theorem conf_ite {β : Type} {c : Prop} [Decidable c] {x y : Mem × Res β} (hx : c → Conf X l m x.1) (hy : ¬ c → Conf X l m y.1) :
    Conf X l m (if c then x else y).1 := by
  split
  · exact hx ‹_›
  · exact hy ‹_›

/-- A decoder on a new variable. -/
theorem Inv.fresh (h : Inv X l m) {d : Loc → Mem → DM} (hd : ConfD X d) {z : HV} (hz : refs z = []) :
    Conf X l m (d ⟨m.length, []⟩ (m.new (.var z))).1 ∧ X m.length := by
  have hx : X m.length := h.new _ (Nat.le_refl _)
  have h1 := h.alloc (o := .var z) (by simp [refsOf, hz])
  refine ⟨h1.trans fun h2 => ?_, hx⟩
  exact Conf.inside h2 (l' := ⟨m.length, []⟩) hx (hd _ _ (h2.at hx))

end Steps

/-! ### Decoders -/

section Decoders
variable {X : Nat → Prop} {b : Bytes}

theorem scalarAt_conf {dec : Val → DR} : ConfD X (scalarAt dec) := by
  intro l m h
  unfold scalarAt
  split
  · exact h.conf
  · exact h.write (by simp [refs_flat])

theorem ptrAt_conf {inner : Nat → Nat → Loc → Mem → DM} (hi : ∀ c d, ConfD X (inner c d)) {z : HV} (hz : refs z = []) {c depth : Nat} :
    ConfD X (ptrAt inner z b c depth) := by
  intro l m h
  unfold ptrAt
  refine conf_onOk h.conf fun _ _ => conf_ite (fun _ => conf_onOk h.conf fun _ _ => h.write (by simp [refs])) fun _ => ?_
  have hx : X m.length := h.new _ (Nat.le_refl _)
  split
  · refine (h.alloc (o := .var z) (by simp [refsOf, hz])).trans fun h1 => ?_
    refine (h1.write (x := .ptr m.length []) (by simpa [refs] using hx)).trans fun h2 => ?_
    exact Conf.inside h2 (l' := ⟨m.length, []⟩) hx (hi _ _ _ _ (h2.at hx))
  · rename_i o p hr
    have ho : X o := h.roots _ hr o (by simp [refs])
    exact Conf.inside h (l' := ⟨o, p⟩) ho (hi _ _ _ _ (h.at ho))
  · exact h.conf

theorem refsAll_replicate {z : HV} (hz : refs z = []) {n : Nat} : refsAll (List.replicate n z) = [] := by
  induction n with
  | zero => rfl
  | succ n ih => simp only [List.replicate_succ, refsAll, hz, ih, List.append_nil]

theorem refsAll_append {es fs : List HV} : refsAll (es ++ fs) = refsAll es ++ refsAll fs := by
  induction es with
  | nil => rfl
  | cons e es ih => simp only [List.cons_append, refsAll, ih, List.append_assoc]

theorem sliceLoopAt_conf {dec : Nat → Loc → Mem → DM} (hd : ∀ c, ConfD X (dec c)) {z : HV} (hz : refs z = []) {es f c o : Nat}
    {l : Loc} {m : Mem} (h : Inv X l m) (ho : X o) : Conf X l m (sliceLoopAt dec z es b f c o l m).1 := by
  induction f generalizing c o m with
  | zero => exact h.conf
  | succ f ih =>
    unfold sliceLoopAt
    refine conf_ite (fun _ => h.conf) fun _ => conf_onOk h.conf ?_
    rintro ⟨i, c1⟩ -
    refine conf_ite (fun _ => h.conf) fun _ => ?_
    split
    · rename_i hs hr
      refine conf_ite (fun _ => h.conf) fun _ => ?_
      have hx : X m.length := h.new _ (Nat.le_refl _)
      have ho' : X (if decide (i ≥ hs.length) = true then m.length else o) := by
        split
        · exact hx
        · exact ho
      have h1 : Conf X l m (if decide (i ≥ hs.length) = true then m.new (.var (.arr (hs ++ List.replicate (i + 1 - hs.length) z))) else m) := by
        split
        · refine h.alloc fun r hr' => ?_
          simp only [refsOf, refs, refsAll_append, refsAll_replicate hz, List.append_nil] at hr'
          exact h.closed _ _ ho (read_var.1 hr) r hr'
        · exact h.conf
      dsimp only
      revert h1 ho'
      generalize (if decide (i ≥ hs.length) = true then m.new (.var (.arr (hs ++ List.replicate (i + 1 - hs.length) z))) else m) = m1
      generalize (if decide (i ≥ hs.length) = true then m.length else o) = o'
      generalize (if decide (i ≥ hs.length) = true then i + 1 else hs.length) = n
      intro ho' h1
      have h2 : Conf X l m (dec c1 ⟨o', [i]⟩ m1).1 := h1.trans fun h3 => Conf.inside h3 (l' := ⟨o', [i]⟩) ho' (hd _ _ _ (h3.at ho'))
      revert h2
      generalize dec c1 ⟨o', [i]⟩ m1 = x
      obtain ⟨m2, r⟩ := x
      intro h2
      refine conf_onOk h2 fun c2 _ => ?_
      have h3 : Conf X l m (m2.write l (.slice o' 0 n)) := h2.trans fun h => h.write (by simpa [refs] using ho')
      exact conf_ite (fun _ => h3) fun _ => conf_onOk h3 fun _ _ => conf_ite (fun _ => h3) fun _ => h3.trans fun h4 => ih h4 ho'
    · exact h.conf

theorem sliceAt_conf {dec : Nat → Nat → Loc → Mem → DM} (hd : ∀ c d, ConfD X (dec c d)) {z : HV} (hz : refs z = []) {es c depth : Nat} :
    ConfD X (sliceAt dec z es b c depth) := by
  intro l m h
  unfold sliceAt
  have hnil : Conf X l m (m.write l .sliceNil) := h.write (by simp [refs])
  refine conf_ite (fun _ => h.conf) fun _ => conf_ite (fun _ => h.conf) fun _ => conf_onOk h.conf fun _ _ => ?_
  refine conf_ite (fun _ => conf_onOk h.conf fun _ _ => hnil) fun _ => conf_ite (fun _ => ?_) fun _ => conf_ite (fun _ => h.conf) fun _ => h.conf
  refine conf_ite (fun _ => h.conf) fun _ => conf_onOk h.conf fun _ _ => conf_ite (fun _ => h.conf) fun _ => conf_ite (fun _ => h.conf) fun _ => ?_
  refine conf_onOk h.conf fun _ _ => conf_ite (fun _ => conf_onOk h.conf fun _ _ => hnil) fun _ => conf_onOk h.conf ?_
  rintro ⟨n, c1⟩ -
  refine conf_ite (fun _ => h.conf) fun _ => conf_onOk h.conf fun _ _ => conf_ite (fun _ => h.conf) fun _ => conf_ite (fun _ => h.conf) fun _ => ?_
  exact (h.alloc (o := .var (.arr [])) (by simp [refsOf, refs, refsAll])).trans fun h1 =>
    sliceLoopAt_conf (fun c => hd c _) hz h1 (h.new _ (Nat.le_refl _))

theorem bytesAt_conf {inp : Nat} (hi : X inp) {dec : Nat → Nat → Loc → Mem → DM} (hd : ∀ c d, ConfD X (dec c d)) {z : HV}
    (hz : refs z = []) {c depth : Nat} : ConfD X (bytesAt inp dec z b c depth) := by
  intro l m h
  unfold bytesAt
  refine conf_onOk h.conf fun _ _ => conf_ite (fun _ => sliceAt_conf hd hz _ _ h) fun _ => conf_onOk h.conf ?_
  rintro ⟨ob, c1⟩ -
  cases ob with
  | none => exact h.conf
  | some s => exact h.write (by simpa [refs] using hi)

theorem arrayLoopAt_conf {dec : Nat → Loc → Mem → DM} (hd : ∀ c, ConfD X (dec c)) {skip : Nat → Res Nat} {n f c : Nat} :
    ConfD X (arrayLoopAt dec skip n b f c) := by
  intro l m h
  induction f generalizing c m with
  | zero => exact h.conf
  | succ f ih =>
    unfold arrayLoopAt
    refine conf_ite (fun _ => h.conf) fun _ => conf_onOk h.conf ?_
    rintro ⟨i, c1⟩ -
    refine conf_ite (fun _ => h.conf) fun _ => ?_
    have h1 : Conf X l m (if i < n then dec c1 (l.sub i) m else (m, skip c1)).1 :=
      conf_ite (fun _ => Conf.part h (hd _ _ _ h.sub)) fun _ => h.conf
    revert h1
    generalize (if i < n then dec c1 (l.sub i) m else (m, skip c1)) = x
    obtain ⟨m1, r⟩ := x
    intro h1
    exact conf_onOk h1 fun _ _ => conf_ite (fun _ => h1) fun _ => conf_onOk h1 fun _ _ => conf_ite (fun _ => h1) fun _ => h1.trans fun h2 => ih _ h2

theorem arrayAt_conf {dec : Nat → Nat → Loc → Mem → DM} (hd : ∀ c d, ConfD X (dec c d)) {z : HV} (hz : refs z = []) {n c depth : Nat} :
    ConfD X (arrayAt dec z n b c depth) := by
  intro l m h
  unfold arrayAt
  refine conf_ite (fun _ => h.conf) fun _ => conf_ite (fun _ => h.conf) fun _ => conf_onOk h.conf fun _ _ => ?_
  refine conf_ite (fun _ => conf_onOk h.conf fun _ _ => h.conf) fun _ => conf_ite (fun _ => ?_) fun _ => h.conf
  refine conf_ite (fun _ => h.conf) fun _ => conf_onOk h.conf fun _ _ => conf_ite (fun _ => h.conf) fun _ => ?_
  have h1 : Conf X l m (m.write l (.arr (List.replicate n z))) := h.write (by simp [refs, refsAll_replicate hz])
  refine conf_ite (fun _ => h1) fun _ => ?_
  refine conf_onOk h1 fun _ _ => conf_ite (fun _ => conf_onOk h1 fun _ _ => h1) fun _ => conf_onOk h1 ?_
  rintro ⟨_, c1⟩ -
  refine conf_ite (fun _ => h1) fun _ => conf_onOk h1 fun _ _ => conf_ite (fun _ => h1) fun _ => ?_
  exact h1.trans fun h2 => arrayLoopAt_conf (fun c => hd c _) _ _ h2

theorem mapLoopAt_conf {kd vd : Nat → Loc → Mem → DM} (hk : ∀ c, ConfD X (kd c)) (hv : ∀ c, ConfD X (vd c)) {zk zv : HV} (hzk : refs zk = [])
    (hzv : refs zv = []) {f c : Nat} : ConfD X (mapLoopAt kd vd zk zv b f c) := by
  intro l m h
  induction f generalizing c m with
  | zero => exact h.conf
  | succ f ih =>
    unfold mapLoopAt
    refine conf_ite (fun _ => h.conf) fun _ => ?_
    obtain ⟨h1, hx1⟩ := h.fresh (hk c) hzk
    dsimp only
    revert h1
    generalize kd c ⟨m.length, []⟩ (m.new (.var zk)) = x
    obtain ⟨m1, r1⟩ := x
    intro h1
    refine conf_onOk h1 fun c1 _ => conf_ite (fun _ => h1) fun _ => ?_
    obtain ⟨h2, hx2⟩ := Inv.fresh h1.1 (hv c1) hzv
    replace h2 := h1.trans fun _ => h2
    revert h2
    generalize vd c1 ⟨m1.length, []⟩ (m1.new (.var zv)) = x
    obtain ⟨m2, r2⟩ := x
    intro h2
    refine conf_onOk h2 fun c2 _ => ?_
    split
    · rename_i k v o hk' hv' hl'
      refine conf_ite (fun _ => h2) fun _ => ?_
      split
      · rename_i es he
        have ho : X o := h2.1.roots _ hl' o (by simp [refs])
        have h3 : Conf X l m (m2.set o (.map (hvInsert k v es))) := by
          refine h2.trans fun h2 => h2.set ho fun r hr => ?_
          rcases mem_refs_insert hr with hr | hr | hr
          · exact h2.closed _ _ ho he r hr
          · exact (h2.at hx1).roots k hk' r hr
          · exact (h2.at hx2).roots v hv' r hr
        exact conf_ite (fun _ => h3) fun _ => conf_onOk h3 fun _ _ => conf_ite (fun _ => h3) fun _ => h3.trans fun h4 => ih _ h4
      · exact h2
    · exact h2

theorem mapAt_conf {kd vd : Nat → Nat → Loc → Mem → DM} (hk : ∀ c d, ConfD X (kd c d)) (hv : ∀ c d, ConfD X (vd c d)) {zk zv : HV}
    (hzk : refs zk = []) (hzv : refs zv = []) {c depth : Nat} : ConfD X (mapAt kd vd zk zv b c depth) := by
  intro l m h
  unfold mapAt
  refine conf_ite (fun _ => h.conf) fun _ => conf_ite (fun _ => h.conf) fun _ => conf_onOk h.conf fun _ _ => ?_
  refine conf_ite (fun _ => conf_onOk h.conf fun _ _ => h.write (by simp [refs])) fun _ => conf_onOk h.conf fun _ _ => conf_onOk h.conf ?_
  rintro ⟨_, c1⟩ -
  refine conf_ite (fun _ => h.conf) fun _ => conf_onOk h.conf fun _ _ => conf_ite (fun _ => h.conf) fun _ => ?_
  split
  · exact h.conf
  · rename_i m1 hm
    have h1 : Conf X l m m1 := by
      split at hm
      · cases hm
        refine (h.alloc (o := .map []) (by simp [refsOf])).trans fun h1 => h1.write ?_
        simpa [refs] using h.new _ (Nat.le_refl _)
      · cases hm
        exact h.conf
      · cases hm
    refine conf_ite (fun _ => h1) fun _ => conf_onOk h1 fun _ _ => conf_ite (fun _ => h1) fun _ => ?_
    exact h1.trans fun h2 => mapLoopAt_conf (fun c => hk c _) (fun c => hv c _) hzk hzv _ _ h2

theorem viaLocal_conf {t : Ty} {d : Loc → Mem → DM} (hd : ConfD X d) {z : HV} (hz : refs z = []) : ConfD X (viaLocal t z d) := by
  intro l m h
  unfold viaLocal
  obtain ⟨h1, hx⟩ := h.fresh hd hz
  dsimp only
  revert h1
  generalize d ⟨m.length, []⟩ (m.new (.var z)) = x
  obtain ⟨m1, r⟩ := x
  intro h1
  refine conf_onOk h1 fun c _ => ?_
  split
  · rename_i v hv
    exact h1.trans fun h2 => h2.write ((h2.at hx).roots v hv)
  · exact h1

theorem anyKeyAt_conf {c : Nat} : ConfD X (anyKeyAt b c) := by
  intro l m h
  unfold anyKeyAt
  refine conf_onOk h.conf fun _ _ => conf_ite (fun _ => ?_) fun _ => conf_ite (fun _ => ?_) fun _ => h.conf
  · exact viaLocal_conf scalarAt_conf rfl _ _ h
  · exact viaLocal_conf scalarAt_conf rfl _ _ h

theorem anyAt_conf {W : World} {ad : Nat → Nat → Loc → Mem → DM} (ha : ∀ c d, ConfD X (ad c d)) {c depth : Nat} : ConfD X (anyAt W ad b c depth) := by
  intro l m h
  unfold anyAt
  refine conf_onOk h.conf fun _ _ => ?_
  refine conf_ite (fun _ => ?_) fun _ => conf_ite (fun _ => ?_) fun _ => conf_ite (fun _ => ?_) fun _ => conf_ite (fun _ => ?_) fun _ =>
    conf_ite (fun _ => ?_) fun _ => conf_ite (fun _ => ?_) fun _ => conf_ite (fun _ => ?_) fun _ => h.conf
  · exact viaLocal_conf (mapAt_conf (fun _ _ => scalarAt_conf) ha rfl rfl) rfl _ _ h
  · exact viaLocal_conf (mapAt_conf (fun _ _ => anyKeyAt_conf) ha rfl rfl) rfl _ _ h
  · exact viaLocal_conf scalarAt_conf rfl _ _ h
  · exact conf_onOk h.conf fun _ _ => h.write (by simp [refs])
  · exact viaLocal_conf scalarAt_conf rfl _ _ h
  · exact conf_onOk h.conf fun _ _ => h.write (by simp [refs])
  · exact conf_onOk h.conf fun _ _ => h.write (by simp [refs])

/-- What a method may do keeps `X` closed. -/
theorem Inv.called {l : Loc} {m m1 : Mem} (h : Inv X l m) {R : Nat → Prop} (hR : ∀ a, R a → X a) (hg : m.length ≤ m1.length)
    (hs : ∀ a, a < m.length → ¬ R a → m1[a]? = m[a]?) (hr : ∀ a c, (R a ∨ m.length ≤ a) → m1[a]? = some c → ∀ r ∈ refsOf c, R r ∨ m.length ≤ r) :
    Conf X l m m1 := by
  have hX : ∀ a, R a ∨ m.length ≤ a → X a := fun a ha => ha.elim (hR a) (h.new a)
  have hs' : ∀ a, ¬ X a → m1[a]? = m[a]? := fun a ha => hs a (Nat.lt_of_not_le fun e => ha (h.new a e)) fun e => ha (hR a e)
  have hcl : ∀ a c, X a → m1[a]? = some c → ∀ r ∈ refsOf c, X r := by
    intro a c ha hc r hr'
    by_cases hR' : R a ∨ m.length ≤ a
    · exact hX _ (hr a c hR' hc r hr')
    · rw [hs a (by omega) fun e => hR' (.inl e)] at hc
      exact h.closed a c ha hc r hr'
  refine ⟨⟨fun a ha => h.new a (by omega), hcl, ?_⟩, hg, fun a ha _ => hs' a ha, fun ha => .inl (hs' _ ha)⟩
  intro g hg' r hr'
  by_cases hx : X l.obj
  · obtain ⟨x, h2, h3⟩ := read_eq_some.1 hg'
    exact hcl _ _ hx h2 r (refs_at h3 hr')
  · rw [read_congr (hs' _ hx)] at hg'
    exact h.roots g hg' r hr'

theorem dynAt_conf {W : World} {U : Methods} (hU : Confined U) {t : Ty} {g : HV} {c depth : Nat} {l : Loc} {m : Mem} (h : Inv X l m)
    (hg : m.read l = some (.iface t g)) : Conf X l m (dynAt W U t g b c depth l m).1 := by
  rw [dynAt_eq]
  refine conf_onOk h.conf fun e _ => conf_onOk h.conf fun src _ => conf_ite (fun _ => h.write (by simp [refs])) fun _ => ?_
  suffices hs : ∀ src, Conf X l m (match U.held t g src m with | (m, r) => onOkM m r fun _ => ((m, .ok e) : DM)).1 from hs _
  intro src
  obtain ⟨h1, h2, h3⟩ := hU.held t g src m
  revert h1 h2 h3
  generalize U.held t g src m = x
  obtain ⟨m1, r⟩ := x
  intro h1 h2 h3
  have h4 : Conf X l m m1 := h.called (fun a ha => h.leads (g := g) (fun r hr => h.roots _ hg r hr) ha) h1 h2 h3
  exact conf_onOk h4 fun _ _ => h4

theorem ifaceAt_conf {W : World} {U : Methods} (hU : Confined U) {c depth : Nat} : ConfD X (ifaceAt W U b c depth) := by
  intro l m h
  unfold ifaceAt
  split
  · rename_i t v hm
    split at hm
    · rename_i hr
      split at hm
      · cases hm
        exact dynAt_conf hU h hr
      · cases hm
    · cases hm
  · exact conf_onOk h.conf fun _ _ => conf_ite (fun _ => conf_onOk h.conf fun _ _ => h.write (by simp [refs])) fun _ => h.conf

theorem unmarshalerAt_conf {W : World} {U : Methods} (hU : Confined U) {id c depth : Nat} : ConfD X (unmarshalerAt W U id b c depth) := by
  intro l m h
  rw [unmarshalerAt_eq]
  refine conf_onOk h.conf fun e _ => conf_onOk h.conf fun src _ => conf_ite (fun _ => h.conf) fun _ => conf_ite (fun _ => h.conf) fun _ =>
    conf_ite (fun _ => h.conf) fun _ => conf_ite (fun _ => h.write (by simp [refs_flat])) fun _ => ?_
  suffices hs : ∀ src, Conf X l m (match U.fresh id src m with | (m, r) => onOkM m (r.mapErr (annotate c)) fun v => ((m.write l v, .ok e) : DM)).1 from hs _
  intro src
  obtain ⟨h1, h2, h3, h4⟩ := hU.fresh id src m
  revert h1 h2 h3 h4
  generalize U.fresh id src m = x
  obtain ⟨m1, r⟩ := x
  intro h1 h2 h3 h4
  have h5 : Conf X l m m1 := h.called (R := fun _ => False) (fun _ => False.elim) h1 (fun a ha _ => h2 a ha) fun a c ha hc r hr => .inr (h3 a c (ha.elim False.elim fun e => e) hc r hr)
  refine conf_onOk h5 fun v hv => h5.trans fun h6 => h6.write fun r' hr => h.new _ ?_
  cases r with
  | ok v' =>
    simp only [Res.mapErr, Res.ok.injEq] at hv
    subst hv
    exact h4 _ rfl r' hr
  | _ => cases hv

theorem structLoopAt_conf {sets : List FieldSet} {dec : FieldSet → Nat → Loc → Mem → DM} (hd : ∀ s c, ConfD X (dec s c)) {skip : Nat → Res Nat}
    {f c : Nat} : ConfD X (structLoopAt sets dec skip b f c) := by
  intro l m h
  induction f generalizing c m with
  | zero => exact h.conf
  | succ f ih =>
    unfold structLoopAt
    refine conf_ite (fun _ => h.conf) fun _ => conf_onOk h.conf ?_
    rintro ⟨fld, c1⟩ -
    refine conf_ite (fun _ => h.conf) fun _ => ?_
    dsimp only
    have fin : ∀ {x : DM}, Conf X l m x.1 → Conf X l m (match x with
        | (m, r) => onOkM m r fun c =>
          if !hasByte b c then (m, .err (.unexpectedEnd "object" c)) else
          onOkM m (idx b c) fun b' => if b' = cRBrace then (m, .ok (c + 1)) else structLoopAt sets dec skip b f c l m).1 := by
      rintro ⟨m1, r⟩ h1
      exact conf_onOk h1 fun _ _ => conf_ite (fun _ => h1) fun _ => conf_onOk h1 fun _ _ => conf_ite (fun _ => h1) fun _ => h1.trans fun h2 => ih _ h2
    refine fin ?_
    cases fld with
    | none => exact h.conf
    | some s =>
      dsimp only
      split
      · exact Conf.part h (hd _ _ _ _ h.sub)
      · exact h.conf

theorem structAt_conf {sets : List FieldSet} {dec : FieldSet → Nat → Nat → Loc → Mem → DM} (hd : ∀ s c d, ConfD X (dec s c d)) {c depth : Nat} :
    ConfD X (structAt sets dec b c depth) := by
  intro l m h
  unfold structAt
  refine conf_ite (fun _ => h.conf) fun _ => conf_ite (fun _ => h.conf) fun _ => conf_onOk h.conf fun _ _ => ?_
  refine conf_ite (fun _ => conf_onOk h.conf fun _ _ => h.conf) fun _ => conf_onOk h.conf fun _ _ => ?_
  refine conf_ite (fun _ => h.conf) fun _ => conf_onOk h.conf fun _ _ => conf_ite (fun _ => h.conf) fun _ => conf_onOk h.conf fun _ _ => ?_
  refine conf_ite (fun _ => h.conf) fun _ => conf_onOk h.conf fun _ _ => conf_ite (fun _ => h.conf) fun _ => ?_
  refine conf_ite (fun _ => h.conf) fun _ => conf_onOk h.conf fun _ _ => conf_ite (fun _ => h.conf) fun _ => ?_
  split
  · exact structLoopAt_conf (fun s c => hd s c _) _ _ h
  · exact h.conf

theorem ptrKeyAt_conf {l : Loc} {m : Mem} (h : Inv X l m) {scratch : DM} (hs : Conf X l m scratch.1) {c : Nat} : Conf X l m (ptrKeyAt scratch b c m).1 := by
  unfold ptrKeyAt
  exact conf_onOk h.conf fun _ _ => conf_ite (fun _ => conf_onOk h.conf fun _ _ => h.conf) fun _ => conf_onOk hs fun _ _ => hs

theorem mapKeyAt_conf {W : World} {U : Methods} (hU : Confined U) {ad : Nat → Nat → Loc → Mem → DM} (ha : ∀ c d, ConfD X (ad c d)) {k : Ty}
    {c depth : Nat} : ConfD X (mapKeyAt W U ad b k c depth) := by
  intro l m h
  unfold mapKeyAt
  cases W.unmOf k with
  | some id => exact unmarshalerAt_conf hU _ _ h
  | none =>
    cases W.resolve k with
    | str => exact scalarAt_conf _ _ h
    | bool => exact scalarAt_conf _ _ h
    | int kd => exact scalarAt_conf _ _ h
    | uint kd => exact scalarAt_conf _ _ h
    | any => exact anyAt_conf ha _ _ h
    | iface i => exact ifaceAt_conf hU _ _ h
    | ptr e =>
      dsimp only
      cases W.unmOf e with
      | some id => exact h.conf
      | none =>
        dsimp only
        cases W.resolve e with
        | str => exact ptrKeyAt_conf h h.conf
        | bool => exact ptrKeyAt_conf h h.conf
        | int _ => exact ptrKeyAt_conf h h.conf
        | uint _ => exact ptrKeyAt_conf h h.conf
        | any => exact ptrKeyAt_conf h (h.fresh (anyAt_conf ha) rfl).1
        | iface _ => exact ptrKeyAt_conf h (h.fresh (anyAt_conf ha) rfl).1
        | _ => exact h.conf
    | _ => exact h.conf

theorem fieldAt_conf {W : World} {rec : Ty → Nat → Nat → Loc → Mem → DM} (hrec : ∀ t c d, ConfD X (rec t c d)) {s : FieldSet} {c depth : Nat} :
    ConfD X (fieldAt W rec b s c depth) := by
  intro l m h
  unfold fieldAt
  refine conf_ite (fun _ => ?_) fun _ => hrec _ _ _ _ _ h
  cases W.resolve s.ty with
  | ptr e => exact conf_ite (fun _ => ptrAt_conf (fun _ _ => scalarAt_conf) refs_flat _ _ h) fun _ => h.conf
  | _ => exact conf_ite (fun _ => scalarAt_conf _ _ h) fun _ => h.conf

theorem nonPtrAt_conf {W : World} {U : Methods} (hU : Confined U) {inp : Nat} (hi : X inp) {rec : Ty → Nat → Nat → Loc → Mem → DM}
    (hrec : ∀ t c d, ConfD X (rec t c d)) {t : Ty} {c depth : Nat} : ConfD X (nonPtrAt W U inp rec b t c depth) := by
  intro l m h
  unfold nonPtrAt
  cases W.unmOf t with
  | some id => exact unmarshalerAt_conf hU _ _ h
  | none =>
    cases W.resolve t with
    | bool => exact scalarAt_conf _ _ h
    | int k => exact scalarAt_conf _ _ h
    | uint k => exact scalarAt_conf _ _ h
    | f32 => exact scalarAt_conf _ _ h
    | f64 => exact scalarAt_conf _ _ h
    | str => exact scalarAt_conf _ _ h
    | slice e =>
      refine conf_ite (fun _ => ?_) fun _ => ?_
      · exact bytesAt_conf hi (hrec e) refs_flat _ _ h
      · exact sliceAt_conf (hrec e) refs_flat _ _ h
    | array n e => exact arrayAt_conf (hrec e) refs_flat _ _ h
    | map k e => exact mapAt_conf (fun c d => mapKeyAt_conf hU (hrec .any)) (hrec e) refs_flat refs_flat _ _ h
    | struct id => exact structAt_conf (fun s c d => fieldAt_conf hrec) _ _ h
    | any => exact anyAt_conf (hrec .any) _ _ h
    | iface i => exact ifaceAt_conf hU _ _ h
    | other => exact h.conf
    | ptr e => exact h.conf
    | named i => exact h.conf

theorem decodeMem_conf {W : World} {U : Methods} (hU : Confined U) {inp : Nat} (hi : X inp) {f : Nat} {t : Ty} {c depth : Nat} :
    ConfD X (decodeMem W U inp b f t c depth) := by
  induction f generalizing t c depth with
  | zero => exact fun _ _ h => h.conf
  | succ f ih =>
    have hnp : ∀ {t c depth}, ConfD X (nonPtrAt W U inp (decodeMem W U inp b f) b t c depth) := nonPtrAt_conf hU hi fun t c d => ih
    intro l m h
    unfold decodeMem
    cases W.unmOf t with
    | some id => exact hnp _ _ h
    | none =>
      cases W.resolve t with
      | ptr e => exact conf_ite (fun _ => h.conf) fun _ => ptrAt_conf (fun c d => hnp) refs_flat _ _ h
      | _ => exact hnp _ _ h

theorem unmarshalMem_conf {W : World} {U : Methods} (hU : Confined U) {fuel : Nat} {data : Bytes} {t : Ty} {l : Loc} {m : Mem} (h : Inv X l m) :
    Conf X l m (unmarshalMem W U fuel data t l m).1 := by
  unfold unmarshalMem
  refine conf_ite (fun _ => h.conf) fun _ => conf_onOk h.conf fun _ _ => ?_
  have hb : ∀ data : Bytes, refsAll (data.map fun c => HV.uint c.toNat) = [] := by
    intro data
    induction data with
    | nil => rfl
    | cons a as ih => simp only [List.map_cons, refsAll, refs, ih, List.append_nil]
  have h1 := (h.alloc (o := .var (.arr (data.map fun c => .uint c.toNat))) (by simp [refsOf, refs, hb])).trans fun h1 =>
    decodeMem_conf (b := data) (W := W) hU (h.new _ (Nat.le_refl _)) (f := data.length + 1) (t := t) (c := 0) (depth := 0) l _ h1
  revert h1
  generalize decodeMem W U m.length data (data.length + 1) t 0 0 l _ = x
  obtain ⟨m1, r⟩ := x
  intro h1
  exact conf_onOk h1 fun _ _ => h1

end Decoders

end Verif

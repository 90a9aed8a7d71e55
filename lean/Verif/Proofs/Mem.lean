import Verif.Spec.Mem
import Verif.Proofs.DecSafe
import Verif.Proofs.DecScalar
/-
Lemmas about memory: paths, `Owns`, `Holds` and `OnlyAt`.
-/
set_option linter.unusedSimpArgs false
namespace Verif
open Spec

/-! ### Paths -/

theorem HV.at_append : ∀ {p q : List Nat} {h : HV}, h.at (p ++ q) = (match h.at p with | some g => g.at q | none => none)
  | [], q, h => by cases h <;> simp [HV.at]
  | i :: p, q, h => by
    cases h with
    | arr es => simp only [List.cons_append, HV.at]; cases es[i]? with
      | none => rfl
      | some e => exact HV.at_append
    | struct es => simp only [List.cons_append, HV.at]; cases es[i]? with
      | none => rfl
      | some e => exact HV.at_append
    | _ => rfl

theorem HV.at_put : ∀ {p : List Nat} {h g x : HV}, h.at p = some g → (h.put p x).at p = some x
  | [], h, g, x, _ => by cases h <;> simp [HV.put, HV.at]
  | i :: p, h, g, x, hg => by
    cases h with
    | arr es =>
      simp only [HV.at] at hg
      cases he : es[i]? with
      | none => rw [he] at hg; cases hg
      | some e =>
        rw [he] at hg
        have hi := (List.getElem?_eq_some_iff.1 he).1
        simp only [HV.put, he, HV.at, List.getElem?_set_self hi]
        exact HV.at_put hg
    | struct es =>
      simp only [HV.at] at hg
      cases he : es[i]? with
      | none => rw [he] at hg; cases hg
      | some e =>
        rw [he] at hg
        have hi := (List.getElem?_eq_some_iff.1 he).1
        simp only [HV.put, he, HV.at, List.getElem?_set_self hi]
        exact HV.at_put hg
    | _ => cases hg

theorem HV.put_put : ∀ {p : List Nat} {h x y : HV}, (h.put p x).put p y = h.put p y
  | [], h, x, y => by cases h <;> cases x <;> simp [HV.put]
  | i :: p, h, x, y => by
    cases h with
    | arr es =>
      simp only [HV.put]
      cases he : es[i]? with
      | none => simp only [HV.put, he]
      | some e =>
        have hi := (List.getElem?_eq_some_iff.1 he).1
        simp only [HV.put, List.getElem?_set_self hi, List.set_set, HV.put_put]
    | struct es =>
      simp only [HV.put]
      cases he : es[i]? with
      | none => simp only [HV.put, he]
      | some e =>
        have hi := (List.getElem?_eq_some_iff.1 he).1
        simp only [HV.put, List.getElem?_set_self hi, List.set_set, HV.put_put]
    | _ => rfl

theorem HV.put_self : ∀ {p : List Nat} {h g : HV}, h.at p = some g → h.put p g = h
  | [], h, g, hg => by cases h <;> (simp only [HV.at, Option.some.injEq] at hg; subst hg; simp [HV.put])
  | i :: p, h, g, hg => by
    cases h with
    | arr es =>
      simp only [HV.at] at hg
      cases he : es[i]? with
      | none => rw [he] at hg; cases hg
      | some e =>
        rw [he] at hg
        simp only [HV.put, he, HV.put_self hg]
        obtain ⟨hi, rfl⟩ := List.getElem?_eq_some_iff.1 he
        rw [List.set_getElem_self]
    | struct es =>
      simp only [HV.at] at hg
      cases he : es[i]? with
      | none => rw [he] at hg; cases hg
      | some e =>
        rw [he] at hg
        simp only [HV.put, he, HV.put_self hg]
        obtain ⟨hi, rfl⟩ := List.getElem?_eq_some_iff.1 he
        rw [List.set_getElem_self]
    | _ => cases hg

theorem HV.put_append : ∀ {p q : List Nat} {h g x : HV}, h.at p = some g → h.put (p ++ q) x = h.put p (g.put q x)
  | [], q, h, g, x, hg => by
    have : h = g := by cases h <;> simpa [HV.at] using hg
    subst this
    cases h <;> simp [HV.put]
  | i :: p, q, h, g, x, hg => by
    cases h with
    | arr es =>
      simp only [HV.at] at hg
      simp only [List.cons_append, HV.put]
      cases he : es[i]? with
      | none => rfl
      | some e => rw [he] at hg; simp only [HV.put_append hg]
    | struct es =>
      simp only [HV.at] at hg
      simp only [List.cons_append, HV.put]
      cases he : es[i]? with
      | none => rfl
      | some e => rw [he] at hg; simp only [HV.put_append hg]
    | _ => cases hg

theorem HV.at_nil {h : HV} : h.at [] = some h := by cases h <;> rfl

theorem HV.put_nil {h x : HV} : h.put [] x = x := by cases h <;> rfl

/-! ### Reading and writing -/

theorem read_eq_some {m : Mem} {l : Loc} {h : HV} : m.read l = some h ↔ ∃ x, m[l.obj]? = some (.var x) ∧ x.at l.path = some h := by
  unfold Mem.read
  constructor
  · intro hh
    split at hh
    · exact ⟨_, ‹_›, hh⟩
    · cases hh
  · rintro ⟨x, h1, h2⟩
    rw [h1]
    exact h2

theorem read_lt {m : Mem} {l : Loc} {h : HV} (hr : m.read l = some h) : l.obj < m.length := by
  obtain ⟨x, hx, -⟩ := read_eq_some.1 hr
  exact (List.getElem?_eq_some_iff.1 hx).1

theorem read_var {m : Mem} {o : Nat} {h : HV} : m.read ⟨o, []⟩ = some h ↔ m[o]? = some (.var h) := by
  rw [read_eq_some]
  simp only [HV.at_nil]
  constructor
  · rintro ⟨x, h1, h2⟩; cases h2; exact h1
  · exact fun hh => ⟨h, hh, rfl⟩

theorem write_length {m : Mem} {l : Loc} {x : HV} : (m.write l x).length = m.length := by
  unfold Mem.write
  split
  · simp
  · rfl

theorem write_other {m : Mem} {l : Loc} {x : HV} {a : Nat} (h : a ≠ l.obj) : (m.write l x)[a]? = m[a]? := by
  unfold Mem.write
  split
  · rw [List.getElem?_set_ne (Ne.symm h)]
  · rfl

theorem write_at {m : Mem} {l : Loc} {x y : HV} (h : m[l.obj]? = some (.var y)) : (m.write l x)[l.obj]? = some (.var (y.put l.path x)) := by
  unfold Mem.write
  rw [h]
  dsimp only
  rw [List.getElem?_set_self (List.getElem?_eq_some_iff.1 h).1]

theorem read_write {m : Mem} {l : Loc} {x h : HV} (hr : m.read l = some h) : (m.write l x).read l = some x := by
  obtain ⟨y, hy, hp⟩ := read_eq_some.1 hr
  exact read_eq_some.2 ⟨_, write_at hy, HV.at_put hp⟩

theorem new_length {m : Mem} {o : Cell} : (m.new o).length = m.length + 1 := by simp [Mem.new]

theorem new_old {m : Mem} {o : Cell} {a : Nat} (h : a < m.length) : (m.new o)[a]? = m[a]? := by
  unfold Mem.new
  rw [List.getElem?_append_left h]

theorem new_new {m : Mem} {o : Cell} : (m.new o)[m.length]? = some o := by simp [Mem.new]

theorem read_congr {m m' : Mem} {l : Loc} (h : m'[l.obj]? = m[l.obj]?) : m'.read l = m.read l := by
  unfold Mem.read
  rw [h]

/-! ### Owns -/

section Owns
variable {m m' : Mem} {S S' : Nat → List HV → Prop}

mutual
theorem owns_frame (hS : ∀ a es, S a es → S' a es) : ∀ {h v fp}, Owns m S h v fp → (∀ a ∈ fp, m'[a]? = m[a]?) → Owns m' S' h v fp
  | _, _, _, .bool, _ => .bool
  | _, _, _, .int, _ => .int
  | _, _, _, .uint, _ => .uint
  | _, _, _, .f32, _ => .f32
  | _, _, _, .f64, _ => .f64
  | _, _, _, .str, _ => .str
  | _, _, _, .sliceNil, _ => .sliceNil
  | _, _, _, .slice h1 h2, hf => .slice ((hf _ (List.mem_cons_self)).trans h1) (ownsAll_frame hS h2 fun a ha => hf a (List.mem_cons_of_mem _ ha))
  | _, _, _,   .shared h0 h2 h3, _ => .shared (hS _ _ h0) h2 (ownsAll_frame hS h3 (by simp))
  | _, _, _, .arr h1, hf => .arr (ownsAll_frame hS h1 hf)
  | _, _, _, .mapNil, _ => .mapNil
  | _, _, _, .map h1 h2, hf => .map ((hf _ (List.mem_cons_self)).trans h1) (ownsEntries_frame hS h2 fun a ha => hf a (List.mem_cons_of_mem _ ha))
  | _, _, _, .ptrNil, _ => .ptrNil
  | _, _, _, .ptr h1 h2, hf => .ptr ((hf _ (List.mem_cons_self)).trans h1) (owns_frame hS h2 fun a ha => hf a (List.mem_cons_of_mem _ ha))
  | _, _, _, .struct h1, hf => .struct (ownsAll_frame hS h1 hf)
  | _, _, _, .ifaceNil, _ => .ifaceNil
  | _, _, _, .iface h1, hf => .iface (owns_frame hS h1 hf)
  | _, _, _, .other, _ => .other
theorem ownsAll_frame (hS : ∀ a es, S a es → S' a es) : ∀ {h v fp}, OwnsAll m S h v fp → (∀ a ∈ fp, m'[a]? = m[a]?) → OwnsAll m' S' h v fp
  | _, _, _, .nil, _ => .nil
  | _, _, _, .cons h1 h2, hf => .cons (owns_frame hS h1 fun a ha => hf a (List.mem_append_left _ ha))
      (ownsAll_frame hS h2 fun a ha => hf a (List.mem_append_right _ ha))
theorem ownsEntries_frame (hS : ∀ a es, S a es → S' a es) : ∀ {h v fp}, OwnsEntries m S h v fp → (∀ a ∈ fp, m'[a]? = m[a]?) →
    OwnsEntries m' S' h v fp
  | _, _, _, .nil, _ => .nil
  | _, _, _, .cons h1 h2 h3, hf => .cons (owns_frame hS h1 fun a ha => hf a (List.mem_append_left _ ha))
      (owns_frame hS h2 fun a ha => hf a (List.mem_append_right _ (List.mem_append_left _ ha)))
      (ownsEntries_frame hS h3 fun a ha => hf a (List.mem_append_right _ (List.mem_append_right _ ha)))
end

theorem cell_lt {o : Nat} {x : Cell} (h : m[o]? = some x) : o < m.length := (List.getElem?_eq_some_iff.1 h).1

mutual
theorem owns_lt : ∀ {h v fp}, Owns m S h v fp → ∀ a ∈ fp, a < m.length
  | _, _, _, .slice h1 h2, a, ha => (List.mem_cons.1 ha).elim (fun e => e ▸ cell_lt h1) (ownsAll_lt h2 a)
  | _, _, _, .arr h1, a, ha => ownsAll_lt h1 a ha
  | _, _, _, .map h1 h2, a, ha => (List.mem_cons.1 ha).elim (fun e => e ▸ cell_lt h1) (ownsEntries_lt h2 a)
  | _, _, _, .ptr h1 h2, a, ha => (List.mem_cons.1 ha).elim (fun e => e ▸ cell_lt h1) (owns_lt h2 a)
  | _, _, _, .struct h1, a, ha => ownsAll_lt h1 a ha
  | _, _, _, .iface h1, a, ha => owns_lt h1 a ha
theorem ownsAll_lt : ∀ {h v fp}, OwnsAll m S h v fp → ∀ a ∈ fp, a < m.length
  | _, _, _, .cons h1 h2, a, ha => (List.mem_append.1 ha).elim (owns_lt h1 a) (ownsAll_lt h2 a)
theorem ownsEntries_lt : ∀ {h v fp}, OwnsEntries m S h v fp → ∀ a ∈ fp, a < m.length
  | _, _, _, .cons h1 h2 h3, a, ha => (List.mem_append.1 ha).elim (owns_lt h1 a) fun ha =>
      (List.mem_append.1 ha).elim (owns_lt h2 a) (ownsEntries_lt h3 a)
end

mutual
theorem owns_flat : ∀ {v : Val}, RefFree v → Owns m S (flat v) v []
  | .bool _, _ => .bool
  | .int _, _ => .int
  | .uint _, _ => .uint
  | .f32 _, _ => .f32
  | .f64 _, _ => .f64
  | .str _, _ => .str
  | .sliceNil, _ => .sliceNil
  | .arr _, h => .arr (ownsAll_flat h)
  | .mapNil, _ => .mapNil
  | .ptrNil, _ => .ptrNil
  | .struct _, h => .struct (ownsAll_flat h)
  | .ifaceNil, _ => .ifaceNil
  | .other, _ => .other
theorem ownsAll_flat : ∀ {vs : List Val}, RefFreeAll vs → OwnsAll m S (flatList vs) vs []
  | [], _ => .nil
  | _ :: _, h => .cons (a := []) (b := []) (owns_flat h.1) (ownsAll_flat h.2)
end

mutual
theorem owns_refFree : ∀ {h v fp}, Owns m S h v fp → RefFree v → fp = []
  | _, _, _, .bool, _ => rfl
  | _, _, _, .int, _ => rfl
  | _, _, _, .uint, _ => rfl
  | _, _, _, .f32, _ => rfl
  | _, _, _, .f64, _ => rfl
  | _, _, _, .str, _ => rfl
  | _, _, _, .sliceNil, _ => rfl
  | _, _, _, .shared _ _ _, _ => rfl
  | _, _, _, .arr h1, h => ownsAll_refFree h1 h
  | _, _, _, .mapNil, _ => rfl
  | _, _, _, .ptrNil, _ => rfl
  | _, _, _, .struct h1, h => ownsAll_refFree h1 h
  | _, _, _, .ifaceNil, _ => rfl
  | _, _, _, .other, _ => rfl
theorem ownsAll_refFree : ∀ {h v fp}, OwnsAll m S h v fp → RefFreeAll v → fp = []
  | _, _, _, .nil, _ => rfl
  | _, _, _, .cons h1 h2, h => by rw [owns_refFree h1 h.1, ownsAll_refFree h2 h.2]; rfl
end

mutual
theorem owns_hashable : ∀ {h v fp}, Owns m S h v fp → h.hashable = v.hashable
  | _, _, _, .bool => rfl
  | _, _, _, .int => rfl
  | _, _, _, .uint => rfl
  | _, _, _, .f32 => rfl
  | _, _, _, .f64 => rfl
  | _, _, _, .str => rfl
  | _, _, _, .sliceNil => rfl
  | _, _, _, .slice _ _ => rfl
  | _, _, _, .shared _ _ _ => rfl
  | _, _, _, .arr h1 => ownsAll_hashable h1
  | _, _, _, .mapNil => rfl
  | _, _, _, .map _ _ => rfl
  | _, _, _, .ptrNil => rfl
  | _, _, _, .ptr _ _ => rfl
  | _, _, _, .struct h1 => ownsAll_hashable h1
  | _, _, _, .ifaceNil => rfl
  | _, _, _, .iface h1 => by simp only [HV.hashable, Val.hashable]; exact owns_hashable h1
  | _, _, _, .other => rfl
theorem ownsAll_hashable : ∀ {h v fp}, OwnsAll m S h v fp → hvHashableList h = hashableList v
  | _, _, _, .nil => rfl
  | _, _, _, .cons h1 h2 => by simp only [hvHashableList, hashableList, owns_hashable h1, ownsAll_hashable h2]
end

mutual
theorem owns_goEq : ∀ {h v fp}, Owns m S h v fp → ∀ {h' v' fp'}, Owns m S h' v' fp' → (∀ a ∈ fp, a ∉ fp') → h.goEq h' = v.goEq v'
  | _, _, _, .bool, _, _, _, h', _ => by cases h' <;> rfl
  | _, _, _, .int, _, _, _, h', _ => by cases h' <;> rfl
  | _, _, _, .uint, _, _, _, h', _ => by cases h' <;> rfl
  | _, _, _, .f32, _, _, _, h', _ => by cases h' <;> rfl
  | _, _, _, .f64, _, _, _, h', _ => by cases h' <;> rfl
  | _, _, _, .str, _, _, _, h', _ => by cases h' <;> rfl
  | _, _, _, .sliceNil, _, _, _, h', _ => by cases h' <;> rfl
  | _, _, _, .slice _ _, _, _, _, h', _ => by cases h' <;> rfl
  | _, _, _, .shared _ _ _, _, _, _, h', _ => by cases h' <;> rfl
  | _, _, _, .arr h1, _, _, _, h', hd => by
    cases h' with
    | arr h2 => simp only [HV.goEq, Val.goEq]; exact ownsAll_goEq h1 h2 hd
    | _ => rfl
  | _, _, _, .mapNil, _, _, _, h', _ => by cases h' <;> rfl
  | _, _, _, .map _ _, _, _, _, h', _ => by cases h' <;> rfl
  | _, _, _, .ptrNil, _, _, _, h', _ => by cases h' <;> rfl
  | _, _, _, .ptr (o := o) _ _, _, _, _, h', hd => by
    cases h' with
    | @ptr o' =>
      have : o ≠ o' := by
        rintro rfl
        exact hd o List.mem_cons_self List.mem_cons_self
      simp only [HV.goEq, Val.goEq]
      simp [this]
    | _ => rfl
  | _, _, _, .struct h1, _, _, _, h', hd => by
    cases h' with
    | struct h2 => simp only [HV.goEq, Val.goEq]; exact ownsAll_goEq h1 h2 hd
    | _ => rfl
  | _, _, _, .ifaceNil, _, _, _, h', _ => by cases h' <;> rfl
  | _, _, _, .iface h1, _, _, _, h', hd => by
    cases h' with
    | iface h2 => simp only [HV.goEq, Val.goEq]; rw [owns_goEq h1 h2 hd]
    | _ => rfl
  | _, _, _, .other, _, _, _, h', _ => by cases h' <;> rfl
theorem ownsAll_goEq : ∀ {h v fp}, OwnsAll m S h v fp → ∀ {h' v' fp'}, OwnsAll m S h' v' fp' → (∀ a ∈ fp, a ∉ fp') → hvEqList h h' = goEqList v v'
  | _, _, _, .nil, _, _, _, h', _ => by cases h' <;> rfl
  | _, _, _, .cons h1 h2, _, _, _, h', hd => by
    cases h' with
    | nil => rfl
    | cons h3 h4 =>
      simp only [hvEqList, goEqList]
      rw [owns_goEq h1 h3 fun a ha hb => hd a (List.mem_append_left _ ha) (List.mem_append_left _ hb),
        ownsAll_goEq h2 h4 fun a ha hb => hd a (List.mem_append_right _ ha) (List.mem_append_right _ hb)]
end

theorem ownsAll_length : ∀ {hs vs fp}, OwnsAll m S hs vs fp → hs.length = vs.length
  | _, _, _, .nil => rfl
  | _, _, _, .cons _ h => by simp [ownsAll_length h]

theorem ownsAll_append : ∀ {hs vs fp hs' vs' fp'}, OwnsAll m S hs vs fp → OwnsAll m S hs' vs' fp' → OwnsAll m S (hs ++ hs') (vs ++ vs') (fp ++ fp')
  | _, _, _, _, _, _, .nil, h => h
  | _, _, _, _, _, _, .cons h1 h2, h => by
    rw [List.append_assoc]
    exact .cons h1 (ownsAll_append h2 h)

theorem ownsAll_replicate {h : HV} {v : Val} (hv : Owns m S h v []) : ∀ n, OwnsAll m S (List.replicate n h) (List.replicate n v) []
  | 0 => .nil
  | n + 1 => .cons (a := []) (b := []) hv (ownsAll_replicate hv n)

/-- Element `i`, and what becomes of the whole when it is replaced. -/
theorem ownsAll_get : ∀ {hs vs fp} {i : Nat} {v : Val}, OwnsAll m S hs vs fp → vs[i]? = some v →
    ∃ h a c b, hs[i]? = some h ∧ Owns m S h v c ∧ fp = a ++ (c ++ b) ∧
      ∀ {m' : Mem} {h' : HV} {v' : Val} {c' : List Nat}, (∀ x ∈ a ++ b, m'[x]? = m[x]?) → Owns m' S h' v' c' →
        OwnsAll m' S (hs.set i h') (vs.set i v') (a ++ (c' ++ b))
  | _, _, _, 0, v, .cons (h := h) (a := c) (b := b) h1 h2, he => by
    simp only [List.getElem?_cons_zero, Option.some.injEq] at he
    subst he
    refine ⟨h, [], c, b, rfl, h1, rfl, ?_⟩
    intro m' h' v' c' hf ho
    exact OwnsAll.cons (a := c') (b := b) ho (ownsAll_frame (fun _ _ h => h) h2 hf)
  | _, _, _, i + 1, v, .cons (h := h) (a := c) (b := b) h1 h2, he => by
    simp only [List.getElem?_cons_succ] at he
    obtain ⟨g, a', c', b', e1, e2, e3, e4⟩ := ownsAll_get h2 he
    refine ⟨g, c ++ a', c', b', by simpa using e1, e2, by rw [e3, List.append_assoc], ?_⟩
    intro m' h' v' c'' hf ho
    have h5 := e4 (fun x hx => hf x (by simp only [List.mem_append] at hx ⊢; rcases hx with hx | hx <;> simp [hx])) ho
    have h6 : Owns m' S h _ c := owns_frame (fun _ _ h => h) h1 fun x hx => hf x (by simp [hx])
    have := OwnsAll.cons h6 h5
    simpa [List.append_assoc] using this

theorem ownsAll_none : ∀ {hs vs fp} {i : Nat}, OwnsAll m S hs vs fp → vs[i]? = none → hs[i]? = none := by
  intro hs vs fp i h hn
  rw [List.getElem?_eq_none_iff] at hn ⊢
  rw [ownsAll_length h]
  exact hn

/-- SetMapIndex. -/
theorem ownsEntries_insert {h g : HV} {k v : Val} {a b : List Nat} (hk : Owns m S h k a) (hv : Owns m S g v b) :
    ∀ {hs es c}, OwnsEntries m S hs es c → (∀ x ∈ c, x ∉ a) →
      ∃ c', OwnsEntries m S (hvInsert h g hs) (mapInsert k v es) c' ∧ ∀ x, c'.count x ≤ a.count x + b.count x + c.count x
  | _, _, _, .nil, _ => ⟨a ++ (b ++ []), .cons hk hv .nil, fun x => by simp [List.count_append]⟩
  | _, _, _, .cons (h := h') (k := k') (a := a') (b := b') (c := c) h1 h2 h3, hd => by
    simp only [hvInsert, mapInsert]
    rw [owns_goEq h1 hk fun x hx hx' => hd x (by simp [hx]) hx']
    split
    · exact ⟨_, .cons hk hv h3, fun x => by simp only [List.count_append]; omega⟩
    · obtain ⟨c', e1, e2⟩ := ownsEntries_insert hk hv h3 fun x hx => hd x (by simp [hx])
      exact ⟨_, .cons h1 h2 e1, fun x => by have := e2 x; simp only [List.count_append]; omega⟩

end Owns

/-! ### Holds and OnlyAt -/

section Holds
variable {S : Nat → List HV → Prop} {l : Loc} {m m0 m1 m2 : Mem} {fp fp0 fp1 fp2 : List Nat} {v : Val}

theorem Spec.OnlyAt.refl : OnlyAt l fp m m fp where
  grows := Nat.le_refl _
  same _ _ _ _ := rfl
  around x hx := by
    cases h : x.at l.path with
    | some g => exact ⟨g, by rw [HV.put_self h]; exact hx⟩
    | none => exact ⟨.other, by rw [put_none h]; exact hx⟩
  parts _ h := .inl h
where
  put_none : ∀ {p : List Nat} {x y : HV}, x.at p = none → x.put p y = x
    | [], x, _, h => by cases x <;> cases h
    | i :: p, x, y, h => by
      cases x with
      | arr es =>
        simp only [HV.at] at h
        simp only [HV.put]
        cases he : es[i]? with
        | none => rfl
        | some e =>
          rw [he] at h
          obtain ⟨hi, rfl⟩ := List.getElem?_eq_some_iff.1 he
          simp only [put_none h, List.set_getElem_self]
      | struct es =>
        simp only [HV.at] at h
        simp only [HV.put]
        cases he : es[i]? with
        | none => rfl
        | some e =>
          rw [he] at h
          obtain ⟨hi, rfl⟩ := List.getElem?_eq_some_iff.1 he
          simp only [put_none h, List.set_getElem_self]
      | _ => rfl

theorem Spec.OnlyAt.trans (h1 : OnlyAt l fp0 m0 m1 fp1) (h2 : OnlyAt l fp1 m1 m2 fp2) : OnlyAt l fp0 m0 m2 fp2 where
  grows := Nat.le_trans h1.grows h2.grows
  same a ha hl hf := by
    rw [h2.same a (Nat.lt_of_lt_of_le ha h1.grows) hl fun h => ?_, h1.same a ha hl hf]
    rcases h1.parts a h with h | h
    · exact hf h
    · omega
  around x hx := by
    obtain ⟨g, hg⟩ := h1.around x hx
    obtain ⟨g', hg'⟩ := h2.around _ hg
    exact ⟨g', by rw [hg', HV.put_put]⟩
  parts a ha := by
    rcases h2.parts a ha with h | h
    · exact h1.parts a h
    · have := h1.grows; exact .inr (by omega)

theorem Spec.Holds.read (h : Holds S m l v fp) : ∃ g, m.read l = some g := by
  obtain ⟨g, hg, -⟩ := h.value
  exact ⟨g, hg⟩

theorem Spec.Holds.lt (h : Holds S m l v fp) : l.obj < m.length := by
  obtain ⟨g, hg, -⟩ := h.value
  exact read_lt hg

theorem Spec.Holds.fp_lt (h : Holds S m l v fp) : ∀ a ∈ fp, a < m.length := by
  obtain ⟨g, -, hg⟩ := h.value
  exact owns_lt hg

/-- Changes elsewhere do not matter. -/
theorem Spec.Holds.frame (h : Holds S m l v fp) (hs : ∀ a, a < m.length → (a = l.obj ∨ a ∈ fp ∨ ∃ es, S a es) → m1[a]? = m[a]?) :
    Holds S m1 l v fp where
  value := by
    obtain ⟨g, h1, h2⟩ := h.value
    refine ⟨g, by rw [read_congr (hs _ (read_lt h1) (.inl rfl))]; exact h1, ?_⟩
    exact owns_frame (fun _ _ h => h) h2 fun a ha => hs a (owns_lt h2 a ha) (.inr (.inl ha))
  unshared := h.unshared
  kept o es ho := by
    have := h.kept o es ho
    rw [hs o (cell_lt this) (.inr (.inr ⟨es, ho⟩))]
    exact this
  apart := h.apart

/-- The place holds `v1` in memory `m1`, which differs from `m` as `OnlyAt` allows. -/
def Now (S : Nat → List HV → Prop) (l : Loc) (m : Mem) (fp : List Nat) (m1 : Mem) (v1 : Val) : Prop :=
  ∃ fp1, Holds S m1 l v1 fp1 ∧ OnlyAt l fp m m1 fp1

theorem Spec.Holds.now (h : Holds S m l v fp) : Now S l m fp m v := ⟨fp, h, .refl⟩

theorem Now.trans {v1 v2 : Val} (h : Now S l m fp m1 v1) (h2 : ∀ fp1, Holds S m1 l v1 fp1 → Now S l m1 fp1 m2 v2) : Now S l m fp m2 v2 := by
  obtain ⟨fp1, h1, h3⟩ := h
  obtain ⟨fp2, h4, h5⟩ := h2 fp1 h1
  exact ⟨fp2, h4, h3.trans h5⟩

/-- Storing a value made of objects that are at hand. -/
theorem Now.write {v1 : Val} (h : Now S l m fp m1 v1) {g : HV} {c : List Nat} {v2 : Val} (ho : Owns m1 S g v2 c) (hn : c.Nodup)
    (hc : ∀ a ∈ c, a ≠ l.obj ∧ (∀ es, ¬ S a es) ∧ (a ∈ fp ∨ m.length ≤ a)) : Now S l m fp (m1.write l g) v2 := by
  obtain ⟨fp1, h1, h2⟩ := h
  obtain ⟨r, hr⟩ := h1.read
  refine ⟨c, ⟨⟨g, read_write hr, ?_⟩, ?_, ?_, ?_⟩, ?_⟩
  · exact owns_frame (fun _ _ h => h) ho fun a ha => write_other (hc a ha).1
  · exact List.nodup_cons.2 ⟨fun hm => (hc _ hm).1 rfl, hn⟩
  · intro a es ha
    rw [write_other]
    · exact h1.kept a es ha
    · rintro rfl
      exact h1.apart _ es ha List.mem_cons_self
  · intro a es ha hm
    rcases List.mem_cons.1 hm with rfl | hm
    · exact h1.apart _ es ha List.mem_cons_self
    · exact (hc a hm).2.1 es ha
  · refine ⟨by rw [write_length]; exact h2.grows, ?_, ?_, fun a ha => (hc a ha).2.2⟩
    · intro a ha hl hf
      rw [write_other hl]
      exact h2.same a ha hl hf
    · intro x hx
      obtain ⟨y, hy⟩ := h2.around x hx
      exact ⟨g, by rw [write_at hy, HV.put_put]⟩

theorem Now.write_flat {v1 : Val} (h : Now S l m fp m1 v1) {v2 : Val} (hv : RefFree v2) : Now S l m fp (m1.write l (flat v2)) v2 :=
  h.write (owns_flat hv) List.nodup_nil (by simp)

/-- The same outcome, and the place holds what the run on trees gives. -/
def MPost {β : Type} (S : Nat → List HV → Prop) (l : Loc) (m : Mem) (fp : List Nat) (x : Mem × Res β) (y : Val × Res β) : Prop :=
  x.2 = y.2 ∧ Now S l m fp x.1 y.1

/-- The decoder on memory does what the decoder on trees does. -/
def MSim (S : Nat → List HV → Prop) (d : Loc → Mem → DM) (dt : Val → DR) : Prop := ∀ l m v fp, Holds S m l v fp → MPost S l m fp (d l m) (dt v)

section Combinators
variable {α β : Type} {v1 : Val}

theorem mpost_done {r : Res β} (h : Now S l m fp m1 v1) : MPost S l m fp (m1, r) (v1, r) := ⟨rfl, h⟩

theorem mpost_onOk {r : Res α} {k : α → Mem × Res β} {k' : α → Val × Res β} (h : Now S l m fp m1 v1)
    (hk : ∀ a, r = .ok a → MPost S l m fp (k a) (k' a)) : MPost S l m fp (onOkM m1 r k) (onOk v1 r k') := by
  cases r with
  | ok a => exact hk a rfl
  | err e => exact mpost_done h
  | panic p => exact mpost_done h
  | diverge => exact mpost_done h

theorem mpost_ite {c : Prop} [Decidable c] {x x' : Mem × Res β} {y y' : Val × Res β} (hx : c → MPost S l m fp x y) (hy : ¬ c → MPost S l m fp x' y') :
    MPost S l m fp (if c then x else x') (if c then y else y') := by
  split
  · exact hx ‹_›
  · exact hy ‹_›

theorem MPost.from {x : Mem × Res β} {y : Val × Res β} (h : Now S l m fp m1 v1) (h2 : ∀ fp1, Holds S m1 l v1 fp1 → MPost S l m1 fp1 x y) :
    MPost S l m fp x y := by
  obtain ⟨fp1, h1, h3⟩ := h
  obtain ⟨e, fp2, h4, h5⟩ := h2 fp1 h1
  exact ⟨e, fp2, h4, h3.trans h5⟩

end Combinators

theorem Spec.Kept.lt (h : Kept S m) {a : Nat} {es : List HV} (ha : S a es) : a < m.length := cell_lt (h a es ha)

theorem Spec.Kept.mono (h : Kept S m) (hs : ∀ a, a < m.length → m1[a]? = m[a]?) : Kept S m1 := by
  intro a es ha
  rw [hs a (h.lt ha)]
  exact h a es ha

/-- A new variable. -/
theorem holds_new (hS : Kept S m) {z : Val} (hz : RefFree z) : Holds S (m.new (.var (flat z))) ⟨m.length, []⟩ z [] where
  value := ⟨flat z, read_var.2 new_new, owns_flat hz⟩
  unshared := by simp
  kept := hS.mono fun _ => new_old
  apart a es ha := by
    have := hS.lt ha
    simp only [List.mem_singleton]
    omega

/-- Decoding into a new variable. -/
theorem run_new {d : Loc → Mem → DM} {dt : Val → DR} (hd : MSim S d dt) (hS : Kept S m) {z : Val} (hz : RefFree z) :
    (d ⟨m.length, []⟩ (m.new (.var (flat z)))).2 = (dt z).2 ∧ m.length < (d ⟨m.length, []⟩ (m.new (.var (flat z)))).1.length ∧
    (∀ a, a < m.length → (d ⟨m.length, []⟩ (m.new (.var (flat z)))).1[a]? = m[a]?) ∧
    ∃ h c, (d ⟨m.length, []⟩ (m.new (.var (flat z)))).1.read ⟨m.length, []⟩ = some h ∧
      Owns (d ⟨m.length, []⟩ (m.new (.var (flat z)))).1 S h (dt z).1 c ∧ c.Nodup ∧ ∀ a ∈ c, m.length < a := by
  obtain ⟨h1, c, h2, h3⟩ := hd _ _ _ _ (holds_new hS hz)
  refine ⟨h1, ?_, ?_, ?_⟩
  · have := h3.grows
    rw [new_length] at this
    omega
  · intro a ha
    rw [h3.same a (by rw [new_length]; omega) (by dsimp only; omega) (by simp), new_old ha]
  · obtain ⟨g, hg, ho⟩ := h2.value
    refine ⟨g, c, hg, ho, (List.nodup_cons.1 h2.unshared).2, ?_⟩
    intro a ha
    rcases h3.parts a ha with h | h
    · cases h
    · rw [new_length] at h; omega

/-- Moving to an element or field: `mk` builds the whole from its parts. -/
theorem sub_core {hs : List HV} {vs : List Val} {i : Nat} {mkH : List HV → HV} {mkV : List Val → Val}
    (hat : ∀ (es : List HV) (p : List Nat), (mkH es).at (i :: p) = match es[i]? with | some e => e.at p | none => none)
    (hput : ∀ (es : List HV) (e x : HV), es[i]? = some e → (mkH es).put [i] x = mkH (es.set i x))
    (hmk : ∀ {m : Mem} {hs vs fp}, OwnsAll m S hs vs fp → Owns m S (mkH hs) (mkV vs) fp)
    (hr : m.read l = some (mkH hs)) (ho : OwnsAll m S hs vs fp) (hu : (l.obj :: fp).Nodup) (hK : Kept S m) (hS : ∀ a es, S a es → a ∉ l.obj :: fp)
    (hv : vs[i]? = some v) :
    ∃ c, Holds S m (l.sub i) v c ∧ ∀ m1 v1, Now S (l.sub i) m c m1 v1 → Now S l m fp m1 (mkV (vs.set i v1)) := by
  obtain ⟨h, a, c, b, h1, h2, rfl, h3⟩ := ownsAll_get ho hv
  obtain ⟨root, hroot, hp⟩ := read_eq_some.1 hr
  rw [List.nodup_iff_count] at hu
  refine ⟨c, ⟨⟨h, ?_, h2⟩, ?_, hK, ?_⟩, ?_⟩
  · refine read_eq_some.2 ⟨root, hroot, ?_⟩
    unfold Loc.sub
    rw [HV.at_append, hp]
    dsimp only
    rw [hat, h1]
    exact HV.at_nil
  · rw [List.nodup_iff_count]
    intro x
    have := hu x
    simp only [Loc.sub, List.count_cons, List.count_append] at this ⊢
    omega
  · intro x es hx hm
    refine hS x es hx ?_
    simp only [Loc.sub, List.mem_cons, List.mem_append] at hm ⊢
    rcases hm with hm | hm <;> simp [hm]
  · rintro m1 v1 ⟨c1, g1, g2⟩
    obtain ⟨h', hr', ho'⟩ := g1.value
    obtain ⟨x, hx⟩ := g2.around root hroot
    have hx' : m1[l.obj]? = some (.var (root.put l.path (mkH (hs.set i x)))) := by
      have : (root.put (l.sub i).path x) = root.put l.path (mkH (hs.set i x)) := by
        unfold Loc.sub
        rw [HV.put_append hp, hput _ _ _ h1]
      rw [← this]
      exact hx
    have hh : h' = x := by
      obtain ⟨r2, e1, e2⟩ := read_eq_some.1 hr'
      have e3 : r2 = root.put l.path (mkH (hs.set i x)) := by
        have := e1.symm.trans hx'
        simpa using this
      rw [e3] at e2
      unfold Loc.sub at e2
      rw [HV.at_append, HV.at_put hp] at e2
      dsimp only at e2
      rw [hat, List.getElem?_set_self (List.getElem?_eq_some_iff.1 h1).1] at e2
      dsimp only at e2
      rw [HV.at_nil] at e2
      exact (Option.some.inj e2).symm
    subst hh
    have hcount : ∀ y, y ∈ c → y ≠ l.obj := by
      rintro y hy rfl
      have := hu l.obj
      have h5 := List.count_pos_iff.2 hy
      simp only [List.count_cons, List.count_append] at this
      simp at this
      omega
    have hab : ∀ y, y ∈ a ++ b → y ≠ l.obj ∧ y ∉ c := by
      intro y hy
      have h5 := List.count_pos_iff.2 hy
      have h6 := hu y
      simp only [List.count_cons, List.count_append] at h5 h6
      constructor
      · rintro rfl
        simp at h6
        omega
      · intro hm
        have := List.count_pos_iff.2 hm
        omega
    have hlt : ∀ y, y ∈ a ++ b → y < m.length := by
      intro y hy
      refine ownsAll_lt ho y ?_
      simp only [List.mem_append] at hy ⊢
      rcases hy with hy | hy <;> simp [hy]
    refine ⟨a ++ (c1 ++ b), ⟨⟨mkH (hs.set i h'), ?_, ?_⟩, ?_, g1.kept, ?_⟩, ?_⟩
    · exact read_eq_some.2 ⟨_, hx', HV.at_put hp⟩
    · exact hmk (h3 (fun y hy => g2.same y (hlt y hy) (hab y hy).1 (hab y hy).2) ho')
    · rw [List.nodup_iff_count]
      intro y
      have h5 := hu y
      have h6 := List.nodup_iff_count.1 g1.unshared y
      simp only [Loc.sub, List.count_cons, List.count_append] at h5 h6 ⊢
      by_cases hy : y ∈ c1
      · by_cases hab' : y ∈ a ++ b
        · rcases g2.parts y hy with h7 | h7
          · exact absurd h7 (hab y hab').2
          · have := hlt y hab'; omega
        · have h8 : (a ++ b).count y = 0 := List.count_eq_zero.2 hab'
          simp only [List.count_append] at h8
          omega
      · have h8 : c1.count y = 0 := List.count_eq_zero.2 hy
        omega
    · intro y es hy hm
      have h5 := hS y es hy
      have h6 := g1.apart y es hy
      simp only [List.mem_cons, List.mem_append] at hm
      rcases hm with hm | hm | hm | hm
      · exact h5 (by simp [hm])
      · exact h5 (by simp [hm])
      · exact h6 (by simp [hm])
      · exact h5 (by simp [hm])
    · refine ⟨g2.grows, ?_, ?_, ?_⟩
      · intro y hy hl hf
        exact g2.same y hy hl fun hm => hf (by simp [hm])
      · intro y hy
        have : y = root := by
          have := hy.symm.trans hroot
          simpa using this
        subst this
        exact ⟨_, hx'⟩
      · intro y hy
        simp only [List.mem_append] at hy ⊢
        rcases hy with hy | hy | hy
        · exact .inl (.inl hy)
        · rcases g2.parts y hy with h | h
          · exact .inl (.inr (.inl h))
          · exact .inr h
        · exact .inl (.inr (.inr hy))

theorem Spec.Holds.field {vs : List Val} {i : Nat} (h : Holds S m l (.struct vs) fp) (hv : vs[i]? = some v) :
    ∃ c, Holds S m (l.sub i) v c ∧ ∀ m1 v1, Now S (l.sub i) m c m1 v1 → Now S l m fp m1 (.struct (vs.set i v1)) := by
  obtain ⟨g, hg, ho⟩ := h.value
  cases ho with
  | struct ho =>
    exact sub_core (mkH := .struct) (mkV := .struct) (fun _ _ => rfl) (fun es e x he => by simp only [HV.put, he, HV.put_nil]) (fun h => .struct h)
      hg ho h.unshared h.kept h.apart hv

theorem Spec.Holds.elem {vs : List Val} {i : Nat} (h : Holds S m l (.arr vs) fp) (hv : vs[i]? = some v) :
    ∃ c, Holds S m (l.sub i) v c ∧ ∀ m1 v1, Now S (l.sub i) m c m1 v1 → Now S l m fp m1 (.arr (vs.set i v1)) := by
  obtain ⟨g, hg, ho⟩ := h.value
  cases ho with
  | arr ho =>
    exact sub_core (mkH := .arr) (mkV := .arr) (fun _ _ => rfl) (fun es e x he => by simp only [HV.put, he, HV.put_nil]) (fun h => .arr h)
      hg ho h.unshared h.kept h.apart hv

/-- Changing the object behind a reference. -/
theorem ref_core {V V1 v1 : Val} {g : HV} {o : Nat} {c : List Nat} (h : Holds S m l V (o :: c)) (hg : m.read l = some g) (_ : Holds S m ⟨o, []⟩ v c)
    (hmk : ∀ h' c1, m1[o]? = some (.var h') → Owns m1 S h' v1 c1 → Owns m1 S g V1 (o :: c1)) (hn : Now S ⟨o, []⟩ m c m1 v1) :
    Now S l m (o :: c) m1 V1 := by
  have hu := h.unshared
  rw [List.nodup_cons, List.nodup_cons] at hu
  obtain ⟨hl, ho', hc⟩ := hu
  simp only [List.mem_cons, not_or] at hl
  obtain ⟨c1, g1, g2⟩ := hn
  obtain ⟨h', hr', hw'⟩ := g1.value
  have hlo : m1[l.obj]? = m[l.obj]? := g2.same _ (read_lt hg) hl.1 hl.2
  refine ⟨o :: c1, ⟨⟨g, by rw [read_congr hlo]; exact hg, hmk _ _ (read_var.1 hr') hw'⟩, ?_, g1.kept, ?_⟩, ?_⟩
  · refine List.nodup_cons.2 ⟨?_, g1.unshared⟩
    intro hm
    rcases List.mem_cons.1 hm with hm | hm
    · exact hl.1 hm
    · rcases g2.parts _ hm with h5 | h5
      · exact hl.2 h5
      · have := read_lt hg; omega
  · intro a es ha hm
    rcases List.mem_cons.1 hm with hm | hm
    · exact h.apart a es ha (by simp [hm])
    · exact g1.apart a es ha hm
  · refine ⟨g2.grows, ?_, ?_, ?_⟩
    · intro a ha _ hf
      exact g2.same a ha (fun h => hf (by simp only at h; simp [h])) fun h => hf (by simp [h])
    · intro x hx
      obtain ⟨y, hy⟩ := Spec.OnlyAt.refl (l := l) (fp := []) |>.around x hx
      exact ⟨y, by rw [hlo]; exact hy⟩
    · intro a ha
      rcases List.mem_cons.1 ha with ha | ha
      · exact .inl (by simp [ha])
      · rcases g2.parts a ha with h | h
        · exact .inl (by simp [h])
        · exact .inr h

/-- Following a pointer. -/
theorem Spec.Holds.deref (h : Holds S m l (.ptr v) fp) :
    ∃ o c, m.read l = some (.ptr o []) ∧ Holds S m ⟨o, []⟩ v c ∧ ∀ m1 v1, Now S ⟨o, []⟩ m c m1 v1 → Now S l m fp m1 (.ptr v1) := by
  obtain ⟨g, hg, ho⟩ := h.value
  cases ho with
  | @ptr o g _ c h1 h2 =>
    have hu := List.nodup_cons.1 h.unshared
    have hH : Holds S m ⟨o, []⟩ v c := by
      refine ⟨⟨g, read_var.2 h1, h2⟩, hu.2, h.kept, fun a es ha hm => ?_⟩
      exact h.apart a es ha (List.mem_cons_of_mem _ hm)
    exact ⟨o, c, hg, hH, fun m1 v1 hn => ref_core h hg hH (fun h' c1 e1 e2 => .ptr e1 e2) hn⟩

end Holds

end Verif

import Verif.Spec.Overlay
import Verif.Proofs.Containers
/-
What a document does to a destination, as a function of the destination: a tree that says for each part whether it is
kept, replaced, or changed further inside.
-/
namespace Verif
open Spec

/-- What a document does to a variable. -/
inductive Ov where
  | keep
  | set (v : Val)
  | ptr (z : Val) (o : Ov)
  | struct (os : Nat → Ov)
  | map (kvs : List (Val × Val))

/-- Insert pairs in order. -/
def putAll (kvs m : List (Val × Val)) : List (Val × Val) := kvs.foldl (fun m p => mapInsert p.1 p.2 m) m

/-- Do it. -/
def Ov.app : Ov → Val → Val
  | .keep, x => x
  | .set v, _ => v
  | .ptr z o, x => match x with
    | .ptrNil => .ptr (o.app z)
    | .ptr v => .ptr (o.app v)
    | x => x
  | .struct os, x => match x with
    | .struct vs => .struct (vs.mapIdx fun i v => (os i).app v)
    | x => x
  | .map kvs, x => match x with
    | .mapNil => .map (putAll kvs [])
    | .map m => .map (putAll kvs m)
    | x => x

/-- Do `o1`, then `o2`. -/
def Ov.after : Ov → Ov → Ov
  | .keep, o1 => o1
  | .set v, _ => .set v
  | .ptr z o2, o1 => match o1 with
    | .keep => .ptr z o2
    | .set v => .set (Ov.app (.ptr z o2) v)
    | .ptr _ o1 => .ptr z (o2.after o1)
    | _ => .keep
  | .struct os2, o1 => match o1 with
    | .keep => .struct os2
    | .set v => .set (Ov.app (.struct os2) v)
    | .struct os1 => .struct fun i => (os2 i).after (os1 i)
    | _ => .keep
  | .map k2, o1 => match o1 with
    | .keep => .map k2
    | .set v => .set (Ov.app (.map k2) v)
    | .map k1 => .map (k1 ++ k2)
    | _ => .keep

/-- The shape of a destination, as far as decoding into type `t` looks at it. -/
inductive Slot (W : World) : Ty → Val → Prop
  | unm {t v id} : W.unmOf t = some id → Slot W t v
  | leaf {t v} : (∀ e, W.resolve t ≠ .ptr e) → (∀ k e, W.resolve t ≠ .map k e) → (∀ id, W.resolve t ≠ .struct id) → Slot W t v
  | ptrNil {t e} : Plain W t (.ptr e) → Slot W t .ptrNil
  | ptr {t e v} : Plain W t (.ptr e) → Slot W e v → Slot W t (.ptr v)
  | mapNil {t k e} : Plain W t (.map k e) → Slot W t .mapNil
  | map {t k e m} : Plain W t (.map k e) → Slot W t (.map m)
  | struct {t id vs} : Plain W t (.struct id) → vs.length = (W.fields id).length →
      (∀ (i : Nat) (f : Field) (v : Val), (W.fields id)[i]? = some f → vs[i]? = some v → Slot W f.ty v) → Slot W t (.struct vs)

theorem shape_of_hasTy {W : World} {D : Ty → Prop} {t : Ty} {v : Val} (h : HasTy W D t v) : Slot W t v := by
  cases hu : W.unmOf t with
  | some id => exact .unm hu
  | none =>
    induction h with
    | mapNil h => exact .mapNil ⟨hu, h⟩
    | map h => exact .map ⟨hu, h⟩
    | ptrNil h => exact .ptrNil ⟨hu, h⟩
    | ptr h _ ih =>
      rename_i e v hv
      refine .ptr ⟨hu, h⟩ ?_
      cases hu' : W.unmOf e with
      | some id => exact .unm hu'
      | none => exact ih hu'
    | struct h hl _ ih =>
      refine .struct ⟨hu, h⟩ hl fun i f v hf hv => ?_
      cases hu' : W.unmOf f.ty with
      | some id => exact .unm hu'
      | none => exact ih i f v hf hv hu'
    | _ => exact .leaf (by simp [*]) (by simp [*]) (by simp [*])

/-- The overlay suits type `t`, and inserts only keys in `K`. -/
inductive OvTy (W : World) (K : Val → Prop) : Ty → Ov → Prop
  | keep {t} : OvTy W K t .keep
  | set {t v} : Slot W t v → OvTy W K t (.set v)
  | ptr {t e o} : Plain W t (.ptr e) → OvTy W K e o → OvTy W K t (.ptr (W.zero e) o)
  | struct {t id os} : Plain W t (.struct id) → (∀ (i : Nat) (f : Field), (W.fields id)[i]? = some f → OvTy W K f.ty (os i)) →
      (∀ i, (W.fields id)[i]? = none → os i = .keep) → OvTy W K t (.struct os)
  | map {t k e kvs} : Plain W t (.map k e) → (∀ p ∈ kvs, K p.1) → OvTy W K t (.map kvs)

variable {W : World} {K : Val → Prop}

theorem putAll_append {k1 k2 m : List (Val × Val)} : putAll (k1 ++ k2) m = putAll k2 (putAll k1 m) := by simp [putAll]

theorem app_shape (hz : ∀ t, Slot W t (W.zero t)) {t : Ty} {o : Ov} (h : OvTy W K t o) {x : Val} (hx : Slot W t x) : Slot W t (o.app x) := by
  induction h generalizing x with
  | keep => exact hx
  | set h => exact h
  | ptr hp _ ih =>
    unfold Ov.app
    split
    · exact .ptr hp (ih (hz _))
    · cases hx with
      | unm h => rw [hp.1] at h; cases h
      | leaf h => exact absurd hp.2 (h _)
      | ptr hp' h => have := hp.2.symm.trans hp'.2; cases this; exact .ptr hp (ih h)
    · exact hx
  | struct hp _ _ ih =>
    unfold Ov.app
    split
    · cases hx with
      | unm h => rw [hp.1] at h; cases h
      | leaf _ _ h => exact absurd hp.2 (h _)
      | struct hp' hl h =>
        have := hp.2.symm.trans hp'.2; cases this
        refine .struct hp (by simp [hl]) fun i f v hf hv => ?_
        rw [List.getElem?_mapIdx] at hv
        cases hv' : (‹List Val›)[i]? with
        | none => rw [hv'] at hv; cases hv
        | some y => rw [hv'] at hv; cases hv; exact ih i f hf (h i f y hf hv')
    · exact hx
  | map hp _ =>
    unfold Ov.app
    split
    · exact .map hp
    · exact .map hp
    · exact hx

/-- Doing both is doing one after the other. -/
theorem after_app {t : Ty} {o1 o2 : Ov} (h1 : OvTy W K t o1) (h2 : OvTy W K t o2) (x : Val) : (o2.after o1).app x = o2.app (o1.app x) := by
  induction h2 generalizing o1 x with
  | keep => rfl
  | set h => rfl
  | ptr hp _ ih =>
    cases h1 with
    | keep => rfl
    | set h => rfl
    | ptr hp' h =>
      have := hp.2.symm.trans hp'.2; cases this
      simp only [Ov.after, Ov.app]
      cases x <;> simp [ih h]
    | struct hp' => have := hp.2.symm.trans hp'.2; cases this
    | map hp' => have := hp.2.symm.trans hp'.2; cases this
  | struct hp ho hk ih =>
    cases h1 with
    | keep => rfl
    | set h => rfl
    | ptr hp' => have := hp.2.symm.trans hp'.2; cases this
    | map hp' => have := hp.2.symm.trans hp'.2; cases this
    | struct hp' h hk' =>
      have := hp.2.symm.trans hp'.2; cases this
      cases x <;> try rfl
      rename_i id _ _ vs
      simp only [Ov.after, Ov.app]
      congr 1
      apply List.ext_getElem?
      intro i
      simp only [List.getElem?_mapIdx]
      cases vs[i]? with
      | none => rfl
      | some v =>
        simp only [Option.map_some]
        congr 1
        cases hf : (W.fields id)[i]? with
        | none => rw [hk i hf, hk' i hf]; rfl
        | some f => exact ih i f hf (h i f hf) v
  | map hp hk =>
    cases h1 with
    | keep => rfl
    | set h => rfl
    | ptr hp' => have := hp.2.symm.trans hp'.2; cases this
    | struct hp' => have := hp.2.symm.trans hp'.2; cases this
    | map hp' h =>
      simp only [Ov.after, Ov.app]
      cases x <;> simp [putAll_append]

theorem after_ty (hz : ∀ t, Slot W t (W.zero t)) {t : Ty} {o1 o2 : Ov} (h1 : OvTy W K t o1) (h2 : OvTy W K t o2) : OvTy W K t (o2.after o1) := by
  induction h2 generalizing o1 with
  | keep => exact h1
  | set h => exact .set h
  | ptr hp ho ih =>
    cases h1 with
    | keep => exact .ptr hp ho
    | set h => exact .set (app_shape hz (.ptr hp ho) h)
    | ptr hp' h =>
      have := hp.2.symm.trans hp'.2; cases this
      exact .ptr hp (ih h)
    | struct hp' => have := hp.2.symm.trans hp'.2; cases this
    | map hp' => have := hp.2.symm.trans hp'.2; cases this
  | struct hp ho hk ih =>
    cases h1 with
    | keep => exact .struct hp ho hk
    | set h => exact .set (app_shape hz (.struct hp ho hk) h)
    | ptr hp' => have := hp.2.symm.trans hp'.2; cases this
    | map hp' => have := hp.2.symm.trans hp'.2; cases this
    | struct hp' h hk' =>
      have := hp.2.symm.trans hp'.2; cases this
      exact .struct hp (fun i f hf => ih i f hf (h i f hf)) fun i hi => by simp only [hk i hi, hk' i hi]; rfl
  | map hp hk =>
    cases h1 with
    | keep => exact .map hp hk
    | set h => exact .set (app_shape hz (.map hp hk) h)
    | ptr hp' => have := hp.2.symm.trans hp'.2; cases this
    | struct hp' => have := hp.2.symm.trans hp'.2; cases this
    | map hp' h => exact .map hp fun p hm => (List.mem_append.1 hm).elim (h p) (hk p)

/-! ### Doing it twice -/

/-- The map has an entry with this key. -/
def Has (k : Val) (m : List (Val × Val)) : Prop := ∃ p ∈ m, p.1.goEq k = true

theorem put_has {k v q : Val} {m : List (Val × Val)} (h : Has q m) : Has q (mapInsert k v m) := by
  obtain ⟨p, hp, hq⟩ := h
  induction m with
  | nil => cases hp
  | cons e m ih =>
    unfold mapInsert
    split
    · rename_i he
      rcases List.mem_cons.1 hp with rfl | hp
      · exact ⟨_, List.mem_cons_self, goEq_trans (goEq_symm he) hq⟩
      · exact ⟨p, List.mem_cons_of_mem _ hp, hq⟩
    · rcases List.mem_cons.1 hp with rfl | hp
      · exact ⟨_, List.mem_cons_self, hq⟩
      · obtain ⟨p', h1, h2⟩ := ih hp
        exact ⟨p', List.mem_cons_of_mem _ h1, h2⟩

theorem put_self {k v : Val} {m : List (Val × Val)} (hk : k.goEq k = true) : Has k (mapInsert k v m) := by
  induction m with
  | nil => exact ⟨_, List.mem_cons_self, hk⟩
  | cons e m ih =>
    unfold mapInsert
    split
    · exact ⟨_, List.mem_cons_self, hk⟩
    · obtain ⟨p', h1, h2⟩ := ih
      exact ⟨p', List.mem_cons_of_mem _ h1, h2⟩

/-- The later of two values for a key counts. -/
theorem put_put {k k' v v' : Val} {m : List (Val × Val)} (h : k'.goEq k = true) : mapInsert k v (mapInsert k' v' m) = mapInsert k v m := by
  induction m with
  | nil => simp [mapInsert, h]
  | cons e m ih =>
    obtain ⟨a, x⟩ := e
    simp only [mapInsert]
    by_cases ha : a.goEq k' = true
    · rw [if_pos ha, if_pos (goEq_trans ha h)]
      simp [mapInsert, h]
    · have : ¬ a.goEq k = true := fun h' => ha (goEq_trans h' (goEq_symm h))
      rw [if_neg ha, if_neg this]
      simp [mapInsert, this, ih]

/-- Different keys that are both present can be written in any order. -/
theorem put_comm {k k' v v' : Val} {m : List (Val × Val)} (h : ¬ k'.goEq k = true) (hk : Has k m) (hk' : Has k' m) :
    mapInsert k' v' (mapInsert k v m) = mapInsert k v (mapInsert k' v' m) := by
  induction m with
  | nil => obtain ⟨p, hp, -⟩ := hk; cases hp
  | cons e m ih =>
    obtain ⟨a, x⟩ := e
    have hn : ¬ k.goEq k' = true := fun h' => h (goEq_symm h')
    by_cases ha : a.goEq k = true
    · have ha' : ¬ a.goEq k' = true := fun h' => h (goEq_trans (goEq_symm h') ha)
      simp [mapInsert, ha, ha', hn]
    · by_cases ha' : a.goEq k' = true
      · simp [mapInsert, ha, ha', h]
      · have hk1 : Has k m := by
          obtain ⟨p, hp, hq⟩ := hk
          rcases List.mem_cons.1 hp with rfl | hp
          · exact absurd hq ha
          · exact ⟨p, hp, hq⟩
        have hk2 : Has k' m := by
          obtain ⟨p, hp, hq⟩ := hk'
          rcases List.mem_cons.1 hp with rfl | hp
          · exact absurd hq ha'
          · exact ⟨p, hp, hq⟩
        simp [mapInsert, ha, ha', ih hk1 hk2]

theorem put_absent {k v : Val} {m : List (Val × Val)} (h : ¬ Has k m) : mapInsert k v m = m ++ [(k, v)] := by
  induction m with
  | nil => rfl
  | cons e m ih =>
    obtain ⟨a, x⟩ := e
    have ha : ¬ a.goEq k = true := fun h' => h ⟨_, List.mem_cons_self, h'⟩
    simp [mapInsert, ha, ih fun ⟨p, hp, hq⟩ => h ⟨p, List.mem_cons_of_mem _ hp, hq⟩]

theorem put_present {k v : Val} {m r : List (Val × Val)} (h : Has k m) : mapInsert k v (m ++ r) = mapInsert k v m ++ r := by
  induction m with
  | nil => obtain ⟨p, hp, -⟩ := h; cases hp
  | cons e m ih =>
    obtain ⟨a, x⟩ := e
    by_cases ha : a.goEq k = true
    · simp [mapInsert, ha]
    · have hk1 : Has k m := by
        obtain ⟨p, hp, hq⟩ := h
        rcases List.mem_cons.1 hp with rfl | hp
        · exact absurd hq ha
        · exact ⟨p, hp, hq⟩
      simp [mapInsert, ha, ih hk1]

theorem putAll_has {kvs m : List (Val × Val)} {q : Val} (h : Has q m) : Has q (putAll kvs m) := by
  induction kvs generalizing m with
  | nil => exact h
  | cons p kvs ih => exact ih (put_has h)

theorem putAll_self {kvs m : List (Val × Val)} (hr : ∀ p ∈ kvs, p.1.goEq p.1 = true) : ∀ p ∈ kvs, Has p.1 (putAll kvs m) := by
  induction kvs generalizing m with
  | nil => intro p hp; cases hp
  | cons a kvs ih =>
    intro p hp
    rcases List.mem_cons.1 hp with rfl | hp
    · show Has p.1 (putAll kvs (mapInsert p.1 p.2 m))
      exact putAll_has (put_self (hr _ List.mem_cons_self))
    · exact ih (fun p hp => hr p (List.mem_cons_of_mem _ hp)) p hp

theorem putAll_present {kvs m r : List (Val × Val)} (h : ∀ p ∈ kvs, Has p.1 m) : putAll kvs (m ++ r) = putAll kvs m ++ r := by
  induction kvs generalizing m with
  | nil => rfl
  | cons a kvs ih =>
    show putAll kvs (mapInsert a.1 a.2 (m ++ r)) = putAll kvs (mapInsert a.1 a.2 m) ++ r
    rw [put_present (h a List.mem_cons_self), ih fun p hp => put_has (h p (List.mem_cons_of_mem _ hp))]

/-- An insertion that is repeated at the end need not be done at the start. -/
theorem putAll_absorb {kvs m : List (Val × Val)} {k v : Val} (h : ∀ p ∈ kvs, Has p.1 m) (hk : Has k m) :
    mapInsert k v (putAll kvs (mapInsert k v m)) = mapInsert k v (putAll kvs m) := by
  induction kvs generalizing m with
  | nil =>
    obtain ⟨p, hp, hq⟩ := hk
    exact put_put (goEq_trans (goEq_symm hq) hq)
  | cons a kvs ih =>
    show mapInsert k v (putAll kvs (mapInsert a.1 a.2 (mapInsert k v m))) = mapInsert k v (putAll kvs (mapInsert a.1 a.2 m))
    by_cases ha : a.1.goEq k = true
    · rw [put_put (goEq_symm ha)]
    · rw [put_comm ha hk (h a List.mem_cons_self), ih (fun p hp => put_has (h p (List.mem_cons_of_mem _ hp))) (put_has hk)]

theorem putAll_twice {kvs m : List (Val × Val)} (hr : ∀ p ∈ kvs, p.1.goEq p.1 = true) : putAll kvs (putAll kvs m) = putAll kvs m := by
  suffices ∀ n kvs, kvs.length = n → (∀ p ∈ kvs, p.1.goEq p.1 = true) → putAll kvs (putAll kvs m) = putAll kvs m from this _ kvs rfl hr
  clear hr kvs
  intro n
  induction n with
  | zero => intro kvs hl _; rw [List.length_eq_zero_iff.1 hl]; rfl
  | succ n ih =>
    intro kvs hl hr
    obtain ⟨xs, a, rfl⟩ : ∃ xs a, kvs = xs ++ [a] := ⟨kvs.dropLast, kvs.getLast (by intro h; simp [h] at hl), (List.dropLast_concat_getLast _).symm⟩
    have hx : ∀ p ∈ xs, p.1.goEq p.1 = true := fun p hp => hr p (List.mem_append_left _ hp)
    have ih := ih xs (by simpa using hl) hx
    have ha : a.1.goEq a.1 = true := hr a (by simp)
    rw [putAll_append, putAll_append]
    show mapInsert a.1 a.2 (putAll xs (mapInsert a.1 a.2 (putAll xs m))) = mapInsert a.1 a.2 (putAll xs m)
    have hs := putAll_self (m := m) hx
    by_cases hp : Has a.1 (putAll xs m)
    · rw [putAll_absorb hs hp, ih]
    · have e : mapInsert a.1 a.2 (putAll xs m) = putAll xs m ++ [a] := put_absent hp
      rw [e, putAll_present hs, ih, ← e]
      exact put_put ha

theorem app_twice {t : Ty} {o : Ov} (h : OvTy W (fun k => k.goEq k = true) t o) (x : Val) : o.app (o.app x) = o.app x := by
  induction h generalizing x with
  | keep => rfl
  | set h => rfl
  | ptr hp _ ih => cases x <;> simp [Ov.app, ih]
  | struct hp _ hk ih =>
    rename_i id _ _
    cases x <;> try rfl
    rename_i vs
    simp only [Ov.app]
    congr 1
    apply List.ext_getElem?
    intro i
    simp only [List.getElem?_mapIdx]
    cases vs[i]? with
    | none => rfl
    | some v =>
      simp only [Option.map_some]
      congr 1
      cases hf : (W.fields id)[i]? with
      | none => rw [hk i hf]; rfl
      | some f => exact ih i f hf v
  | map hp hk => cases x <;> simp [Ov.app, putAll_twice hk]

/-! ### Every accepted document does such a thing -/

theorem Spec.InPlace.trans {a b c : Ty} (h1 : InPlace W a b) (h2 : InPlace W b c) : InPlace W a c := by
  induction h2 with
  | refl => exact h1
  | ptr _ h ih => exact .ptr ih h
  | field _ h1 h2 h3 ih => exact .field ih h1 h2 h3

/-- The keys stored for this kind of key are all in `K`. -/
def KeysIn (W : World) (K : Val → Prop) : KeyMode → Prop
  | .ofType k => ∀ n d x, KeyType W k → DecDoc W k n d (W.zero k) x → K x
  | .anyKey => False

/-- What is required of the types inside `t`. -/
def Tame (W : World) (K : Val → Prop) (t : Ty) : Prop :=
  ∀ t', InPlace W t t' → (∀ i, ¬ Plain W t' (.iface i)) ∧ (∀ k e, Plain W t' (.map k e) → KeysIn W K (.ofType k))

theorem Tame.ptr {t e : Ty} (h : Tame W K t) (hp : Plain W t (.ptr e)) : Tame W K e := fun t' ht => h t' ((InPlace.refl.ptr hp).trans ht)

theorem Tame.field {t : Ty} {id : Nat} {f : Field} (h : Tame W K t) (hp : Plain W t (.struct id)) (hf : f ∈ W.fields id) (hv : Visible f) :
    Tame W K f.ty := fun t' ht => h t' ((InPlace.refl.field hp hf hv).trans ht)

/-- The document acts on destinations of type `t` as the overlay says. -/
def Acts (W : World) (K : Val → Prop) (t : Ty) (n : Nat) (d : Doc) (rv v : Val) : Prop :=
  ∃ o, OvTy W K t o ∧ v = o.app rv ∧ ∀ rv', Slot W t rv' → DecDoc W t n d rv' (o.app rv')

/-- The overlays of the fields suit the struct. -/
def OvFields (W : World) (K : Val → Prop) (id : Nat) (os : Nat → Ov) : Prop :=
  (∀ (i : Nat) (f : Field), (W.fields id)[i]? = some f → OvTy W K f.ty (os i)) ∧ (∀ i, (W.fields id)[i]? = none → os i = .keep)

/-- The field values suit the struct. -/
def FieldShapes (W : World) (id : Nat) (vs : List Val) : Prop :=
  vs.length = (W.fields id).length ∧ ∀ (i : Nat) (f : Field) (v : Val), (W.fields id)[i]? = some f → vs[i]? = some v → Slot W f.ty v

def appFields (os : Nat → Ov) (vs : List Val) : List Val := vs.mapIdx fun i v => (os i).app v

theorem appFields_keep (vs : List Val) : appFields (fun _ => .keep) vs = vs := by
  apply List.ext_getElem?
  intro j
  simp only [appFields, List.getElem?_mapIdx]
  cases vs[j]? <;> rfl

def ActsFields (W : World) (K : Val → Prop) (id n : Nat) (es : List (Doc × Doc)) (vs vs' : List Val) : Prop :=
  ∃ os, OvFields W K id os ∧ vs' = appFields os vs ∧ ∀ us, FieldShapes W id us → DecFields W id n es us (appFields os us)

def ActsPairs (W : World) (K : Val → Prop) (km : KeyMode) (e : Ty) (n : Nat) (es : List (Doc × Doc)) (m m' : List (Val × Val)) : Prop :=
  ∃ kvs, (∀ p ∈ kvs, K p.1) ∧ m' = putAll kvs m ∧ ∀ m2, DecPairs W km e n es m2 (putAll kvs m2)

theorem acts_keep {t : Ty} {n : Nat} {d : Doc} {rv : Val} (h : ∀ rv', DecDoc W t n d rv' rv') : Acts W K t n d rv rv :=
  ⟨.keep, .keep, rfl, fun rv' _ => h rv'⟩

theorem acts_set {t : Ty} {n : Nat} {d : Doc} {rv v : Val} (hs : Slot W t v) (h : ∀ rv', DecDoc W t n d rv' v) : Acts W K t n d rv v :=
  ⟨.set v, .set hs, rfl, fun rv' _ => h rv'⟩

theorem appFields_step {os : Nat → Ov} {us : List Val} {i : Nat} {u : Val} {o : Ov} {t : Ty} (hu : us[i]? = some u) (ho : OvTy W K t o)
    (hos : OvTy W K t (os i)) :
    appFields os (us.set i (o.app u)) = appFields (fun j => if j = i then (os i).after o else os j) us := by
  apply List.ext_getElem?
  intro j
  have hi : i < us.length := by
    rcases Nat.lt_or_ge i us.length with h | h
    · exact h
    · rw [List.getElem?_eq_none h] at hu; cases hu
  simp only [appFields, List.getElem?_mapIdx, List.getElem?_set]
  by_cases hj : i = j
  · subst hj
    have hu' : us[i] = u := by rw [List.getElem?_eq_getElem hi] at hu; exact Option.some.inj hu
    simp [hi, hu', after_app ho hos]
  · have : ¬ j = i := fun h => hj h.symm
    simp [hj, this]

theorem fieldShapes_set (hz : ∀ t, Slot W t (W.zero t)) {id : Nat} {us : List Val} {i : Nat} {f : Field} {u : Val} {o : Ov} (h : FieldShapes W id us)
    (hf : (W.fields id)[i]? = some f) (hu : us[i]? = some u) (ho : OvTy W K f.ty o) : FieldShapes W id (us.set i (o.app u)) := by
  refine ⟨by simp [h.1], fun j g v hg hv => ?_⟩
  rw [List.getElem?_set] at hv
  by_cases hj : i = j
  · subst hj
    rw [if_pos rfl] at hv
    split at hv
    · cases hv
      rw [hf] at hg; cases hg
      exact app_shape hz ho (h.2 i f u hf hu)
    · cases hv
  · rw [if_neg hj] at hv
    exact h.2 j g v hg hv

theorem fieldShapes_get {id : Nat} {us : List Val} {i : Nat} {f : Field} (h : FieldShapes W id us) (hf : (W.fields id)[i]? = some f) :
    ∃ u, us[i]? = some u := by
  have : i < us.length := by
    rw [h.1]
    rcases Nat.lt_or_ge i (W.fields id).length with h | h
    · exact h
    · rw [List.getElem?_eq_none h] at hf; cases hf
  exact ⟨us[i], List.getElem?_eq_getElem this⟩

/-- One stored field, then the rest. -/
theorem actsFields_cons (hz : ∀ t, Slot W t (W.zero t)) {id n : Nat} {kd d : Doc} {es : List (Doc × Doc)} {vs vs' : List Val} {i : Nat} {f : Field} {v0 v : Val}
    {o : Ov} (hf : (W.fields id)[i]? = some f) (h0 : vs[i]? = some v0) (ho : OvTy W K f.ty o) (hv : v = o.app v0)
    (hd : ∀ us u us', us[i]? = some u → Slot W f.ty u → DecFields W id n es (us.set i (o.app u)) us' →
      DecFields W id n ((kd, d) :: es) us us')
    (ih : ActsFields W K id n es (vs.set i v) vs') : ActsFields W K id n ((kd, d) :: es) vs vs' := by
  obtain ⟨os, ⟨h1, h2⟩, h3, h4⟩ := ih
  subst hv
  refine ⟨fun j => if j = i then (os i).after o else os j, ⟨?_, ?_⟩, ?_, ?_⟩
  · intro j g hg
    dsimp only
    split
    · rename_i hj; subst hj
      rw [hf] at hg; cases hg
      exact after_ty hz ho (h1 _ _ hf)
    · exact h1 j g hg
  · intro j hj
    dsimp only
    split
    · rename_i hji; subst hji; rw [hf] at hj; cases hj
    · exact h2 j hj
  · rw [h3]; exact appFields_step h0 ho (h1 i f hf)
  · intro us hus
    obtain ⟨u, hu⟩ := fieldShapes_get hus hf
    rw [← appFields_step hu ho (h1 i f hf)]
    exact hd us u _ hu (hus.2 i f u hf hu) (h4 _ (fieldShapes_set hz hus hf hu ho))

theorem scalar_shape {t : Ty} (h : IsScalar W t) (v : Val) : Slot W t v := by
  rcases h with h | ⟨k, h⟩ | ⟨k, h⟩ | h | h <;> exact .leaf (by simp [h.2]) (by simp [h.2]) (by simp [h.2])

theorem wrapped_acts {t : Ty} {d : Doc} {rv v : Val} (hs : IsScalar W t) (h : Wrapped W t d rv v) :
    ∃ o, OvTy W K t o ∧ v = o.app rv ∧ ∀ rv', Wrapped W t d rv' (o.app rv') := by
  cases h with
  | null h => exact ⟨.keep, .keep, rfl, fun _ => .null h⟩
  | str h1 h2 => exact ⟨.set v, .set (scalar_shape hs v), rfl, fun _ => .str h1 h2⟩

theorem actsPairs_cons {km : KeyMode} {e : Ty} {n : Nat} {kd d : Doc} {es : List (Doc × Doc)} {k x : Val} {m m' : List (Val × Val)} (hk : K k)
    (hd : ∀ m2 m3, DecPairs W km e n es (mapInsert k x m2) m3 → DecPairs W km e n ((kd, d) :: es) m2 m3)
    (ih : ActsPairs W K km e n es (mapInsert k x m) m') : ActsPairs W K km e n ((kd, d) :: es) m m' := by
  obtain ⟨kvs, h1, h2, h3⟩ := ih
  refine ⟨(k, x) :: kvs, ?_, h2, fun m2 => hd m2 _ (h3 _)⟩
  intro p hp
  rcases List.mem_cons.1 hp with rfl | hp
  · exact hk
  · exact h1 p hp

set_option linter.unusedVariables false in
theorem decDoc_acts (hz : ∀ t, Slot W t (W.zero t)) (hK : K .ptrNil) {t : Ty} {n : Nat} {d : Doc} {rv v : Val} (h : DecDoc W t n d rv v)
    (hc : Tame W K t) : Acts W K t n d rv v := by
  refine DecDoc.rec (motive_1 := fun t n d rv v _ => Tame W K t → Acts W K t n d rv v) (motive_2 := fun _ _ _ _ _ _ => True)
    (motive_3 := fun _ _ _ _ _ _ => True) (motive_4 := fun km e n es m m' _ => KeysIn W K km → ActsPairs W K km e n es m m')
    (motive_5 := fun id n es vs vs' _ => (∀ f ∈ W.fields id, Visible f → Tame W K f.ty) → ActsFields W K id n es vs vs')
    ?_ ?_ ?_ ?_ ?_ ?_ ?_ ?_ ?_ ?_ ?_ ?_ ?_ ?_ ?_ ?_ ?_ ?_ ?_ ?_ ?_ ?_ ?_ ?_ ?_ ?_ ?_ ?_ ?_ ?_ ?_ ?_ ?_ ?_ ?_ ?_ ?_ ?_ ?_ ?_ ?_ ?_ ?_ ?_ ?_ ?_ ?_ ?_ ?_ ?_ ?_ ?_ ?_ ?_ ?_ h hc
  all_goals clear h hc
  · intro _ _ _ _ h _; exact acts_set (.unm h) fun _ => .unmNull h
  · intro _ _ _ _ _ _ h h1 h2 h3 _; exact acts_set (.unm h) fun _ => .unm h h1 h2 h3
  · intro _ _ _ _ h h1 _; exact acts_set (.ptrNil h) fun _ => .ptrNull h h1
  · intro t n e d v hp h1 h2 _ ih hc
    obtain ⟨o, ho, hv, ha⟩ := ih (hc.ptr hp)
    refine ⟨.ptr (W.zero e) o, .ptr hp ho, by simp [Ov.app, hv], fun rv' hs => ?_⟩
    cases hs with
    | unm h => rw [hp.1] at h; cases h
    | leaf h => exact absurd hp.2 (h _)
    | ptrNil => exact .ptrNew hp h1 h2 (ha _ (hz _))
    | ptr hp' h => have := hp.2.symm.trans hp'.2; cases this; exact .ptrOld hp h1 h2 (ha _ h)
    | mapNil hp' | map hp' | struct hp' => have := hp.2.symm.trans hp'.2; cases this
  · intro t n e d v0 v hp h1 h2 _ ih hc
    obtain ⟨o, ho, hv, ha⟩ := ih (hc.ptr hp)
    refine ⟨.ptr (W.zero e) o, .ptr hp ho, by simp [Ov.app, hv], fun rv' hs => ?_⟩
    cases hs with
    | unm h => rw [hp.1] at h; cases h
    | leaf h => exact absurd hp.2 (h _)
    | ptrNil => exact .ptrNew hp h1 h2 (ha _ (hz _))
    | ptr hp' h => have := hp.2.symm.trans hp'.2; cases this; exact .ptrOld hp h1 h2 (ha _ h)
    | mapNil hp' | map hp' | struct hp' => have := hp.2.symm.trans hp'.2; cases this
  · intro _ _ _ h _; exact acts_keep fun _ => .boolNull h
  · intro _ _ _ _ h _; exact acts_set (.leaf (by simp [h.2]) (by simp [h.2]) (by simp [h.2])) fun _ => .bool h
  · intro _ _ _ _ h _; exact acts_keep fun _ => .intNull h
  · intro _ _ _ _ _ _ h h1 h2 _; exact acts_set (.leaf (by simp [h.2]) (by simp [h.2]) (by simp [h.2])) fun _ => .int h h1 h2
  · intro _ _ _ _ h _; exact acts_keep fun _ => .uintNull h
  · intro _ _ _ _ _ h h1 h2 _; exact acts_set (.leaf (by simp [h.2]) (by simp [h.2]) (by simp [h.2])) fun _ => .uint h h1 h2
  · intro _ _ _ h _; exact acts_keep fun _ => .f32Null h
  · intro _ _ _ _ _ h h1 h2 h3 h4 _; exact acts_set (.leaf (by simp [h.2]) (by simp [h.2]) (by simp [h.2])) fun _ => .f32 h h1 h2 h3 h4
  · intro _ _ _ h _; exact acts_keep fun _ => .f64Null h
  · intro _ _ _ _ _ h h1 h2 h3 _; exact acts_set (.leaf (by simp [h.2]) (by simp [h.2]) (by simp [h.2])) fun _ => .f64 h h1 h2 h3
  · intro _ _ _ h _; exact acts_keep fun _ => .strNull h
  · intro _ _ _ _ _ h h1 _; exact acts_set (.leaf (by simp [h.2]) (by simp [h.2]) (by simp [h.2])) fun _ => .str h h1
  · intro _ _ _ _ h h1 _; exact acts_keep fun _ => .bytesNull h h1
  · intro _ _ _ _ _ _ h h1 h2 _; exact acts_set (.leaf (by simp [h.2]) (by simp [h.2]) (by simp [h.2])) fun _ => .bytes h h1 h2
  · intro _ _ _ _ h h1 _; exact acts_set (.leaf (by simp [h.2]) (by simp [h.2]) (by simp [h.2])) fun _ => .sliceNull h h1
  · intro _ _ _ _ h _; exact acts_set (.leaf (by simp [h.2]) (by simp [h.2]) (by simp [h.2])) fun _ => .sliceEmpty h
  · intro _ _ _ _ _ _ _ _ h h1 h2 h3 h4 h5 _ _
    exact acts_set (.leaf (by simp [h.2]) (by simp [h.2]) (by simp [h.2])) fun _ => .slice h h1 h2 h3 h4 h5
  · intro _ _ _ _ _ h _; exact acts_keep fun _ => .arrayNull h
  · intro _ _ _ _ _ h _; exact acts_set (.leaf (by simp [h.2]) (by simp [h.2]) (by simp [h.2])) fun _ => .arrayEmpty h
  · intro _ _ _ _ _ _ _ _ _ h h1 h2 h3 h4 _ _
    exact acts_set (.leaf (by simp [h.2]) (by simp [h.2]) (by simp [h.2])) fun _ => .array h h1 h2 h3 h4
  · intro _ _ _ _ _ h _; exact acts_set (.mapNil h) fun _ => .mapNull h
  · intro t n k e d cnt m es rv es0 es1 hp h1 h2 h3 _ ih hc
    obtain ⟨kvs, hk, hv, ha⟩ := ih ((hc t .refl).2 k e hp)
    refine ⟨.map kvs, .map hp hk, ?_, fun rv' hs => ?_⟩
    · cases h3 <;> simp [Ov.app, hv]
    · cases hs with
      | unm h => rw [hp.1] at h; cases h
      | leaf _ h => exact absurd hp.2 (h _ _)
      | mapNil => exact .map hp h1 h2 .nil (ha _)
      | map => exact .map hp h1 h2 .map (ha _)
      | ptrNil hp' | ptr hp' | struct hp' => have := hp.2.symm.trans hp'.2; cases this
  · intro _ _ _ _ h _; exact acts_keep fun _ => .structNull h
  · intro _ _ _ _ _ _ h h1 h2 _; exact acts_keep fun _ => .structEmpty h h1 h2
  · intro t n id d cnt es vs vs' hp h1 h2 h3 _ ih hc
    obtain ⟨os, ho, hv, ha⟩ := ih fun f hf hvis => hc.field hp hf hvis
    refine ⟨.struct os, .struct hp ho.1 ho.2, by simp [Ov.app, hv, appFields], fun rv' hs => ?_⟩
    cases hs with
    | unm h => rw [hp.1] at h; cases h
    | leaf _ _ h => exact absurd hp.2 (h _)
    | struct hp' hl h => have := hp.2.symm.trans hp'.2; cases this; exact .struct hp h1 h2 h3 (ha _ ⟨hl, h⟩)
    | ptrNil hp' | ptr hp' | mapNil hp' | map hp' => have := hp.2.symm.trans hp'.2; cases this
  · intro _ _ _ h _; exact acts_set (.leaf (by simp [h.2]) (by simp [h.2]) (by simp [h.2])) fun _ => .anyNull h
  · intro _ _ _ _ h _; exact acts_set (.leaf (by simp [h.2]) (by simp [h.2]) (by simp [h.2])) fun _ => .anyBool h
  · intro _ _ _ _ _ h h1 h2 _; exact acts_set (.leaf (by simp [h.2]) (by simp [h.2]) (by simp [h.2])) fun _ => .anyInt h h1 h2
  · intro _ _ _ _ _ h h1 h2 h3 _; exact acts_set (.leaf (by simp [h.2]) (by simp [h.2]) (by simp [h.2])) fun _ => .anyFloat h h1 h2 h3
  · intro _ _ _ _ _ h h1 _; exact acts_set (.leaf (by simp [h.2]) (by simp [h.2]) (by simp [h.2])) fun _ => .anyStr h h1
  · intro _ _ _ _ _ _ _ h h1 h2 _ _
    exact acts_set (.leaf (by simp [h.2]) (by simp [h.2]) (by simp [h.2])) fun _ => .anyArr h h1 h2
  · intro _ _ _ _ _ _ _ _ _ h h1 h2 h3 _ _
    exact acts_set (.leaf (by simp [h.2]) (by simp [h.2]) (by simp [h.2])) fun _ => .anyObj h h1 h2 h3
  · intro t _ i _ h hc; exact absurd h ((hc t .refl).1 i)
  · intro t _ i _ _ _ _ h _ _ _ _ hc; exact absurd h ((hc t .refl).1 i)
  · intros; trivial
  · intros; trivial
  · intros; trivial
  · intros; trivial
  · intros; trivial
  · intro _ _ _ m _; exact ⟨[], by simp, rfl, fun _ => .nil⟩
  · intro k e n kd d es kv x m m' h1 h2 h3 h4 h5 _ _ ih hc
    exact actsPairs_cons (hc _ _ _ h1 h2) (fun _ _ h => .key h1 h2 h3 h4 h) (ih hc)
  · intro k p e n d es x m m' h1 h2 h3 h4 h5 _ ih hc
    exact actsPairs_cons hK (fun _ _ h => .ptrKey h1 h2 h3 h4 h) (ih hc)
  · intro _ _ _ _ _ _ _ _ _ _ _ _ _ _ _ hc; exact hc.elim
  · intro _ _ _ _ _ _ _ _ _ _ _ _ _ _ hc; exact hc.elim
  · intro id n vs hc
    exact ⟨fun _ => .keep, ⟨fun _ _ _ => .keep, fun _ _ => rfl⟩, (appFields_keep vs).symm,
      fun us _ => by rw [appFields_keep]; exact .nil⟩
  · intro id n kd s d es vs vs' h1 h2 h3 _ ih hc
    obtain ⟨os, ho, hv, ha⟩ := ih hc
    exact ⟨os, ho, hv, fun us hus => .skip h1 h2 h3 (ha us hus)⟩
  · intro id n kd s i f d es vs v0 v vs' h1 h2 h3 h4 _ _ ih1 ih2 hc
    obtain ⟨o, ho, hv, ha⟩ := ih1 (hc f (List.mem_of_getElem? h2.1) h2.2.1)
    exact actsFields_cons hz h2.1 h4 ho hv (fun us u us' hu hs h => .plain h1 h2 h3 hu (ha u hs) h) (ih2 hc)
  · intro id n kd s i f d es vs v0 v vs' h1 h2 h3 h4 h5 h6 _ ih hc
    obtain ⟨o, ho, hv, ha⟩ := wrapped_acts (K := K) h4 h6
    exact actsFields_cons hz h2.1 h5 ho hv (fun us u us' hu hs h => .wrapped h1 h2 h3 h4 hu (ha u) h) (ih hc)
  · intro id n kd s i f e es vs v0 vs' h1 h2 h3 h4 h5 h6 _ ih hc
    exact actsFields_cons (o := .set .ptrNil) hz h2.1 h6 (.set (.ptrNil h4)) rfl
      (fun us u us' hu hs h => .wrappedPtrNull h1 h2 h3 h4 h5 hu h) (ih hc)
  · intro id n kd s i f e d es vs v0 b v vs' h1 h2 h3 h4 h5 h6 h7 h8 h9 _ ih hc
    obtain ⟨o, ho, hv, ha⟩ := wrapped_acts (K := K) h5 h9
    refine actsFields_cons (o := .ptr (W.zero e) o) hz h2.1 h6 (.ptr h4 ho) ?_ ?_ (ih hc)
    · rcases h7 with ⟨rfl, rfl⟩ | rfl <;> simp [Ov.app, hv]
    · intro us u us' hu hs h
      cases hs with
      | unm h => rw [h4.1] at h; cases h
      | leaf h => exact absurd h4.2 (h _)
      | ptrNil => exact .wrappedPtr h1 h2 h3 h4 h5 hu (.inl ⟨rfl, rfl⟩) h8 (ha _) h
      | ptr hp' _ => exact .wrappedPtr h1 h2 h3 h4 h5 hu (.inr rfl) h8 (ha _) h
      | mapNil hp' | map hp' | struct hp' => have := h4.2.symm.trans hp'.2; cases this

/-! ### Keys, and lists of entries -/

theorem shape_zero (hW : WorldOk W fun _ => True) (t : Ty) : Slot W t (W.zero t) := shape_of_hasTy (zero_hasTy hW t)

/-- Keys of maps whose key type is neither `any` nor an Unmarshaler are equal to themselves. -/
theorem key_refl (hW : WorldOk W fun _ => True) {k : Ty} (hu : W.unmOf k = none) (ha : W.resolve k ≠ .any) (hk : KeyType W k)
    {n : Nat} {d : Doc} {x : Val} (h : DecDoc W k n d (W.zero k) x) : x.goEq x = true := by
  have hz := zero_hasTy hW k
  have hzz : (W.zero k).goEq (W.zero k) = true ∨ ∃ i, W.resolve k = .iface i := by
    rcases hk with h | h | h | ⟨i, h⟩ | ⟨i, h⟩ | h | h
    · exact absurd hu h
    · generalize W.zero k = z at hz; cases hz <;> first | (simp_all; done) | (left; simp [Val.goEq])
    · generalize W.zero k = z at hz; cases hz <;> first | (simp_all; done) | (left; simp [Val.goEq])
    · generalize W.zero k = z at hz; cases hz <;> first | (simp_all; done) | (left; simp [Val.goEq])
    · generalize W.zero k = z at hz; cases hz <;> first | (simp_all; done) | (left; simp [Val.goEq])
    · exact absurd h ha
    · exact .inr h
  have hzi : ∀ i, W.resolve k = .iface i → W.zero k = .ifaceNil := by
    intro i hi
    cases k with
    | named id => exact hW.ifaceZero id i hi
    | iface j => rfl
    | _ => cases hi
  generalize hzd : W.zero k = z at *
  cases h
  case ifaceDyn h1 _ _ _ => have := hzi _ h1.2; cases this
  all_goals first
    | (simp [Val.goEq]; done)
    | (simp_all [Plain, KeyType]; done)

theorem decFields_append {id n : Nat} {es1 es2 : List (Doc × Doc)} {vs vs' : List Val} :
    DecFields W id n (es1 ++ es2) vs vs' ↔ ∃ us, DecFields W id n es1 vs us ∧ DecFields W id n es2 us vs' := by
  induction es1 generalizing vs with
  | nil =>
    constructor
    · intro h; exact ⟨vs, .nil, h⟩
    · rintro ⟨us, h1, h2⟩; cases h1; exact h2
  | cons p es1 ih =>
    constructor
    · intro h
      cases h with
      | skip a b c h => obtain ⟨us, h1, h2⟩ := ih.1 h; exact ⟨us, .skip a b c h1, h2⟩
      | plain a b c d e h => obtain ⟨us, h1, h2⟩ := ih.1 h; exact ⟨us, .plain a b c d e h1, h2⟩
      | wrapped a b c d e f h => obtain ⟨us, h1, h2⟩ := ih.1 h; exact ⟨us, .wrapped a b c d e f h1, h2⟩
      | wrappedPtrNull a b c d e f h => obtain ⟨us, h1, h2⟩ := ih.1 h; exact ⟨us, .wrappedPtrNull a b c d e f h1, h2⟩
      | wrappedPtr a b c d e f g i j h => obtain ⟨us, h1, h2⟩ := ih.1 h; exact ⟨us, .wrappedPtr a b c d e f g i j h1, h2⟩
    · rintro ⟨us, h, h2⟩
      cases h with
      | skip a b c h => exact .skip a b c (ih.2 ⟨us, h, h2⟩)
      | plain a b c d e h => exact .plain a b c d e (ih.2 ⟨us, h, h2⟩)
      | wrapped a b c d e f h => exact .wrapped a b c d e f (ih.2 ⟨us, h, h2⟩)
      | wrappedPtrNull a b c d e f h => exact .wrappedPtrNull a b c d e f (ih.2 ⟨us, h, h2⟩)
      | wrappedPtr a b c d e f g i j h => exact .wrappedPtr a b c d e f g i j (ih.2 ⟨us, h, h2⟩)

theorem decPairs_append {km : KeyMode} {e : Ty} {n : Nat} {es1 es2 : List (Doc × Doc)} {m m' : List (Val × Val)} :
    DecPairs W km e n (es1 ++ es2) m m' ↔ ∃ u, DecPairs W km e n es1 m u ∧ DecPairs W km e n es2 u m' := by
  induction es1 generalizing m with
  | nil =>
    constructor
    · intro h; exact ⟨m, .nil, h⟩
    · rintro ⟨us, h1, h2⟩; cases h1; exact h2
  | cons p es1 ih =>
    constructor
    · intro h
      cases h with
      | key a b c d h => obtain ⟨us, h1, h2⟩ := ih.1 h; exact ⟨us, .key a b c d h1, h2⟩
      | ptrKey a b c d h => obtain ⟨us, h1, h2⟩ := ih.1 h; exact ⟨us, .ptrKey a b c d h1, h2⟩
      | anyInt a b c h => obtain ⟨us, h1, h2⟩ := ih.1 h; exact ⟨us, .anyInt a b c h1, h2⟩
      | anyStr a b h => obtain ⟨us, h1, h2⟩ := ih.1 h; exact ⟨us, .anyStr a b h1, h2⟩
    · rintro ⟨us, h, h2⟩
      cases h with
      | key a b c d h => exact .key a b c d (ih.2 ⟨us, h, h2⟩)
      | ptrKey a b c d h => exact .ptrKey a b c d (ih.2 ⟨us, h, h2⟩)
      | anyInt a b c h => exact .anyInt a b c (ih.2 ⟨us, h, h2⟩)
      | anyStr a b h => exact .anyStr a b (ih.2 ⟨us, h, h2⟩)

end Verif

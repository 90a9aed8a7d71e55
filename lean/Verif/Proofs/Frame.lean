import Verif.Spec.Frame
import Verif.Proofs.DecFacts
/-
Decoding leaves fields alone that do not take part in serialization.
-/
set_option linter.unusedSimpArgs false
namespace Verif
open Spec

theorem Spec.Frame.trans {W : World} {t : Ty} {a b c : Val} (h : Frame W t a b) (h' : Frame W t b c) : Frame W t a c := by
  induction h' generalizing a with
  | same => exact h
  | @struct t id vs vs' hp hlen hi hv ih =>
    cases h with
    | same => exact .struct hp hlen hi hv
    | @struct _ id' vs0 _ hp' hlen' hi' hv' =>
      have : id' = id := by have := hp.2.symm.trans hp'.2; simpa using this.symm
      subst this
      refine .struct hp (hlen.trans hlen') (fun i f hf hn => (hi i f hf hn).trans (hi' i f hf hn)) ?_
      intro i f x z hf hvis hx hz
      have hlt : i < vs0.length := (List.getElem?_eq_some_iff.1 hx).1
      obtain ⟨y, hy⟩ : ∃ y, vs[i]? = some y := ⟨vs[i]'(by omega), List.getElem?_eq_getElem _⟩
      exact ih i f y z hf hvis hy hz (hv' i f x y hf hvis hx hy)
    | free h1 => exact absurd hp (h1 _)
  | ptrNil hp => exact .ptrNil hp
  | ptrNew hp hz => exact .ptrNew hp hz
  | @ptrOld t e v v' hp hv ih =>
    cases h with
    | same => exact .ptrOld hp hv
    | @ptrNew _ e' _ _ hp' hz' =>
      have : e' = e := by have := hp.2.symm.trans hp'.2; simpa using this.symm
      subst this
      exact .ptrNew hp (ih hz')
    | @ptrOld _ e' _ _ hp' hz' =>
      have : e' = e := by have := hp.2.symm.trans hp'.2; simpa using this.symm
      subst this
      exact .ptrOld hp (ih hz')
    | free h1 h2 => exact absurd hp (h2 _)
  | sliceNil hp => exact .sliceNil hp
  | slice hp hv => exact .slice hp hv
  | array hp hv => exact .array hp hv
  | mapNil hp => exact .mapNil hp
  | mapNew hp hv => exact .mapNew hp hv
  | @mapOld t k v es es' hp hv ih =>
    cases h with
    | same => exact .mapOld hp hv
    | @mapNew _ k' v' _ _ hp' hz' =>
      have : k' = k ∧ v' = v := by have := hp.2.symm.trans hp'.2; simp at this; exact ⟨this.1.symm, this.2.symm⟩
      obtain ⟨rfl, rfl⟩ := this
      exact .mapNew hp fun p hm => Classical.byCases (hz' p) (hv p hm)
    | @mapOld _ k' v' _ _ hp' hz' =>
      have : k' = k ∧ v' = v := by have := hp.2.symm.trans hp'.2; simp at this; exact ⟨this.1.symm, this.2.symm⟩
      obtain ⟨rfl, rfl⟩ := this
      exact .mapOld hp fun p hm hn => Classical.byCases (fun h => hz' p h hn) (hv p hm)
    | free h1 h2 h3 h4 h5 => exact absurd hp (h5 _ _)
  | free h1 h2 h3 h4 h5 => exact .free h1 h2 h3 h4 h5

/-- A run that keeps the frame of `a`, whatever its outcome. -/
def Fr (W : World) (t : Ty) (a : Val) {α : Type} (r : Val × Res α) : Prop := Frame W t a r.1

variable {W : World} {t : Ty} {a : Val}

theorem fr_onOk {α β : Type} {rv : Val} {r : Res α} {k : α → Val × Res β} (h : Frame W t a rv) (hk : ∀ x, Fr W t a (k x)) :
    Fr W t a (onOk rv r k) := by
  cases r with
  | ok x => exact hk x
  | err e => exact h
  | panic p => exact h
  | diverge => exact h

theorem fr_ite {α : Type} {c : Prop} [Decidable c] {x y : Val × Res α} (hx : Fr W t a x) (hy : Fr W t a y) :
    Fr W t a (if c then x else y) := by
  split
  · exact hx
  · exact hy

/-- Types whose values contain no struct fields to protect. -/
def FreeTy (W : World) (t : Ty) : Prop :=
  (∀ id, ¬ Plain W t (.struct id)) ∧ (∀ e, ¬ Plain W t (.ptr e)) ∧ (∀ e, ¬ Plain W t (.slice e)) ∧
  (∀ n e, ¬ Plain W t (.array n e)) ∧ (∀ k v, ¬ Plain W t (.map k v))

theorem FreeTy.frame (h : FreeTy W t) (a a' : Val) : Frame W t a a' := .free h.1 h.2.1 h.2.2.1 h.2.2.2.1 h.2.2.2.2

theorem freeTy_unm {id : Nat} (h : W.unmOf t = some id) : FreeTy W t := by
  refine ⟨?_, ?_, ?_, ?_, ?_⟩ <;> intros <;> simp [Plain, h]

theorem freeTy_of (h : ∀ k, W.resolve t = k → (∀ id, k ≠ .struct id) ∧ (∀ e, k ≠ .ptr e) ∧ (∀ e, k ≠ .slice e) ∧
    (∀ n e, k ≠ .array n e) ∧ (∀ x y, k ≠ .map x y)) : FreeTy W t := by
  obtain ⟨h1, h2, h3, h4, h5⟩ := h _ rfl
  exact ⟨fun id h => h1 id h.2, fun e h => h2 e h.2, fun e h => h3 e h.2, fun n e h => h4 n e h.2, fun k v h => h5 k v h.2⟩

theorem freeTy_scalar {e : Ty} (h : wrappable W e = true) : FreeTy W e := by
  refine freeTy_of fun k hk => ?_
  unfold wrappable at h
  split at h
  · simp at h
  · rw [hk] at h
    cases k <;> simp at h ⊢

theorem fr_ptrDecode {inner : Nat → Nat → Val → DR} {e : Ty} {buf : Bytes} {c depth : Nat} {rv : Val} (hp : Plain W t (.ptr e))
    (hi : ∀ c d v, Fr W e v (inner c d v)) : Fr W t rv (ptrDecode inner (W.zero e) buf c depth rv) := by
  unfold ptrDecode
  refine fr_onOk .same fun b => fr_ite (fr_onOk .same fun _ => Frame.ptrNil hp) ?_
  split
  · exact .ptrNew hp (hi _ _ _)
  · exact .ptrOld hp (hi _ _ _)
  · exact .same

/-- All values are framed by the zero value. -/
def AllZ (W : World) (e : Ty) (vs : List Val) : Prop := ∀ v ∈ vs, Frame W e (W.zero e) v

theorem allZ_replicate {e : Ty} {n : Nat} : AllZ W e (List.replicate n (W.zero e)) := by
  intro v hv
  rw [(List.mem_replicate.1 hv).2]
  exact .same

theorem allZ_append {e : Ty} {xs ys : List Val} (h : AllZ W e xs) (h' : AllZ W e ys) : AllZ W e (xs ++ ys) := by
  intro v hv
  rcases List.mem_append.1 hv with hv | hv
  · exact h v hv
  · exact h' v hv

theorem allZ_set {e : Ty} {xs : List Val} {i : Nat} {v0 v : Val} (h : AllZ W e xs) (h0 : xs[i]? = some v0) (hv : Frame W e v0 v) :
    AllZ W e (xs.set i v) := by
  intro x hx
  rcases List.mem_or_eq_of_mem_set hx with hx | rfl
  · exact h x hx
  · exact (h v0 (List.mem_of_getElem? h0)).trans hv

theorem fr_sliceLoop {dec : Nat → Val → DR} {e : Ty} {es : Nat} {buf : Bytes} (hp : Plain W t (.slice e))
    (hd : ∀ c v, Fr W e v (dec c v)) (f : Nat) (c : Nat) (slice : List Val) (rv : Val) (hs : AllZ W e slice) (hrv : Frame W t a rv) :
    Fr W t a (sliceLoop dec (W.zero e) es buf f c slice rv) := by
  induction f generalizing c slice rv with
  | zero => exact hrv
  | succ f ih =>
    unfold sliceLoop
    refine fr_ite hrv (fr_onOk hrv ?_)
    rintro ⟨i, c⟩
    dsimp only
    refine fr_ite hrv (fr_ite hrv ?_)
    have hs' : AllZ W e (if decide (i ≥ slice.length) = true then slice ++ List.replicate (i + 1 - slice.length) (W.zero e) else slice) := by
      split
      · exact allZ_append hs allZ_replicate
      · exact hs
    generalize (if decide (i ≥ slice.length) = true then slice ++ List.replicate (i + 1 - slice.length) (W.zero e) else slice) = sl at hs'
    split
    · exact hrv
    · rename_i v0 h0
      have hz := allZ_set hs' h0 (hd c v0)
      refine fr_onOk ?_ fun c' => ?_
      · split
        · exact hrv
        · exact .slice hp hz
      · refine fr_ite (.slice hp hz) (fr_onOk (.slice hp hz) fun b => fr_ite (.slice hp hz) ?_)
        exact ih _ _ _ hz (.slice hp hz)

theorem fr_sliceDecode {dec : Nat → Nat → Val → DR} {e : Ty} {es : Nat} {buf : Bytes} {c depth : Nat} {rv : Val} (hp : Plain W t (.slice e))
    (hd : ∀ c d v, Fr W e v (dec c d v)) : Fr W t rv (sliceDecode dec (W.zero e) es buf c depth rv) := by
  unfold sliceDecode
  refine fr_ite .same (fr_ite .same (fr_onOk .same fun b => fr_ite (fr_onOk .same fun _ => .sliceNil hp) (fr_ite ?_ (fr_ite .same .same))))
  refine fr_ite .same (fr_onOk .same fun b => fr_ite .same (fr_ite .same (fr_onOk .same fun b => fr_ite (fr_onOk .same fun _ => .sliceNil hp) ?_)))
  refine fr_onOk .same ?_
  rintro ⟨n, c⟩
  refine fr_ite .same (fr_onOk .same fun b => fr_ite .same (fr_ite .same ?_))
  exact fr_sliceLoop hp (fun c v => hd c _ v) _ _ _ _ (by simp [AllZ]) .same

theorem fr_arrayLoop {dec : Nat → Val → DR} {skip : Nat → Res Nat} {n : Nat} {e : Ty} {buf : Bytes} (hp : Plain W t (.array n e))
    (hd : ∀ c v, Fr W e v (dec c v)) (f : Nat) (c : Nat) (vs : List Val) (hs : AllZ W e vs) :
    Fr W t a (arrayLoop dec skip buf f c vs) := by
  induction f generalizing c vs with
  | zero => exact .array hp hs
  | succ f ih =>
    unfold arrayLoop
    refine fr_ite (.array hp hs) (fr_onOk (.array hp hs) ?_)
    rintro ⟨i, c⟩
    dsimp only
    refine fr_ite (.array hp hs) ?_
    have key : ∀ p : List Val × Res Nat, AllZ W e p.1 → Fr W t a (match p with
      | (vs, r) => onOk (.arr vs) r fun c =>
        if !hasByte buf c then (.arr vs, .err (.unexpectedEnd "array" c)) else
        onOk (.arr vs) (idx buf c) fun b =>
        if b = cRBrace then (.arr vs, .ok (c + 1)) else
        arrayLoop dec skip buf f c vs) := by
      rintro ⟨vs, r⟩ hz
      refine fr_onOk (.array hp hz) fun c => fr_ite (.array hp hz) (fr_onOk (.array hp hz) fun b => fr_ite (.array hp hz) ?_)
      exact ih _ _ hz
    refine key _ ?_
    split
    · rename_i v0 h0
      exact allZ_set hs h0 (hd c v0)
    · exact hs

theorem fr_arrayDecode {dec : Nat → Nat → Val → DR} {n : Nat} {e : Ty} {buf : Bytes} {c depth : Nat} {rv : Val} (hp : Plain W t (.array n e))
    (hd : ∀ c d v, Fr W e v (dec c d v)) : Fr W t rv (arrayDecode dec (W.zero e) n buf c depth rv) := by
  unfold arrayDecode
  have hz : Frame W t rv (.arr (List.replicate n (W.zero e))) := .array hp allZ_replicate
  refine fr_ite .same (fr_ite .same (fr_onOk .same fun b => fr_ite (fr_onOk .same fun _ => .same) (fr_ite ?_ .same)))
  refine fr_ite .same (fr_onOk .same fun b => fr_ite .same (fr_ite hz (fr_onOk hz fun b => fr_ite (fr_onOk hz fun _ => hz) ?_)))
  refine fr_onOk hz ?_
  rintro ⟨m, c⟩
  refine fr_ite hz (fr_onOk hz fun b => fr_ite hz ?_)
  exact fr_arrayLoop hp (fun c v => hd c _ v) _ _ _ allZ_replicate

theorem mem_mapInsert {k v : Val} {es : List (Val × Val)} {p : Val × Val} (h : p ∈ mapInsert k v es) : p ∈ es ∨ p.2 = v := by
  induction es with
  | nil => simp [mapInsert] at h; right; rw [h]
  | cons e es ih =>
    obtain ⟨k', v'⟩ := e
    unfold mapInsert at h
    split at h
    · rcases List.mem_cons.1 h with h | h
      · right; rw [h]
      · left; exact List.mem_cons_of_mem _ h
    · rcases List.mem_cons.1 h with h | h
      · left; rw [h]; simp
      · rcases ih h with h | h
        · left; exact List.mem_cons_of_mem _ h
        · right; exact h

theorem fr_mapLoop {kd vd : Nat → DR} {k e : Ty} {buf : Bytes} (hp : Plain W t (.map k e))
    (hd : ∀ c, Frame W e (W.zero e) (vd c).1) (f : Nat) (c : Nat) (es : List (Val × Val)) (h : Frame W t a (.map es)) :
    Fr W t a (mapLoop kd vd buf f c es) := by
  induction f generalizing c es with
  | zero => exact h
  | succ f ih =>
    unfold mapLoop
    refine fr_ite h ?_
    cases hk : kd c with
    | mk kv r =>
      dsimp only
      refine fr_onOk h fun c => fr_ite h ?_
      cases hv : vd c with
      | mk v r =>
        dsimp only
        refine fr_onOk h fun c' => fr_ite h ?_
        have h' : Frame W t a (.map (mapInsert kv v es)) := by
          refine h.trans (.mapOld hp fun p hm hn => ?_)
          rw [(mem_mapInsert hm).resolve_left hn]; have := hd c; rw [hv] at this; exact this
        refine fr_ite h' (fr_onOk h' fun b => fr_ite h' (ih _ _ h'))

theorem fr_mapDecode {kd vd : Nat → Nat → DR} {k e : Ty} {buf : Bytes} {c depth : Nat} {rv : Val} (hp : Plain W t (.map k e))
    (hd : ∀ c d, Frame W e (W.zero e) (vd c d).1) : Fr W t rv (mapDecode kd vd buf c depth rv) := by
  unfold mapDecode
  refine fr_ite .same (fr_ite .same (fr_onOk .same fun b => fr_ite (fr_onOk .same fun _ => .mapNil hp) ?_))
  refine fr_onOk .same fun c => fr_onOk .same ?_
  rintro ⟨n, c⟩
  refine fr_ite .same (fr_onOk .same fun b => fr_ite .same ?_)
  split
  · exact .same
  · rename_i es hes
    have h : Frame W t rv (.map es) := by
      cases rv <;> simp [mapEntries] at hes
      · subst hes; exact .mapNew hp (by simp)
      · subst hes; exact .same
    refine fr_ite h (fr_onOk h fun b => fr_ite h ?_)
    exact fr_mapLoop hp (fun c => hd c _) _ _ _ h

/-- The field sets of a struct belong to visible fields. -/
theorem decodeKey_field {id : Nat} {buf : Bytes} {c c' : Nat} {s : FieldSet}
    (h : decodeKey (fieldSets W 0 (W.fields id)) buf c = .ok (some s, c')) :
    ∃ f, (W.fields id)[s.idx]? = some f ∧ Visible f ∧ s.ty = f.ty := by
  unfold decodeKey at h
  obtain ⟨⟨ob, c1⟩, -, h2⟩ := Res.bind_eq_ok.1 h
  simp at h2
  obtain ⟨i, f, hf, rfl⟩ := find_some h2.1
  exact ⟨f, by simpa [mkSet] using hf.1, hf.2.1, rfl⟩

theorem frame_set {id i : Nat} {f : Field} {vs : List Val} {v0 v : Val} (hp : Plain W t (.struct id)) (hf : (W.fields id)[i]? = some f)
    (hvis : Visible f) (h0 : vs[i]? = some v0) (hv : Frame W f.ty v0 v) : Frame W t (.struct vs) (.struct (vs.set i v)) := by
  refine .struct hp (by simp) ?_ ?_
  · intro j g hg hn
    refine List.getElem?_set_ne ?_
    rintro rfl
    rw [hf] at hg; cases hg
    exact hn hvis
  · intro j g x y hg _ hx hy
    by_cases hij : i = j
    · subst hij
      rw [hf] at hg; cases hg
      rw [h0] at hx; cases hx
      rw [List.getElem?_set_self (List.getElem?_eq_some_iff.1 h0).1] at hy
      cases hy
      exact hv
    · rw [List.getElem?_set_ne hij, hx] at hy
      cases hy
      exact .same

theorem fr_structLoop {id : Nat} {dec : FieldSet → Nat → Val → DR} {skip : Nat → Res Nat} {buf : Bytes} (hp : Plain W t (.struct id))
    (hd : ∀ s c v, Fr W s.ty v (dec s c v)) (f : Nat) (c : Nat) (vs : List Val) (h : Frame W t a (.struct vs)) :
    Fr W t a (structLoop (fieldSets W 0 (W.fields id)) dec skip buf f c vs) := by
  induction f generalizing c vs with
  | zero => exact h
  | succ f ih =>
    unfold structLoop
    refine fr_ite h ?_
    cases hk : decodeKey (fieldSets W 0 (W.fields id)) buf c with
    | err e => exact h
    | panic p => exact h
    | diverge => exact h
    | ok r =>
      obtain ⟨fld, c'⟩ := r
      simp only [onOk]
      refine fr_ite h ?_
      have key : ∀ p : List Val × Res Nat, Frame W t a (.struct p.1) → Fr W t a (match p with
        | (vs, r) => onOk (.struct vs) r fun c =>
          if !hasByte buf c then (.struct vs, .err (.unexpectedEnd "object" c)) else
          onOk (.struct vs) (idx buf c) fun b =>
          if b = cRBrace then (.struct vs, .ok (c + 1)) else
          structLoop (fieldSets W 0 (W.fields id)) dec skip buf f c vs) := by
        rintro ⟨vs, r⟩ hz
        exact fr_onOk hz fun c => fr_ite hz (fr_onOk hz fun b => fr_ite hz (ih _ _ hz))
      refine key _ ?_
      cases fld with
      | none => exact h
      | some s =>
        obtain ⟨g, hg, hvis, hty⟩ := decodeKey_field hk
        dsimp only
        split
        · rename_i v0 h0
          refine h.trans (frame_set hp hg hvis h0 ?_)
          rw [← hty]; exact hd s c' v0
        · exact h

theorem fr_structDecode {id : Nat} {dec : FieldSet → Nat → Nat → Val → DR} {buf : Bytes} {c depth : Nat} {rv : Val} (hp : Plain W t (.struct id))
    (hd : ∀ s c d v, Fr W s.ty v (dec s c d v)) : Fr W t rv (structDecode (fieldSets W 0 (W.fields id)) dec buf c depth rv) := by
  unfold structDecode
  refine fr_ite .same (fr_ite .same (fr_onOk .same fun b => fr_ite (fr_onOk .same fun _ => .same) ?_))
  refine fr_onOk .same fun c => fr_ite .same (fr_onOk .same fun b => fr_ite .same (fr_onOk .same fun c => ?_))
  refine fr_ite .same (fr_onOk .same fun b => fr_ite .same (fr_ite .same (fr_onOk .same fun b => fr_ite .same ?_)))
  split
  · exact fr_structLoop hp (fun s c v => hd s c _ v) _ _ _ .same
  · exact .same

theorem fr_fieldDecode {rec : Ty → Nat → Nat → Val → DR} {buf : Bytes} {s : FieldSet} {c depth : Nat} {rv : Val}
    (hr : ∀ t c d v, Fr W t v (rec t c d v)) : Fr W s.ty rv (fieldDecode W rec buf s c depth rv) := by
  unfold fieldDecode
  refine fr_ite ?_ (hr _ _ _ _)
  split
  · rename_i e he
    by_cases hu : W.unmOf s.ty = none
    · by_cases hw : wrappable W e = true
      · rw [if_pos hw]
        exact fr_ptrDecode ⟨hu, he⟩ fun c d v => (freeTy_scalar hw).frame _ _
      · rw [if_neg hw]; exact .same
    · obtain ⟨i, hi⟩ := Option.ne_none_iff_exists'.1 hu
      exact (freeTy_unm hi).frame _ _
  · by_cases hw : wrappable W s.ty = true
    · exact (freeTy_scalar hw).frame _ _
    · rw [if_neg hw]; exact .same

theorem fr_nonPtr {rec : Ty → Nat → Nat → Val → DR} {buf : Bytes} {c depth : Nat} {rv : Val}
    (hr : ∀ t c d v, Fr W t v (rec t c d v)) : Fr W t rv (decodeNonPtr W rec buf t c depth rv) := by
  unfold decodeNonPtr
  cases hu : W.unmOf t with
  | some id => exact (freeTy_unm hu).frame _ _
  | none =>
    dsimp only
    have free : ∀ k, W.resolve t = k → ((∀ id, k ≠ .struct id) ∧ (∀ e, k ≠ .ptr e) ∧ (∀ e, k ≠ .slice e) ∧
        (∀ n e, k ≠ .array n e) ∧ (∀ x y, k ≠ .map x y)) → ∀ r : DR, Fr W t rv r := fun k hk h r =>
      (freeTy_of (by rintro _ rfl; rw [hk]; exact h)).frame _ _
    cases hk : W.resolve t <;> dsimp only
    case slice e =>
      refine (Classical.em (W.isByte e = true)).elim (fun hb => ?_) fun hb => by rw [if_neg hb]; exact fr_sliceDecode ⟨hu, hk⟩ (hr e)
      rw [if_pos hb]
      unfold bytesDecode
      refine fr_onOk .same fun b => fr_ite (fr_sliceDecode ⟨hu, hk⟩ (hr e)) (fr_onOk .same ?_)
      rintro ⟨ob, c⟩
      cases ob with
      | none => exact .same
      | some s =>
        refine .slice ⟨hu, hk⟩ fun v _ => ?_
        have he : W.resolve e = .uint .u8 := by simpa [World.isByte] using hb
        exact (freeTy_of (by rintro _ rfl; rw [he]; simp)).frame _ _
    case array n e => exact fr_arrayDecode ⟨hu, hk⟩ (hr e)
    case map k v => exact fr_mapDecode ⟨hu, hk⟩ fun c d => hr v c d _
    case struct id => exact fr_structDecode ⟨hu, hk⟩ fun s c d v => fr_fieldDecode hr
    case ptr e => exact .same
    all_goals exact free _ hk (by simp) _

/-- Decoding keeps the frame, whatever the input and the outcome. -/
theorem fr_decodeF {buf : Bytes} {f : Nat} {c depth : Nat} {rv : Val} : Fr W t rv (decodeF W buf f t c depth rv) := by
  induction f generalizing t c depth rv with
  | zero => exact .same
  | succ f ih =>
    unfold decodeF
    split
    · rename_i e hu hk
      exact fr_ite .same (fr_ptrDecode ⟨hu, hk⟩ fun c d v => fr_nonPtr fun t c d v => ih)
    · exact fr_nonPtr fun t c d v => ih

/-- For maps, only count and entries of the container matter. -/
theorem decDoc_map_iff {W : World} {t k e : Ty} {n : Nat} {d : Doc} {cnt : Bytes} {es : List (Doc × Doc)} {rv v : Val}
    (hp : Plain W t (.map k e)) (hc : Container d cnt es) :
    DecDoc W t n d rv v ↔ ∃ m l es0 es1, n = m + 1 ∧ LenText cnt l ∧ MapBase rv es0 ∧ v = .map es1 ∧ DecPairs W (.ofType k) e m es es0 es1 := by
  obtain ⟨hu, hr⟩ := hp
  constructor
  · intro h
    cases h
    case map n' k' e' cnt' m es' es0 es1 h1 h3 hp' hc' h2 =>
      cases (hr.symm.trans hp'.2)
      obtain ⟨rfl, rfl⟩ := container_inj hc hc'
      exact ⟨_, _, _, _, rfl, h1, h2, rfl, h3⟩
    all_goals first | (cases hc; done) | (simp_all [Plain]; done)
  · rintro ⟨m, l, es0, es1, rfl, h1, h2, rfl, h3⟩
    exact .map ⟨hu, hr⟩ hc h1 h2 h3

end Verif

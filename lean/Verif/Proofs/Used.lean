import Verif.Spec.Used
import Verif.Proofs.Overlay
import Verif.Proofs.EncDocs
import Verif.Proofs.Trip
/-
Lemmas about documents that replace all that a variable holds.
-/
namespace Verif
open Spec

variable {W : World}

theorem plain_ne {t a b : Ty} (h : Plain W t a) (h' : Plain W t b) : a = b := h.2.symm.trans h'.2

/-- Closes the cases of a decoding that belong to other types. -/
macro "other_type" hp:ident : tactic => `(tactic| first
  | (exfalso; have h1 := plain_ne $hp ‹Plain _ _ _›; cases h1; done)
  | (exfalso; have h1 := ‹World.unmOf _ _ = some _›; have h2 := And.left $hp; rw [h2] at h1; cases h1; done))

theorem replaces_scalar {t : Ty} {n : Nat} {d : Doc} {v1 v2 w : Val} (hs : IsScalar W t) (hd : d ≠ .null) (h : DecDoc W t n d v1 w) : DecDoc W t n d v2 w := by
  rcases hs with hp | ⟨k, hp⟩ | ⟨k, hp⟩ | hp | hp
  · rcases (decDoc_bool hp).1 h with ⟨h, -⟩ | h
    · exact absurd h hd
    · exact (decDoc_bool hp).2 (.inr h)
  · rcases (decDoc_int hp).1 h with ⟨h, -⟩ | h
    · exact absurd h hd
    · exact (decDoc_int hp).2 (.inr h)
  · rcases (decDoc_uint hp).1 h with ⟨h, -⟩ | h
    · exact absurd h hd
    · exact (decDoc_uint hp).2 (.inr h)
  · rcases (decDoc_f32 hp).1 h with ⟨h, -⟩ | h
    · exact absurd h hd
    · exact (decDoc_f32 hp).2 (.inr h)
  · rcases (decDoc_f64 hp).1 h with ⟨h, -⟩ | h
    · exact absurd h hd
    · exact (decDoc_f64 hp).2 (.inr h)

theorem replaces_slice {t e : Ty} {n : Nat} {d : Doc} {v1 v2 w : Val} (hp : Plain W t (.slice e)) (hd : W.isByte e = true → d ≠ .null) (h : DecDoc W t n d v1 w) :
    DecDoc W t n d v2 w := by
  cases h <;> try other_type hp
  case bytesNull => have h1 := plain_ne hp ‹Plain W t _›; cases h1; exact absurd rfl (hd ‹_›)
  case bytes => exact .bytes ‹_› ‹_› ‹_›
  case sliceNull => exact .sliceNull ‹_› ‹_›
  case sliceEmpty => exact .sliceEmpty ‹_›
  case slice => exact .slice ‹_› ‹_› ‹_› ‹_› ‹_› ‹_›

theorem replaces_array {t e : Ty} {l n : Nat} {d : Doc} {v1 v2 w : Val} (hp : Plain W t (.array l e)) (hd : d ≠ .null) (h : DecDoc W t n d v1 w) :
    DecDoc W t n d v2 w := by
  cases h <;> try other_type hp
  case arrayNull => exact absurd rfl hd
  case arrayEmpty => exact .arrayEmpty ‹_›
  case array => exact .array ‹_› ‹_› ‹_› ‹_› ‹_›

theorem replaces_any {t : Ty} {n : Nat} {d : Doc} {v1 v2 w : Val} (hp : Plain W t .any) (h : DecDoc W t n d v1 w) : DecDoc W t n d v2 w := by
  cases h <;> try other_type hp
  case anyNull => exact .anyNull ‹_›
  case anyBool => exact .anyBool ‹_›
  case anyInt => exact .anyInt ‹_› ‹_› ‹_›
  case anyFloat => exact .anyFloat ‹_› ‹_› ‹_› ‹_›
  case anyStr => exact .anyStr ‹_› ‹_›
  case anyArr => exact .anyArr ‹_› ‹_› ‹_›
  case anyObj => exact .anyObj ‹_› ‹_› ‹_› ‹_›

theorem replaces_unm {t : Ty} {id n : Nat} {d : Doc} {v1 v2 w : Val} (hu : W.unmOf t = some id) (h : DecDoc W t n d v1 w) : DecDoc W t n d v2 w := by
  cases h <;> try (have h1 := And.left ‹Plain W t _›; rw [hu] at h1; cases h1; done)
  case unmNull => exact .unmNull ‹_›
  case unm => exact .unm ‹_› ‹_› ‹_› ‹_›

/-- The two lists of field values agree at `i`, or what follows has an entry for that field. -/
def Agree (W : World) (id : Nat) (es : List (Doc × Doc)) (us vs : List Val) (i : Nat) : Prop :=
  us[i]? = vs[i]? ∨ ((∃ kd dv s f, (kd, dv) ∈ es ∧ FieldKey kd s ∧ FieldFor W id s i f) ∧
    ∀ (f : Field) (v u : Val), (W.fields id)[i]? = some f → vs[i]? = some v → us[i]? = some u → Slot W f.ty v ∧ Slot W f.ty u)

theorem fieldFor_same {id i j : Nat} {s : Bytes} {f g : Field} (h : FieldFor W id s i f) (h' : FieldFor W id s j g) : i = j := by
  rcases Nat.lt_trichotomy i j with hl | hl | hl
  · exact absurd h.2.2.1 (h'.2.2.2 i f hl h.1 h.2.1)
  · exact hl
  · exact absurd h'.2.2.1 (h.2.2.2 j g hl h'.1 h'.2.1)

theorem agree_set {id : Nat} {kd d : Doc} {es : List (Doc × Doc)} {us vs : List Val} {s : Bytes} {i : Nat} {f : Field} (v : Val) (hl : us.length = vs.length)
    (hk : FieldKey kd s) (hf : FieldFor W id s i f) (h : ∀ i, Agree W id ((kd, d) :: es) us vs i) : ∀ j, Agree W id es (us.set i v) (vs.set i v) j := by
  intro j
  by_cases hj : i = j
  · subst hj; left; simp only [List.getElem?_set, hl, if_true]
  · rcases h j with h | ⟨⟨kd', dv', s', f', h1, h2, h3⟩, h4⟩
    · left; simp only [List.getElem?_set, hj, if_false, h]
    · right
      refine ⟨⟨kd', dv', s', f', ?_, h2, h3⟩, by simpa only [List.getElem?_set, hj, if_false] using h4⟩
      rcases List.mem_cons.1 h1 with h | h
      · cases h
        cases fieldKey_unique hk h2
        exact absurd (fieldFor_same hf h3) hj
      · exact h

theorem agree_skip {id : Nat} {kd d : Doc} {es : List (Doc × Doc)} {us vs : List Val} {s : Bytes} (hk : FieldKey kd s) (hn : NoField W id s)
    (h : ∀ i, Agree W id ((kd, d) :: es) us vs i) : ∀ j, Agree W id es us vs j := by
  intro j
  rcases h j with h | ⟨⟨kd', dv', s', f', h1, h2, h3⟩, h4⟩
  · exact .inl h
  · refine .inr ⟨⟨kd', dv', s', f', ?_, h2, h3⟩, h4⟩
    rcases List.mem_cons.1 h1 with h | h
    · cases h
      cases fieldKey_unique hk h2
      exact absurd h3.2.2.1 (hn _ _ h3.1 h3.2.1)
    · exact h

theorem agree_get {id : Nat} {es : List (Doc × Doc)} {us vs : List Val} {i : Nat} {v0 : Val} (hl : us.length = vs.length) (h0 : vs[i]? = some v0)
    (h : Agree W id es us vs i) : ∃ u0, us[i]? = some u0 ∧ (u0 = v0 ∨ ∀ f, (W.fields id)[i]? = some f → Slot W f.ty v0 ∧ Slot W f.ty u0) := by
  have hi : i < us.length := by
    rcases Nat.lt_or_ge i vs.length with h | h
    · omega
    · rw [List.getElem?_eq_none h] at h0; cases h0
  refine ⟨us[i], List.getElem?_eq_getElem hi, ?_⟩
  rcases h with h | ⟨-, h⟩
  · left; rw [List.getElem?_eq_getElem hi, h0] at h; exact Option.some.inj h
  · right; exact fun f hf => h f _ _ hf h0 (List.getElem?_eq_getElem hi)

theorem wrapped_other {t : Ty} {d : Doc} {v1 v2 w : Val} (hd : d ≠ .null) (h : Wrapped W t d v1 w) : Wrapped W t d v2 w := by
  cases h with
  | null => exact absurd rfl hd
  | str h1 h2 => exact .str h1 h2

theorem replaces_fields {id n : Nat} : ∀ {es : List (Doc × Doc)} {us vs ws : List Val}, DecFields W id n es vs ws →
    (∀ kd dv s i f, (kd, dv) ∈ es → FieldKey kd s → FieldFor W id s i f → ¬ HasString W f ∨ StringIgnored W f.ty →
      ∀ n v1 v2 w, DecDoc W f.ty n dv v1 w → Slot W f.ty v1 → Slot W f.ty v2 → DecDoc W f.ty n dv v2 w) →
    (∀ kd dv s i f, (kd, dv) ∈ es → FieldKey kd s → FieldFor W id s i f → HasString W f → IsScalar W f.ty → dv ≠ .null) →
    us.length = vs.length → (∀ i, Agree W id es us vs i) → DecFields W id n es us ws
  | [], us, vs, ws, h, _, _, _, ha => by
    have : us = vs := List.ext_getElem? fun i => by
      rcases ha i with h | ⟨⟨_, _, _, _, h, _⟩, _⟩
      · exact h
      · cases h
    subst this
    exact h
  | (kd, d) :: es, us, vs, ws, h, hr, hs, hl, ha => by
    have hr' : ∀ kd dv s i f, (kd, dv) ∈ es → _ := fun kd dv s i f hm => hr kd dv s i f (List.mem_cons_of_mem _ hm)
    have hs' : ∀ kd dv s i f, (kd, dv) ∈ es → _ := fun kd dv s i f hm => hs kd dv s i f (List.mem_cons_of_mem _ hm)
    cases h with
    | skip h1 h2 h3 h4 => exact .skip h1 h2 h3 (replaces_fields h4 hr' hs' hl (agree_skip h1 h2 ha))
    | plain h1 h2 h3 h4 h5 h6 =>
      obtain ⟨u0, hu, hc⟩ := agree_get hl h4 (ha _)
      refine .plain h1 h2 h3 hu ?_ (replaces_fields h6 hr' hs' (by simp [hl]) (agree_set _ hl h1 h2 ha))
      rcases hc with rfl | hc
      · exact h5
      · exact hr _ _ _ _ _ List.mem_cons_self h1 h2 h3 _ _ _ _ h5 (hc _ h2.1).1 (hc _ h2.1).2
    | wrapped h1 h2 h3 h4 h5 h6 h7 =>
      obtain ⟨u0, hu, hc⟩ := agree_get hl h5 (ha _)
      exact .wrapped h1 h2 h3 h4 hu (wrapped_other (hs _ _ _ _ _ List.mem_cons_self h1 h2 h3 h4) h6)
        (replaces_fields h7 hr' hs' (by simp [hl]) (agree_set _ hl h1 h2 ha))
    | wrappedPtrNull h1 h2 h3 h4 h5 h6 h7 =>
      obtain ⟨u0, hu, hc⟩ := agree_get hl h6 (ha _)
      exact .wrappedPtrNull h1 h2 h3 h4 h5 hu (replaces_fields h7 hr' hs' (by simp [hl]) (agree_set _ hl h1 h2 ha))
    | wrappedPtr h1 h2 h3 h4 h5 h6 h7 h8 h9 h10 =>
      obtain ⟨u0, hu, hc⟩ := agree_get hl h6 (ha _)
      have hrest := replaces_fields h10 hr' hs' (by simp [hl]) (agree_set _ hl h1 h2 ha)
      rcases hc with rfl | hc
      · exact .wrappedPtr h1 h2 h3 h4 h5 hu h7 h8 h9 hrest
      · cases (hc _ h2.1).2 with
        | unm h => rw [h4.1] at h; cases h
        | leaf h => exact absurd h4.2 (h _)
        | ptrNil => exact .wrappedPtr h1 h2 h3 h4 h5 hu (.inl ⟨rfl, rfl⟩) h8 (wrapped_other h8 h9) hrest
        | ptr => exact .wrappedPtr h1 h2 h3 h4 h5 hu (.inr rfl) h8 (wrapped_other h8 h9) hrest
        | mapNil hp' | map hp' | struct hp' => have := h4.2.symm.trans hp'.2; cases this

theorem slot_struct {t : Ty} {id : Nat} {v : Val} (hp : Plain W t (.struct id)) (h : Slot W t v) : ∃ vs, v = .struct vs ∧ vs.length = (W.fields id).length ∧
    ∀ (i : Nat) (f : Field) (v : Val), (W.fields id)[i]? = some f → vs[i]? = some v → Slot W f.ty v := by
  cases h with
  | unm h => rw [hp.1] at h; cases h
  | leaf _ _ h => exact absurd hp.2 (h _)
  | struct hp' h1 h2 => have := plain_ne hp hp'; cases this; exact ⟨_, rfl, h1, h2⟩
  | mapNil hp' | map hp' | ptr hp' | ptrNil hp' => have := plain_ne hp hp'; cases this

theorem container_unique {d : Doc} {cnt cnt' : Bytes} {es es' : List (Doc × Doc)} (h : Container d cnt es) (h' : Container d cnt' es') : es = es' := by
  cases h <;> cases h' <;> rfl

theorem replaces_dec (hz : ∀ t, Slot W t (W.zero t)) {t : Ty} {d : Doc} (h : Replaces W t d) :
    ∀ n v1 v2 w, DecDoc W t n d v1 w → Slot W t v1 → Slot W t v2 → DecDoc W t n d v2 w := by
  induction h with
  | unm hu => intro n v1 v2 w h _ _; exact replaces_unm hu h
  | ptrNull hp =>
    intro n v1 v2 w h _ _
    cases h <;> try other_type hp
    case ptrNull => exact .ptrNull ‹_› ‹_›
    case ptrNew => exact absurd rfl ‹_›
    case ptrOld => exact absurd rfl ‹_›
  | ptr hp hr ih =>
    intro n v1 v2 w h hs1 hs2
    rename_i t e d
    have key : ∀ {w0 : Val}, (∃ v0, Slot W e v0 ∧ DecDoc W e n d v0 w0) → d ≠ .null → W.isPtr e = false → DecDoc W t n d v2 (.ptr w0) := by
      rintro w0 ⟨v0, h0, h1⟩ h2 h3
      cases hs2 with
      | unm h => rw [hp.1] at h; cases h
      | leaf h => exact absurd hp.2 (h _)
      | ptrNil => exact .ptrNew hp h3 h2 (ih _ _ _ _ h1 h0 (hz _))
      | ptr hp' h => have := plain_ne hp hp'; cases this; exact .ptrOld hp h3 h2 (ih _ _ _ _ h1 h0 h)
      | mapNil hp' | map hp' | struct hp' => have := plain_ne hp hp'; cases this
    cases h <;> try other_type hp
    case ptrNull => exact .ptrNull ‹_› ‹_›
    case ptrNew => 
      have h1 := plain_ne hp ‹Plain W _ _›; cases h1
      exact key ⟨_, hz _, ‹_›⟩ ‹_› ‹_›
    case ptrOld =>
      have h1 := plain_ne hp ‹Plain W _ _›; cases h1
      refine key ⟨_, ?_, ‹_›⟩ ‹_› ‹_›
      cases hs1 with
      | unm h => rw [hp.1] at h; cases h
      | leaf h => exact absurd hp.2 (h _)
      | ptr hp' h => have := plain_ne hp hp'; cases this; exact h
  | scalar hs hd => intro n v1 v2 w h _ _; exact replaces_scalar hs hd h
  | str hp hd =>
    intro n v1 v2 w h _ _
    rcases (decDoc_str hp).1 h with ⟨h, -⟩ | h
    · exact absurd h hd
    · exact (decDoc_str hp).2 (.inr h)
  | slice hp hd => intro n v1 v2 w h _ _; exact replaces_slice hp hd h
  | array hp hd => intro n v1 v2 w h _ _; exact replaces_array hp hd h
  | mapNull hp =>
    intro n v1 v2 w h _ _
    cases h <;> try other_type hp
    case mapNull => exact .mapNull ‹_›
    case map => have h1 := ‹Container _ _ _›; cases h1
  | any hp => intro n v1 v2 w h _ _; exact replaces_any hp h
  | ifaceNull hp =>
    intro n v1 v2 w h _ _
    cases h <;> try other_type hp
    case ifaceNull => exact .ifaceNull ‹_›
    case ifaceDyn => exact absurd rfl ‹_›
  | @struct t id d cnt es hp hc hall hr hs ih =>
    intro n v1 v2 w h hs1 hs2
    obtain ⟨vs, rfl, hl1, hf1⟩ := slot_struct hp hs1
    obtain ⟨us, rfl, hl2, hf2⟩ := slot_struct hp hs2
    cases h <;> try other_type hp
    case structNull => cases hc
    case structEmpty =>
      cases container_unique hc ‹_›
      have h0 : W.fields id = [] := by
        apply List.eq_nil_iff_forall_not_mem.2
        intro f hf
        obtain ⟨i, hi⟩ := List.mem_iff_getElem?.1 hf
        obtain ⟨_, _, _, h, _⟩ := hall i f hi
        cases h
      rw [h0] at hl1 hl2
      rw [List.length_eq_zero_iff.1 hl1, List.length_eq_zero_iff.1 hl2]
      clear hc
      exact .structEmpty hp ‹_› ‹_›
    case struct =>
      have h1 := plain_ne hp ‹Plain W _ _›; cases h1
      cases container_unique hc ‹_›
      refine .struct hp ‹_› ‹_› ‹_› (replaces_fields ‹_› ih hs (by omega) fun i => ?_)
      cases hi : (W.fields id)[i]? with
      | none =>
        left
        rw [List.getElem?_eq_none_iff] at hi
        rw [List.getElem?_eq_none (by omega), List.getElem?_eq_none (by omega)]
      | some f =>
        right
        obtain ⟨kd, dv, s, h1, h2, h3⟩ := hall i f hi
        exact ⟨⟨kd, dv, s, f, h1, h2, h3⟩, fun f v u hf hv hu => ⟨hf1 i f v hf hv, hf2 i f u hf hu⟩⟩

/-! ### What `Marshal` writes -/

/-- What is asked of the types of variables written to in place. -/
def AllWhole (W : World) (t : Ty) : Prop := ∀ t', InPlace W t t' → Whole W t' ∧ Prepared W t'

theorem AllWhole.ptr {t e : Ty} (h : AllWhole W t) (hp : Plain W t (.ptr e)) : AllWhole W e := fun t' ht => h t' ((InPlace.refl.ptr hp).trans ht)

theorem AllWhole.field {t : Ty} {id : Nat} {f : Field} (h : AllWhole W t) (hp : Plain W t (.struct id)) (hf : f ∈ W.fields id) : AllWhole W f.ty :=
  fun t' ht => h t' ((InPlace.refl.field hp hf ((h t .refl).1.field id hp f hf).1).trans ht)

/-- What the induction says about a document written in some mode. -/
def Replaced (W : World) (t : Ty) (d : Doc) : Mode → Prop
  | .typed => AllWhole W t → Replaces W t d
  | .kind => t ≠ .slice (.uint .u8) → AllWhole W t → Replaces W t d
  | .held => True
  | .field false => AllWhole W t → Replaces W t d
  | .field true => AllWhole W t → (StringIgnored W t → Replaces W t d) ∧ (IsScalar W t → d ≠ .null)

theorem over_unm {t : Ty} {k : Ty} {d : Doc} (hr : W.resolve t = k) (h : Plain W t k → Replaces W t d) : Replaces W t d := by
  cases hu : W.unmOf t with
  | some id => exact .unm hu
  | none => exact h ⟨hu, hr⟩

theorem over_ptr {t e : Ty} {d : Doc} (hr : W.resolve t = .ptr e) (ha : AllWhole W t) (h : AllWhole W e → Replaces W e d) : Replaces W t d :=
  over_unm hr fun hp => .ptr hp (h (ha.ptr hp))

theorem over_iface {t : Ty} {d : Doc} (hi : W.isIface t = true) (ha : AllWhole W t) : Replaces W t d := by
  simp only [World.isIface] at hi
  split at hi
  · exact over_unm ‹_› fun hp => .any hp
  · exact over_unm ‹_› fun hp => absurd hp ((ha t .refl).1.iface _)
  · cases hi

theorem over_scalar {t : Ty} {v : GV} {d : Doc} (hs : ScalarDoc W t v d) : Replaces W t d := by
  cases hs with
  | bool h => exact over_unm h fun hp => .scalar (.inl hp) (by simp)
  | int h => exact over_unm h fun hp => .scalar (.inr (.inl ⟨_, hp⟩)) (by simp)
  | uint h => exact over_unm h fun hp => .scalar (.inr (.inr (.inl ⟨_, hp⟩))) (by simp)
  | f32 h => exact over_unm h fun hp => .scalar (.inr (.inr (.inr (.inl hp)))) (by simp)
  | f64 h => exact over_unm h fun hp => .scalar (.inr (.inr (.inr (.inr hp)))) (by simp)
  | str h => exact over_unm h fun hp => .str hp (by simp [strDoc])

theorem strField_over {h : Heap} {t : Ty} {v : GV} {d : Doc} (hd : StrFieldDoc W h t v d) (ha : AllWhole W t) :
    (StringIgnored W t → Replaces W t d) ∧ (IsScalar W t → d ≠ .null) := by
  have hb : ∀ {k v txt}, BasicText W k v txt → W.resolve t = k → StringIgnored W t → Replaces W t d := by
    intro k v txt hb hr hi
    cases hu : W.unmOf t with
    | some id => exact .unm hu
    | none =>
      rcases hi with h | ⟨_, h⟩ | ⟨_, _, h⟩ | ⟨_, _, h⟩ | ⟨_, h⟩ | h | ⟨_, h⟩
      · exact absurd hu h
      all_goals (rw [hr] at h; subst h; cases hb)
  cases hd with
  | str hr =>
    refine ⟨fun hi => ?_, fun _ => by simp [strDoc]⟩
    exact over_unm hr fun hp => .str hp (by simp [strDoc])
  | basic h => exact ⟨hb h rfl, fun _ => by simp [strDoc]⟩
  | ifaceNil hi _ =>
    refine ⟨fun _ => over_iface hi ha, fun hs => ?_⟩
    rcases hs with h | ⟨_, h⟩ | ⟨_, h⟩ | h | h <;> simp [World.isIface, h.2] at hi
  | iface hi _ _ => exact ⟨fun _ => over_iface hi ha, fun _ => by simp [strDoc]⟩

theorem over_null {t e : Ty} (hr : W.resolve t = .ptr e) : Replaces W t .null := over_unm hr fun hp => .ptrNull hp

theorem isStruct_ne {e : Ty} (h : W.isStruct e = true) : e ≠ .slice (.uint .u8) := by rintro rfl; simp [World.isStruct, World.resolve] at h

theorem direct_ne {e : Ty} (h : directKind W e = true) : e ≠ .slice (.uint .u8) := by rintro rfl; simp [directKind, World.resolve] at h

/-- The entries of a struct replace its fields. -/
theorem over_struct {t : Ty} {id : Nat} {vs : List GV} {ws : List WField} {D : Nat → Doc} (hr : W.resolve t = .struct id) (hw : Written W 0 (W.fields id) vs ws)
    (hD : ∀ (j : Nat) (w : WField), ws[j]? = some w → (D j).text.length < 2 ^ 63 → Replaced W w.ty (D j) (.field w.str)) (ha : AllWhole W t)
    (hlen : ∀ w ∈ ws, w.key.length < 2 ^ 63) (hlt : ∀ j w, ws[j]? = some w → (D j).text.length < 2 ^ 63) :
    Replaces W t (.arr (natText ws.length) (pairDocs (fun j => strDoc ((ws[j]?.map (·.key)).getD [])) D 0 ws.length)) := by
  refine over_unm hr fun hp => ?_
  obtain ⟨hwh, hpr⟩ := ha t .refl
  obtain ⟨-, -, hpos⟩ := written_positions hw
  have hfor : ∀ w ∈ ws, ∃ f, FieldFor W id w.key w.idx f ∧ f.ty = w.ty ∧ (HasString W f ↔ w.str = true) := fun w hm => by
    obtain ⟨f, om, -, h1, -, h2, h3, h4, h5⟩ := written_field hw hm
    have hvis := (hwh.field id hp f (List.mem_of_getElem? h1)).1
    refine ⟨f, ⟨h1, hvis, ⟨_, _, h3⟩, fun j g hj hg hv hk => ?_⟩, h5, ?_⟩
    · have := hpr.keys id hp j w.idx g f w.key hg h1 hv hvis hk ⟨_, _, h3⟩
      omega
    · constructor
      · rintro ⟨k, om', h⟩; exact (tagMeaning_unique h h3).2.2.1 trivial
      · intro h; refine ⟨_, _, (?_ : TagMeaning W f w.key om True)⟩; rwa [h, eq_self_iff_true] at h3
  have hent : ∀ kd dv s i f, (kd, dv) ∈ pairDocs (fun j => strDoc ((ws[j]?.map (·.key)).getD [])) D 0 ws.length → FieldKey kd s → FieldFor W id s i f →
      ∃ (j : Nat) (w : WField), ws[j]? = some w ∧ dv = D j ∧ f.ty = w.ty ∧ (HasString W f ↔ w.str = true) := by
    intro kd dv s i f hm hk hf
    obtain ⟨j, -, hj, rfl, rfl⟩ := mem_pairDocs.1 hm
    have hj' : ws[j]? = some ws[j] := List.getElem?_eq_getElem (by omega)
    obtain ⟨g, h1, h2, h3⟩ := hfor ws[j] (List.getElem_mem _)
    have hs : s = ws[j].key := by
      simp only [hj', Option.map_some, Option.getD_some, strDoc] at hk
      cases hk; rfl
    subst hs
    have hi := fieldFor_same hf h1
    subst hi
    have : f = g := Option.some.inj (hf.1.symm.trans h1.1)
    subst this
    exact ⟨j, ws[j], hj', rfl, h2, h3⟩
  refine .struct hp .arr (fun i f hf => ?_) (fun kd dv s i f hm hk hff hns => ?_) (fun kd dv s i f hm hk hff hs hsc => ?_)
  · have hfm := List.mem_of_getElem? hf
    obtain ⟨hvis, hk, ho⟩ := hwh.field id hp f hfm
    have hi : i < vs.length := by
      rw [written_length hw]
      rcases Nat.lt_or_ge i (W.fields id).length with h | h
      · exact h
      · rw [List.getElem?_eq_none h] at hf; cases hf
    have hsh : Shown W f vs[i] := by
      refine ⟨hvis.1, (structTag W f).key, _, _, tagMeaning_iff.2 ⟨rfl, Iff.rfl, Iff.rfl⟩, fun h => hk ?_, fun h => ho ?_⟩
      · rw [hasKey_iff, h]
      · exact ⟨_, _, tagMeaning_iff.2 ⟨rfl, by simp [h.1], Iff.rfl⟩⟩
    obtain ⟨w, hwm, rfl⟩ := List.mem_map.1 ((hpos i (Nat.zero_le _)).2 ⟨f, vs[i], hf, List.getElem?_eq_getElem hi, hsh⟩)
    obtain ⟨g, h1, h2, h3⟩ := hfor w hwm
    have : f = g := Option.some.inj (hf.symm.trans h1.1)
    subst this
    obtain ⟨j, hj⟩ := List.mem_iff_getElem?.1 hwm
    have hjl : j < ws.length := by
      rcases Nat.lt_or_ge j ws.length with h | h
      · exact h
      · rw [List.getElem?_eq_none h] at hj; cases hj
    refine ⟨strDoc w.key, D j, w.key, mem_pairDocs.2 ⟨j, Nat.zero_le _, by omega, by simp [hj], rfl⟩, .str (lenText_natText (hlen w hwm)), h1⟩
  · obtain ⟨j, w, hj, rfl, hty, hst⟩ := hent kd dv s i f hm hk hff
    have ho := hD j w hj (hlt j w hj)
    rw [hty] at hns ⊢
    have hw' : AllWhole W w.ty := hty ▸ ha.field hp (List.mem_of_getElem? hff.1)
    cases hb : w.str with
    | false => rw [hb] at ho; exact ho hw'
    | true =>
      rw [hb] at ho
      rcases hns with h | h
      · exact absurd (hst.2 hb) h
      · exact (ho hw').1 h
  · obtain ⟨j, w, hj, rfl, hty, hst⟩ := hent kd dv s i f hm hk hff
    have ho := hD j w hj (hlt j w hj)
    have hw' : AllWhole W w.ty := hty ▸ ha.field hp (List.mem_of_getElem? hff.1)
    rw [hst.1 hs] at ho
    exact (ho hw').2 (hty ▸ hsc)

theorem over_mar {t : Ty} {d : Doc} (hm : W.marOf t = true) (ha : AllWhole W t) : Replaces W t d := by
  cases hu : W.unmOf t with
  | some id => exact .unm hu
  | none =>
    rcases Classical.em (∃ e, Plain W t (.ptr e) ∧ W.unmOf e ≠ none) with ⟨e, hp, he⟩ | hn
    · cases hue : W.unmOf e with
      | none => exact absurd hue he
      | some id => exact .ptr hp (.unm hue)
    · have := (ha t .refl).1.mar hu fun e hp => Classical.byContradiction fun he => hn ⟨e, hp, he⟩
      rw [this] at hm; cases hm

theorem strIgnored_ptr {t e : Ty} {d : Doc} (hr : W.resolve t = .ptr e) (hi : StringIgnored W t) : Replaces W t d := by
  cases hu : W.unmOf t with
  | some id => exact .unm hu
  | none => rcases hi with h | ⟨_, h⟩ | ⟨_, _, h⟩ | ⟨_, _, h⟩ | ⟨_, h⟩ | h | ⟨_, h⟩ <;> first | exact absurd hu h | (rw [hr] at h; cases h)

theorem scalar_ptr {t e : Ty} (hr : W.resolve t = .ptr e) : ¬ IsScalar W t := by
  rintro (h | ⟨_, h⟩ | ⟨_, h⟩ | h | h) <;> (have := h.2; rw [hr] at this; cases this)

/-- What is written for a value of such a type replaces what a variable of that type holds. -/
theorem encG_replaces {h : Heap} {ok : Ty → Prop} {G : Stack → Nat → Bool → Prop} (hf : FloatTextsOk W)
    {m : Mode} {st : Stack} {p : Path} {t : Ty} {v : GV} {tx : Bytes} (he : EncG W h ok G m st p t v tx)
    (hm : ∀ t' v' raw, Within W h t v t' v' → W.marOf t' = true → Marshaled W h t' v' raw → ∃ d, raw = d.text ∧ Wf d) :
    ∃ d, tx = d.text ∧ Wf d ∧ (d.text.length < 2 ^ 63 → Replaced W t d m) := by
  have hheld : ∀ (st p) {t v tx}, EncG W h ok G .held st p t v tx →
      (∀ t' v' raw, Within W h t v t' v' → W.marOf t' = true → Marshaled W h t' v' raw → ∃ d, raw = d.text ∧ Wf d) →
      ∃ d, tx = d.text ∧ Wf d ∧ (d.text.length < 2 ^ 63 → Replaced W t d .held) := fun st p t v tx he hm => by
    obtain ⟨d, h1, h2⟩ := encG_wf hf he hm
    exact ⟨d, h1, h2, fun _ => trivial⟩
  have hwn : Wf .null := fun _ => .null
  induction he with
  | marshaler a hr =>
    obtain ⟨d, h1, h2⟩ := hm _ _ _ .refl a hr
    exact ⟨d, h1, h2, fun _ ha => over_mar a ha⟩
  | bytesNil => exact ⟨_, rfl, wf_str _, fun _ _ => over_unm rfl fun hp => .slice hp fun _ => by simp [strDoc]⟩
  | bytes => exact ⟨_, rfl, wf_str _, fun _ _ => over_unm rfl fun hp => .slice hp fun _ => by simp [strDoc]⟩
  | plain _ hne _ _ ih =>
    obtain ⟨d, h1, h2, h3⟩ := ih hm
    exact ⟨d, h1, h2, fun hl => h3 hl hne⟩
  | ptrNil _ hr => exact ⟨.null, rfl, hwn, fun _ _ => over_null hr⟩
  | ptrStruct _ hr hs _ _ ih =>
    obtain ⟨d, h1, h2, h3⟩ := ih fun t' v' raw hw => hm t' v' raw (.step (.ptr hr) hw)
    exact ⟨d, h1, h2, fun hl ha => over_ptr hr ha (h3 hl (isStruct_ne hs))⟩
  | ptrKind _ hr hs _ ih =>
    obtain ⟨d, h1, h2, h3⟩ := ih fun t' v' raw hw => hm t' v' raw (.step (.ptr hr) hw)
    exact ⟨d, h1, h2, fun hl ha => over_ptr hr ha (h3 hl (direct_ne hs))⟩
  | ptrTyped _ hr _ _ _ _ _ ih =>
    obtain ⟨d, h1, h2, h3⟩ := ih fun t' v' raw hw => hm t' v' raw (.step (.ptr hr) hw)
    exact ⟨d, h1, h2, fun hl ha => over_ptr hr ha (h3 hl)⟩
  | ptrIface _ hr hi he _ =>
    obtain ⟨d, h1, h2, -⟩ := hheld _ _ he hm
    exact ⟨d, h1, h2, fun _ ha => over_ptr hr ha fun he => over_iface hi he⟩
  | scalar hs => exact ⟨_, rfl, wf_scalar hf hs, fun _ _ _ => over_scalar hs⟩
  | @struct _ _ _ _ _ ws _ hr hws _ ih =>
    obtain ⟨D, hD⟩ := choose_docs fun j w hw => ih j w hw fun t' v' raw hw' => hm t' v' raw (.step (written_part hr hws hw) hw')
    refine ⟨_, arrText_doc fun j hj => (hD j ws[j] (List.getElem?_eq_getElem hj)).1,
      wf_arr (fun _ _ => wf_str _) fun j hj => (hD j ws[j] (List.getElem?_eq_getElem hj)).2.1, fun hl _ ha => ?_⟩
    have hlen : ∀ j w, ws[j]? = some w → w.key.length < 2 ^ 63 ∧ (D j).text.length < 2 ^ 63 := fun j w hj => by
      have hjl : j < ws.length := by
        rcases Nat.lt_or_ge j ws.length with h | h
        · exact h
        · rw [List.getElem?_eq_none h] at hj; cases hj
      have h1 := mem_pairs_len (mem_pairDocs.2 ⟨j, Nat.zero_le _, by omega, rfl, rfl⟩ : (_, D j) ∈ pairDocs (fun j => strDoc ((ws[j]?.map (·.key)).getD [])) D 0 ws.length)
      have h2 := container_len (d := .arr (natText ws.length) (pairDocs (fun j => strDoc ((ws[j]?.map (·.key)).getD [])) D 0 ws.length)) .arr
      have h3 : w.key.length ≤ (strDoc ((ws[j]?.map (·.key)).getD [])).text.length := by simp [hj, strDoc, Doc.text]; omega
      omega
    refine over_struct hr hws (fun j w hj hl => (hD j w hj).2.2 hl) ha (fun w hw => ?_) fun j w hj => (hlen j w hj).2
    obtain ⟨j, hj⟩ := List.mem_iff_getElem?.1 hw
    exact (hlen j w hj).1
  | @array _ _ _ _ _ vs _ hr _ _ ih =>
    obtain ⟨D, hD⟩ := choose_docs fun j w hw => ih j w hw fun t' v' raw hw' => hm t' v' raw (.step (.array hr (List.mem_of_getElem? hw)) hw')
    exact ⟨_, arrText_doc fun j hj => (hD j vs[j] (List.getElem?_eq_getElem hj)).1,
      wf_arr (fun _ _ => wf_nat _) fun j hj => (hD j vs[j] (List.getElem?_eq_getElem hj)).2.1, fun _ _ _ => over_unm hr fun hp => .array hp (by simp)⟩
  | sliceNil hr =>
    refine ⟨.null, rfl, hwn, fun _ hne ha => over_unm hr fun hp => .slice hp fun hb => ?_⟩
    exact absurd ((ha _ .refl).1.bytes _ hp hb) hne
  | @slice _ _ _ _ _ _ vs _ hr _ hv _ ih =>
    subst hv
    obtain ⟨D, hD⟩ := choose_docs fun j w hw => ih j w hw fun t' v' raw hw' => hm t' v' raw (.step (.slice hr (List.mem_of_getElem? hw)) hw')
    exact ⟨_, arrText_doc fun j hj => (hD j _ (List.getElem?_eq_getElem hj)).1,
      wf_arr (fun _ _ => wf_nat _) fun j hj => (hD j _ (List.getElem?_eq_getElem hj)).2.1, fun _ _ _ => over_unm hr fun hp => .slice hp fun _ => by simp⟩
  | mapNil hr => exact ⟨.null, rfl, hwn, fun _ _ _ => over_unm hr fun hp => .mapNull hp⟩
  | map hr _ hv hk _ ih =>
    subst hv
    obtain ⟨d, h1, h2⟩ := wf_container (fun j w hw => wf_key (hk j w.1 w.2 hw)) fun j w hw =>
      (ih j w.1 w.2 hw fun t' v' raw hw' => hm t' v' raw (.step (.map hr (List.mem_of_getElem? hw)) hw')).imp fun d h => ⟨h.1, h.2.1⟩
    exact ⟨d, h1, h2, fun _ _ ha => over_unm hr fun hp => absurd hp ((ha _ .refl).1.map _ _)⟩
  | iface hi he _ =>
    obtain ⟨d, h1, h2, -⟩ := hheld _ _ he hm
    exact ⟨d, h1, h2, fun _ _ ha => over_iface hi ha⟩
  | heldNil a => exact hheld [] [] (.heldNil a) hm
  | heldScalar a b => exact hheld [] [] (.heldScalar a b) hm
  | heldConcreteSlice a b c d e f => exact hheld _ _ (.heldConcreteSlice a b c d e f) hm
  | heldSliceNil a b c d => exact hheld _ [] (.heldSliceNil a b c d) hm
  | heldSlice a b c d e f => exact hheld _ _ (.heldSlice a b c d e f) hm
  | heldMapNil a b c d => exact hheld _ [] (.heldMapNil a b c d) hm
  | heldMap a b c d e f g i => exact hheld _ _ (.heldMap a b c d e f g i) hm
  | heldConcreteMap a b c d e f g i j => exact hheld _ _ (.heldConcreteMap a b c d e f g i j) hm
  | heldStruct a b c d => exact hheld _ _ (.heldStruct a b c d) hm
  | fieldPlain _ _ ih =>
    obtain ⟨d, h1, h2, h3⟩ := ih hm
    exact ⟨d, h1, h2, h3⟩
  | @fieldPtrNil _ _ _ _ str hr =>
    refine ⟨.null, rfl, hwn, fun _ => ?_⟩
    cases str with
    | false => exact fun _ => over_null hr
    | true => exact fun _ => ⟨strIgnored_ptr hr, fun hs => absurd hs (scalar_ptr hr)⟩
  | fieldPtrStruct hr _ _ _ ih =>
    obtain ⟨d, h1, h2, h3⟩ := ih fun t' v' raw hw => hm t' v' raw (.step (.ptr hr) hw)
    exact ⟨d, h1, h2, fun hl ha => over_ptr hr ha (h3 hl)⟩
  | fieldPtr hr _ _ ih =>
    obtain ⟨d, h1, h2, h3⟩ := ih fun t' v' raw hw => hm t' v' raw (.step (.ptr hr) hw)
    exact ⟨d, h1, h2, fun hl ha => over_ptr hr ha (h3 hl)⟩
  | fieldStr _ hd => exact ⟨_, rfl, wf_strField hd, fun _ ha => strField_over hd ha⟩
  | fieldStrPtr hr hd => exact ⟨_, rfl, wf_strField hd, fun _ _ => ⟨strIgnored_ptr hr, fun hs => absurd hs (scalar_ptr hr)⟩⟩

theorem uses_of_inPlace {W : World} {t t' : Ty} (h : InPlace W t t') : Uses W t t' := by
  induction h with
  | refl => exact .refl
  | ptr _ h ih => exact .step ih (.ptr h)
  | field _ h hf hv ih => exact .step ih (.field h hf hv)

end Verif

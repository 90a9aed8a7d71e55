import Verif.Spec.Trip
import Verif.Proofs.Docs
import Verif.Proofs.EncDocs
import Verif.Proofs.RoundScalar
import Verif.Proofs.EncStruct
/-
Documents keep their meaning when their numbers are spelled the usual way.
-/
namespace Verif
open Spec

theorem respelled_null {W : World} {d : Doc} (h : Respelled W .null d) : d = .null := by cases h; rfl

theorem respelled_ne_null {W : World} {d d' : Doc} (h : Respelled W d d') (hd : d ≠ .null) : d' ≠ .null := by
  rintro rfl; cases h; exact hd rfl

theorem respelledPairs_length {W : World} {es es' : List (Doc × Doc)} (h : RespelledPairs W es es') : es'.length = es.length := by
  induction es generalizing es' with
  | nil => cases h; rfl
  | cons e es ih => cases h with | cons _ _ h => simp [ih h]

theorem respelledPairs_ne {W : World} {es es' : List (Doc × Doc)} (h : RespelledPairs W es es') (hn : es ≠ []) : es' ≠ [] := by
  cases h with
  | nil => exact absurd rfl hn
  | cons _ _ _ => simp

theorem lenText_respell {t : Bytes} {n : Nat} (h : LenText t n) : LenText (natText (digitsVal t)) n := by
  obtain ⟨-, rfl, h⟩ := h
  exact lenText_natText h

theorem respelledPairs_mem {W : World} {es es' : List (Doc × Doc)} (h : RespelledPairs W es es') {k' v' : Doc} (hm : (k', v') ∈ es') :
    ∃ k v, (k, v) ∈ es ∧ Respelled W k k' ∧ Respelled W v v' := by
  induction es generalizing es' with
  | nil => cases h; cases hm
  | cons e es ih =>
    cases h with
    | cons h1 h2 h3 =>
      rcases List.mem_cons.1 hm with h | h
      · cases h; exact ⟨_, _, List.mem_cons_self, h1, h2⟩
      · obtain ⟨k, v, h4, h5⟩ := ih h3 h
        exact ⟨k, v, List.mem_cons_of_mem _ h4, h5⟩

theorem strict_respelled {W : World} {n : Nat} {d d' : Doc} (h : Strict n d) (hr : Respelled W d d') : Strict n d' := by
  induction h generalizing d' with
  | null => cases hr; exact .null
  | bool => cases hr; exact .bool
  | int _ => cases hr with | int _ => exact .int (intText_spec _)
  | float _ _ => cases hr with | float h1 h2 _ => exact .float h1 h2
  | str h => cases hr with | str _ => exact .str (lenText_respell h)
  | arr h _ _ ihk ihv =>
    cases hr with
    | arr _ hp =>
      refine .arr (by rw [respelledPairs_length hp]; exact lenText_respell h) ?_ ?_
      · intro k' v' hm
        obtain ⟨k, v, h1, h2, _⟩ := respelledPairs_mem hp hm
        exact ihk _ _ h1 h2
      · intro k' v' hm
        obtain ⟨k, v, h1, _, h2⟩ := respelledPairs_mem hp hm
        exact ihv _ _ h1 h2
  | obj hc h _ _ ihk ihv =>
    cases hr with
    | obj _ _ hp =>
      refine .obj (lenText_respell hc) (by rw [respelledPairs_length hp]; exact lenText_respell h) ?_ ?_
      · intro k' v' hm
        obtain ⟨k, v, h1, h2, _⟩ := respelledPairs_mem hp hm
        exact ihk _ _ h1 h2
      · intro k' v' hm
        obtain ⟨k, v, h1, _, h2⟩ := respelledPairs_mem hp hm
        exact ihv _ _ h1 h2

theorem head_respell {cnt : Bytes} (hc : IsDigits cnt) (h : cnt.head? ≠ some 48) : (natText (digitsVal cnt)).head? ≠ some 48 := by
  apply natText_head
  obtain ⟨hn, hd⟩ := hc
  cases cnt with
  | nil => exact absurd rfl hn
  | cons c cs =>
    rw [digitsVal_cons]
    have h1 := hd c (by simp)
    have h2 : c ≠ 48 := fun h' => h (by simp [h'])
    have h3 : c.toNat ≠ 48 := fun h' => h2 (UInt8.toNat_inj.1 h')
    have h4 : 0 < 10 ^ cs.length := Nat.pow_pos (by decide)
    have : 0 < (c.toNat - 48) * 10 ^ cs.length := Nat.mul_pos (by unfold IsDigit at h1; omega) h4
    omega

theorem intText_respell {t : Bytes} {i j : Int} (h : IntText t i) (h' : IntText t j) : IntText (intText j) i := by
  rw [intText_unique h h']; exact intText_spec j

theorem container_respelled {W : World} {d d' : Doc} {cnt : Bytes} {es : List (Doc × Doc)} (h : Container d cnt es) (hr : Respelled W d d') :
    ∃ es', Container d' (natText (digitsVal cnt)) es' ∧ RespelledPairs W es es' := by
  cases h with
  | arr => cases hr with | arr _ hp => exact ⟨_, .arr, hp⟩
  | obj h => cases hr with | obj _ _ hp => exact ⟨_, .obj (lenText_respell h), hp⟩

theorem fieldKey_respelled {W : World} {d d' : Doc} {s : Bytes} (h : FieldKey d s) (hr : Respelled W d d') : FieldKey d' s := by
  cases h with
  | str h => cases hr with | str _ => exact .str (lenText_respell h)
  | null => cases hr; exact .null

theorem wrapped_respelled {W : World} {t : Ty} {d d' : Doc} {rv v : Val} (h : Wrapped W t d rv v) (hr : Respelled W d d') : Wrapped W t d' rv v := by
  cases h with
  | null h => cases hr; exact .null h
  | str h hs => cases hr with | str _ => exact .str (lenText_respell h) hs

/-- A set of types with everything their values consist of, whose methods do not tell spellings apart. -/
structure Closed (W : World) (T : Ty → Prop) : Prop where
  needs : ∀ t t', T t → Needs W t t' → T t'
  any : ∀ t, T t → Plain W t .any → T .any ∧ T .str
  unm : ∀ t id, T t → W.unmOf t = some id → ∀ d d', Respelled W d d' → W.unmarshal id d'.text = W.unmarshal id d.text
  dyn : ∀ t i, T t → Plain W t (.iface i) → ∀ dt v d d', Respelled W d d' → W.unmarshalDyn dt v d'.text = W.unmarshalDyn dt v d.text

theorem fieldFor_needs {W : World} {T : Ty → Prop} {id i : Nat} {s : Bytes} {f : Field} (h : FieldFor W id s i f)
    (hT : ∀ f ∈ W.fields id, Visible f → T f.ty) : T f.ty := hT f (List.mem_of_getElem? h.1) h.2.1

/-- What can be stored can be stored with its numbers spelled the usual way, and gives the same. -/
theorem decDoc_respelled {W : World} {T : Ty → Prop} (hw : Closed W T) {t : Ty} {n : Nat} {d : Doc} {rv v : Val} (h : DecDoc W t n d rv v) :
    T t → ∀ d', Respelled W d d' → DecDoc W t n d' rv v := by
  refine DecDoc.rec (motive_1 := fun t n d rv v _ => T t → ∀ d', Respelled W d d' → DecDoc W t n d' rv v)
    (motive_2 := fun e n es vs vs' _ => T e → ∀ es', RespelledPairs W es es' → DecElems W e n es' vs vs')
    (motive_3 := fun e n es vs vs' _ => T e → ∀ es', RespelledPairs W es es' → DecArr W e n es' vs vs')
    (motive_4 := fun km e n es m m' _ => (∀ k, km = .ofType k → T k) → T e → ∀ es', RespelledPairs W es es' → DecPairs W km e n es' m m')
    (motive_5 := fun id n es vs vs' _ => (∀ f ∈ W.fields id, Visible f → T f.ty) → ∀ es', RespelledPairs W es es' → DecFields W id n es' vs vs')
    ?unmNull ?unm ?ptrNull ?ptrNew ?ptrOld ?boolNull ?bool ?intNull ?int ?uintNull ?uint ?f32Null ?f32 ?f64Null ?f64 ?strNull ?str ?bytesNull ?bytes
    ?sliceNull ?sliceEmpty ?slice ?arrayNull ?arrayEmpty ?array ?mapNull ?map ?structNull ?structEmpty ?struct ?anyNull ?anyBool ?anyInt ?anyFloat
    ?anyStr ?anyArr ?anyObj ?ifaceNull ?ifaceDyn ?elNil ?elCons ?arrNil ?arrStore ?arrSkip ?paNil ?paKey ?paPtr ?paInt ?paStr ?fiNil ?fiSkip
    ?fiPlain ?fiWrapped ?fiPtrNull ?fiPtr h
  case unmNull => intro t n id rv h hT d' hr; cases hr; exact .unmNull h
  case unm => intro t n id d rv v h hd hs hu hT d' hr; exact .unm h (respelled_ne_null hr hd) (strict_respelled hs hr) (by rw [hw.unm _ _ hT h _ _ hr]; exact hu)
  case ptrNull => intro t n e rv h hp hT d' hr; cases hr; exact .ptrNull h hp
  case ptrNew => intro t n e d v h hp hd _ ih hT d' hr; exact .ptrNew h hp (respelled_ne_null hr hd) (ih (hw.needs _ _ hT (.ptr h)) _ hr)
  case ptrOld => intro t n e d v0 v h hp hd _ ih hT d' hr; exact .ptrOld h hp (respelled_ne_null hr hd) (ih (hw.needs _ _ hT (.ptr h)) _ hr)
  case boolNull => intro t n rv h hT d' hr; cases hr; exact .boolNull h
  case bool => intro t n b rv h hT d' hr; cases hr; exact .bool h
  case intNull => intro t n k rv h hT d' hr; cases hr; exact .intNull h
  case int => intro t n k txt i rv h hi hk hT d' hr; cases hr with | int hj => exact .int h (intText_respell hi hj) hk
  case uintNull => intro t n k rv h hT d' hr; cases hr; exact .uintNull h
  case uint =>
    intro t n k txt rv h hi hk hT d' hr
    cases hr with
    | int hj =>
      have := intText_unique hj (.pos hi)
      subst this
      rw [intText_natCast]
      have h2 := DecDoc.uint (n := n) (rv := rv) h (natText_digits (digitsVal txt)) (by rw [natText_val]; exact hk)
      rw [natText_val] at h2
      exact h2
  case f32Null => intro t n rv h hT d' hr; cases hr; exact .f32Null h
  case f32 => intro t n txt x rv h _ _ hx hf hT d' hr; cases hr with | float h1 h2 h3 => exact .f32 h h1 h2 (h3 _ hx) hf
  case f64Null => intro t n rv h hT d' hr; cases hr; exact .f64Null h
  case f64 => intro t n txt x rv h _ _ hx hT d' hr; cases hr with | float h1 h2 h3 => exact .f64 h h1 h2 (h3 _ hx)
  case strNull => intro t n rv h hT d' hr; cases hr; exact .strNull h
  case str => intro t n len s rv h hl hT d' hr; cases hr; exact .str h (lenText_respell hl)
  case bytesNull => intro t n e rv h hb hT d' hr; cases hr; exact .bytesNull h hb
  case bytes => intro t n e len s rv h hb hl hT d' hr; cases hr; exact .bytes h hb (lenText_respell hl)
  case sliceNull => intro t n e rv h hb hT d' hr; cases hr; exact .sliceNull h hb
  case sliceEmpty => intro t n e rv h hT d' hr; cases hr with | arr _ hp => cases hp; exact .sliceEmpty h
  case slice =>
    intro t n e cnt m es rv vs h hl hh hs hn _ ih hT d' hr
    cases hr with | arr hc hp => exact .slice h (lenText_respell hl) (head_respell hc hh) hs (respelledPairs_ne hp hn) (ih (hw.needs _ _ hT (.slice h)) _ hp)
  case arrayNull => intro t n l e rv h hT d' hr; cases hr; exact .arrayNull h
  case arrayEmpty => intro t n l e rv h hT d' hr; cases hr with | arr _ hp => cases hp; exact .arrayEmpty h
  case array =>
    intro t n l e cnt m es rv vs h hl hh hn _ ih hT d' hr
    cases hr with | arr hc hp => exact .array h (lenText_respell hl) (head_respell hc hh) (respelledPairs_ne hp hn) (ih (hw.needs _ _ hT (.array h)) _ hp)
  case mapNull => intro t n k v rv h hT d' hr; cases hr; exact .mapNull h
  case map =>
    intro t n k v d cnt m es rv es0 es1 h hc hl hb _ ih hT d' hr
    obtain ⟨es', hc', hp⟩ := container_respelled hc hr
    exact .map h hc' (lenText_respell hl) hb (ih (fun k' hk => by cases hk; exact hw.needs _ _ hT (.mapKey h)) (hw.needs _ _ hT (.mapVal h)) _ hp)
  case structNull => intro t n id rv h hT d' hr; cases hr; exact .structNull h
  case structEmpty =>
    intro t n id d cnt rv h hc hd hT d' hr
    obtain ⟨es', hc', hp⟩ := container_respelled hc hr
    cases hp
    exact .structEmpty h hc' (natText_digits _)
  case struct =>
    intro t n id d cnt es vs vs' h hc hd hn _ ih hT d' hr
    obtain ⟨es', hc', hp⟩ := container_respelled hc hr
    exact .struct h hc' (natText_digits _) (respelledPairs_ne hp hn) (ih (fun f hf hv => hw.needs _ _ hT (.field h hf hv)) _ hp)
  case anyNull => intro t n rv h hT d' hr; cases hr; exact .anyNull h
  case anyBool => intro t n b rv h hT d' hr; cases hr; exact .anyBool h
  case anyInt => intro t n txt i rv h hi hk hT d' hr; cases hr with | int hj => exact .anyInt h (intText_respell hi hj) hk
  case anyFloat => intro t n txt x rv h _ _ hx hT d' hr; cases hr with | float h1 h2 h3 => exact .anyFloat h h1 h2 (h3 _ hx)
  case anyStr => intro t n len s rv h hl hT d' hr; cases hr; exact .anyStr h (lenText_respell hl)
  case anyArr => intro t n cnt m es rv es1 h hl _ ih hT d' hr; cases hr with | arr _ hp => exact .anyArr h (lenText_respell hl) (ih (fun _ hk => by cases hk) (hw.any _ hT h).1 _ hp)
  case anyObj =>
    intro t n clen cls cnt m es rv es1 h hcl hl _ ih hT d' hr
    cases hr with | obj _ _ hp => exact .anyObj h (lenText_respell hcl) (lenText_respell hl) (ih (fun k hk => by cases hk; exact (hw.any _ hT h).2) (hw.any _ hT h).1 _ hp)
  case ifaceNull => intro t n i rv h hT d' hr; cases hr; exact .ifaceNull h
  case ifaceDyn =>
    intro t n i d dt dv dv' h hd hs hu hv hT d' hr
    exact .ifaceDyn h (respelled_ne_null hr hd) (strict_respelled hs hr) hu (by rw [hw.dyn _ _ hT h _ _ _ _ hr]; exact hv)
  case elNil => intro e n vs hT es' hr; cases hr; exact .nil
  case elCons =>
    intro e n txt i d es vs v0 v vs' hi h63 hg hv _ _ ih1 ih2 hT es' hr
    cases hr with
    | cons hk hd hp => cases hk with | int hj => exact .cons (intText_respell hi hj) h63 hg hv (ih1 hT _ hd) (ih2 hT _ hp)
  case arrNil => intro e n vs hT es' hr; cases hr; exact .nil
  case arrStore =>
    intro e n txt i d es vs v0 v vs' hi h63 hv _ _ ih1 ih2 hT es' hr
    cases hr with
    | cons hk hd hp => cases hk with | int hj => exact .store (intText_respell hi hj) h63 hv (ih1 hT _ hd) (ih2 hT _ hp)
  case arrSkip =>
    intro e n txt i d es vs vs' hi h63 hl hs _ ih hT es' hr
    cases hr with
    | cons hk hd hp => cases hk with | int hj => exact .skip (intText_respell hi hj) h63 hl (strict_respelled hs hd) (ih hT _ hp)
  case paNil => intro km v n m hK hT es' hr; cases hr; exact .nil
  case paKey =>
    intro k v n kd d es kv x m m' hk _ _ hh _ ih1 ih2 ih3 hK hT es' hr
    cases hr with | cons h1 h2 hp => exact .key hk (ih1 (hK _ rfl) _ h1) (ih2 hT _ h2) hh (ih3 hK hT _ hp)
  case paPtr =>
    intro k p v n d es x m m' hk hu ht _ _ ih1 ih2 hK hT es' hr
    cases hr with | cons h1 h2 hp => cases h1; exact .ptrKey hk hu ht (ih1 hT _ h2) (ih2 hK hT _ hp)
  case paInt =>
    intro v n txt i d es x m m' hi hk _ _ ih1 ih2 hK hT es' hr
    cases hr with | cons h1 h2 hp => cases h1 with | int hj => exact .anyInt (intText_respell hi hj) hk (ih1 hT _ h2) (ih2 hK hT _ hp)
  case paStr =>
    intro v n len s d es x m m' hl _ _ ih1 ih2 hK hT es' hr
    cases hr with | cons h1 h2 hp => cases h1; exact .anyStr (lenText_respell hl) (ih1 hT _ h2) (ih2 hK hT _ hp)
  case fiNil => intro id n vs hT es' hr; cases hr; exact .nil
  case fiSkip =>
    intro id n kd s d es vs vs' hk hf hs _ ih hT es' hr
    cases hr with | cons h1 h2 hp => exact .skip (fieldKey_respelled hk h1) hf (strict_respelled hs h2) (ih hT _ hp)
  case fiPlain =>
    intro id n kd s i f d es vs v0 v vs' hk hf ho hv _ _ ih1 ih2 hT es' hr
    cases hr with | cons h1 h2 hp => exact .plain (fieldKey_respelled hk h1) hf ho hv (ih1 (fieldFor_needs hf hT) _ h2) (ih2 hT _ hp)
  case fiWrapped =>
    intro id n kd s i f d es vs v0 v vs' hk hf ho hs hv hw' _ ih hT es' hr
    cases hr with | cons h1 h2 hp => exact .wrapped (fieldKey_respelled hk h1) hf ho hs hv (wrapped_respelled hw' h2) (ih hT _ hp)
  case fiPtrNull =>
    intro id n kd s i f e es vs v0 vs' hk hf ho hp' hs hv _ ih hT es' hr
    cases hr with | cons h1 h2 hp => cases h2; exact .wrappedPtrNull (fieldKey_respelled hk h1) hf ho hp' hs hv (ih hT _ hp)
  case fiPtr =>
    intro id n kd s i f e d es vs v0 b v vs' hk hf ho hp' hs hv hb hd hw' _ ih hT es' hr
    cases hr with
    | cons h1 h2 hp =>
      exact .wrappedPtr (fieldKey_respelled hk h1) hf ho hp' hs hv hb (respelled_ne_null h2 hd) (wrapped_respelled hw' h2) (ih hT _ hp)

mutual
/-- A trip through PHP that meets no number among the string keys spells numbers the usual way, and does nothing else. -/
theorem trip_respelled {W : World} : ∀ {d d' : Doc}, NoNumberKeys d → Trip W d d' → Respelled W d d'
  | _, _, _, .null => .null
  | _, _, _, .bool => .bool
  | _, _, _, .int h _ => .int h
  | _, _, _, .float h1 h2 h3 => .float h1 h2 h3
  | _, _, _, .str h => by rw [← h.2.1]; exact .str h.1
  | _, _, hk, .arr h hp _ => by
    unfold NoNumberKeys at hk
    have h4 := Respelled.arr h.1 (tripPairs_respelled hk hp)
    rw [h.2.1] at h4
    exact h4
theorem tripPairs_respelled {W : World} : ∀ {es es' : List (Doc × Doc)}, NoNumberPairs es → TripPairs W es es' → RespelledPairs W es es'
  | _, _, _, .nil => .nil
  | _, _, hk, .cons h1 h2 h3 => by
    unfold NoNumberPairs at hk
    refine .cons ?_ (trip_respelled hk.2.1 h2) (tripPairs_respelled hk.2.2 h3)
    cases h1 with
    | int h _ => exact .int h
    | str h _ => rw [← h.2.1]; exact .str h.1
    | number h hi => exact absurd ⟨_, hi, rfl⟩ (hk.1 _ _ rfl)
end

/-- The types used by `t`, and what an `any` may hold. -/
theorem blind_closed {W : World} {t : Ty} (h : Blind W t) : Closed W (fun t' => Uses W t t' ∨ t' = .any ∨ t' = .str) := by
  have hn : ∀ {t' : Ty}, Needs W .any t' → False := fun h => by cases h <;> (have hp := ‹Plain W _ _›.2; cases hp)
  have hs : ∀ {t' : Ty}, Needs W .str t' → False := fun h => by cases h <;> (have hp := ‹Plain W _ _›.2; cases hp)
  refine ⟨?_, fun _ _ _ => ⟨.inr (.inl rfl), .inr (.inr rfl)⟩, ?_, ?_⟩
  · rintro _ _ (h1 | rfl | rfl) h2
    · exact .inl (.step h1 h2)
    · exact (hn h2).elim
    · exact (hs h2).elim
  · rintro _ id (h1 | rfl | rfl) h2
    · exact h.unm _ _ h1 h2
    · cases h2
    · cases h2
  · rintro _ i (h1 | rfl | rfl) h2
    · exact h.dyn _ _ h1 h2
    · cases h2.2
    · cases h2.2

theorem ordinary_blind {W : World} {t : Ty} (h : ∀ t', Uses W t t' → Ordinary W t') : Blind W t := by
  refine ⟨fun t' id hu he => ?_, fun t' i hu he => ?_⟩
  · rw [(h _ hu).unm] at he; cases he
  · have := (h _ hu).kind
    rw [he.2] at this
    exact this.elim

/-! ### What `Marshal` writes -/

theorem noNumberPairs_iff {es : List (Doc × Doc)} :
    NoNumberPairs es ↔ (∀ k v, (k, v) ∈ es → ∀ len s, k = .str len s → ¬ NumberKey s) ∧ ∀ k v, (k, v) ∈ es → NoNumberKeys v := by
  induction es with
  | nil => simp [NoNumberPairs]
  | cons e es ih =>
    obtain ⟨k, v⟩ := e
    rw [NoNumberPairs, ih]
    constructor
    · rintro ⟨h1, h2, h3, h4⟩
      refine ⟨fun k' v' hm => ?_, fun k' v' hm => ?_⟩
      · rcases List.mem_cons.1 hm with h | h
        · cases h; exact h1
        · exact h3 _ _ h
      · rcases List.mem_cons.1 hm with h | h
        · cases h; exact h2
        · exact h4 _ _ h
    · rintro ⟨h1, h2⟩
      exact ⟨h1 _ _ List.mem_cons_self, h2 _ _ List.mem_cons_self, fun _ _ h => h1 _ _ (List.mem_cons_of_mem _ h), fun _ _ h => h2 _ _ (List.mem_cons_of_mem _ h)⟩

theorem words_container {α : Type} {vs : List α} {kd : Nat → Doc} {tx : Nat → Bytes}
    (hk : ∀ j v, vs[j]? = some v → Wf (kd j) ∧ ∀ len s, kd j = .str len s → ¬ NumberKey s)
    (h : ∀ j v, vs[j]? = some v → ∃ d, tx j = d.text ∧ Wf d ∧ NoNumberKeys d) : ∃ d, arrText vs.length kd tx = d.text ∧ Wf d ∧ NoNumberKeys d := by
  obtain ⟨D, hD⟩ := choose_docs h
  refine ⟨_, arrText_doc fun j hj => (hD j vs[j] (List.getElem?_eq_getElem hj)).1,
    wf_arr (fun j hj => (hk j vs[j] (List.getElem?_eq_getElem hj)).1) fun j hj => (hD j vs[j] (List.getElem?_eq_getElem hj)).2.1, ?_⟩
  rw [NoNumberKeys, noNumberPairs_iff]
  refine ⟨fun k v hm => ?_, fun k v hm => ?_⟩
  · obtain ⟨j, -, hj, rfl, -⟩ := mem_pairDocs.1 hm
    exact (hk j _ (List.getElem?_eq_getElem (by omega))).2
  · obtain ⟨j, -, hj, -, rfl⟩ := mem_pairDocs.1 hm
    exact (hD j vs[j] (List.getElem?_eq_getElem (by omega))).2.2

theorem words_scalar {W : World} (hf : FloatTextsOk W) {t : Ty} {v : GV} {d : Doc} (h : ScalarDoc W t v d) : Wf d ∧ NoNumberKeys d :=
  ⟨wf_scalar hf h, by cases h <;> exact trivial⟩

theorem words_strField {W : World} {h : Heap} {t : Ty} {v : GV} {d : Doc} (hd : StrFieldDoc W h t v d) : Wf d ∧ NoNumberKeys d :=
  ⟨wf_strField hd, by cases hd <;> exact trivial⟩

theorem words_key {W : World} {t : Ty} {v : GV} {d : Doc} (h : KeyDoc W t v d) (hs : ∀ s, v = .str s → ¬ NumberKey s) :
    Wf d ∧ ∀ len s, d = .str len s → ¬ NumberKey s := by
  refine ⟨wf_key h, fun len s hd => ?_⟩
  cases h with
  | int => cases hd
  | uint => cases hd
  | str => cases hd; exact hs _ rfl

/-- No string that PHP takes for an integer is a key in what `Marshal` writes, if there is none in the value. -/
theorem encG_words {W : World} {h : Heap} {ok : Ty → Prop} {G : Stack → Nat → Bool → Prop} (hf : FloatTextsOk W)
    {m : Mode} {st : Stack} {p : Path} {t : Ty} {v : GV} {tx : Bytes} (he : EncG W h ok G m st p t v tx)
    (hk : ∀ t' v', Within W h t v t' v' → W.marOf t' = false ∧ WordKeys W h t' v') : ∃ d, tx = d.text ∧ Wf d ∧ NoNumberKeys d := by
  have hnull : ∃ d : Doc, Doc.null.text = d.text ∧ Wf d ∧ NoNumberKeys d := ⟨.null, rfl, fun _ => .null, trivial⟩
  induction he with
  | marshaler a hr => rw [(hk _ _ .refl).1] at a; cases a
  | bytesNil => exact ⟨strDoc _, rfl, wf_str _, trivial⟩
  | bytes => exact ⟨strDoc _, rfl, wf_str _, trivial⟩
  | plain _ _ _ _ ih => exact ih hk
  | ptrNil => exact hnull
  | ptrStruct _ hr _ _ _ ih => exact ih fun t' v' hw => hk t' v' (.step (.ptr hr) hw)
  | ptrKind _ hr _ _ ih => exact ih fun t' v' hw => hk t' v' (.step (.ptr hr) hw)
  | ptrTyped _ hr _ _ _ _ _ ih => exact ih fun t' v' hw => hk t' v' (.step (.ptr hr) hw)
  | ptrIface _ _ _ _ ih => exact ih hk
  | scalar hs => exact ⟨_, rfl, words_scalar hf hs⟩
  | struct hr hws _ ih => exact words_container (fun j w hw => ⟨wf_str _, fun len s hs => by
      obtain ⟨f, om, -, h1, -, -, h2, -⟩ := written_field hws (List.mem_of_getElem? hw)
      simp only [hw, Option.map_some, Option.getD_some, strDoc, Doc.str.injEq] at hs
      rw [← hs.2]
      exact (hk _ _ .refl).2 _ _ _ hr (List.mem_of_getElem? h1) ⟨_, _, h2⟩⟩) fun j w hw => ih j w hw fun t' v' hw' => hk t' v' (.step (written_part hr hws hw) hw')
  | array hr _ _ ih =>
    exact words_container (fun _ _ _ => ⟨wf_nat _, fun _ _ h => by cases h⟩) fun j w hw => ih j w hw fun t' v' hw' => hk t' v' (.step (.array hr (List.mem_of_getElem? hw)) hw')
  | sliceNil => exact hnull
  | slice hr _ hv _ ih =>
    subst hv
    exact words_container (fun _ _ _ => ⟨wf_nat _, fun _ _ h => by cases h⟩) fun j w hw => ih j w hw fun t' v' hw' => hk t' v' (.step (.slice hr (List.mem_of_getElem? hw)) hw')
  | mapNil => exact hnull
  | map hr _ hv hkd _ ih =>
    subst hv
    exact words_container (fun j w hw => words_key (hkd j w.1 w.2 hw) fun s hs => (hk _ _ .refl).2 _ _ _ _ hr (List.mem_of_getElem? hw) s hs) fun j w hw => ih j w.1 w.2 hw fun t' v' hw' =>
      hk t' v' (.step (.map hr (List.mem_of_getElem? hw)) hw')
  | iface _ _ ih => exact ih hk
  | heldNil => exact hnull
  | heldScalar _ hs => exact ⟨_, rfl, words_scalar hf hs⟩
  | heldConcreteSlice hd _ _ _ _ _ ih => exact ih fun t' v' hw => hk t' v' (within_trans (deref_within hd rfl) hw)
  | heldSliceNil => exact hnull
  | heldSlice hd hr _ _ hv _ ih =>
    subst hv
    exact words_container (fun _ _ _ => ⟨wf_nat _, fun _ _ h => by cases h⟩) fun j w hw => ih j w hw fun t' v' hw' =>
      hk t' v' (within_trans (deref_within hd rfl) (.step (.slice hr (List.mem_of_getElem? hw)) hw'))
  | heldMapNil => exact hnull
  | heldMap hd hr _ _ _ hv hkd _ ih =>
    subst hv
    exact words_container (fun j w hw => words_key (hkd j w.1 w.2 hw) fun s hs => (hk _ _ (deref_within hd rfl)).2 _ _ _ _ hr (List.mem_of_getElem? hw) s hs) fun j w hw => ih j w.1 w.2 hw fun t' v' hw' =>
      hk t' v' (within_trans (deref_within hd rfl) (.step (.map hr (List.mem_of_getElem? hw)) hw'))
  | heldConcreteMap hd hr _ _ _ hv _ hkd _ ih =>
    subst hv
    exact words_container (fun j w hw => words_key (hkd j w.1 w.2 hw) fun s hs => (hk _ _ (deref_within hd rfl)).2 _ _ _ _ hr (List.mem_of_getElem? hw) s hs) fun j w hw => ih j w.1 w.2 hw fun t' v' hw' =>
      hk t' v' (within_trans (deref_within hd rfl) (.step (.map hr (List.mem_of_getElem? hw)) hw'))
  | heldStruct hd _ _ _ ih => exact ih fun t' v' hw => hk t' v' (within_trans (deref_within hd rfl) hw)
  | fieldPlain _ _ ih => exact ih hk
  | fieldPtrNil => exact hnull
  | fieldPtrStruct hr _ _ _ ih => exact ih fun t' v' hw => hk t' v' (.step (.ptr hr) hw)
  | fieldPtr hr _ _ ih => exact ih fun t' v' hw => hk t' v' (.step (.ptr hr) hw)
  | fieldStr _ hd => exact ⟨_, rfl, words_strField hd⟩
  | fieldStrPtr _ hd => exact ⟨_, rfl, words_strField hd⟩


/-! ### What PHP makes of it -/

/-- PHP reads the text and writes the same text, as long as it is of a length Go can handle. -/
def KeptTrip (W : World) (d : Doc) : Prop := d.text.length < 2 ^ 63 → Trip W d d

/-- The same for a key. -/
def KeptKey (d : Doc) : Prop := d.text.length < 2 ^ 63 → TripKey d d

theorem kept_str {W : World} (s : Bytes) : KeptTrip W (strDoc s) := fun h => .str (lenText_natText (by simp [strDoc, Doc.text] at h; omega))

theorem trip_int {W : World} {i : Int} (h : InRange .i64 i) : Trip W (.int (intText i)) (.int (intText i)) := .int (intText_spec i) h

theorem nat_range {n : Nat} (h : n < 2 ^ 63) : InRange .i64 (n : Int) := by
  refine ⟨?_, ?_⟩ <;> simp only [intMax] <;> omega

theorem kept_scalar {W : World} {h : Heap} (hf : FloatTextsOk W) {t : Ty} {v : GV} {d : Doc} (hd : ScalarDoc W t v d) (hv : PhpFit W h t v) : KeptTrip W d := by
  cases hd with
  | bool => exact fun _ => .bool
  | int => exact fun _ => trip_int hv
  | uint => exact fun _ => trip_int (nat_range hv)
  | f32 _ ho =>
    refine fun _ => .float ?_ ?_ fun _ h => h <;> cases ho with
    | finite _ _ _ h => rw [fmtText32_iff.1 h]; first | exact (hf.f32 _ _).1 | exact (hf.f32 _ _).2
    | _ => decide
  | f64 _ ho =>
    refine fun _ => .float ?_ ?_ fun _ h => h <;> cases ho with
    | finite _ _ _ h => rw [fmtText64_iff.1 h]; first | exact (hf.f64 _ _).1 | exact (hf.f64 _ _).2
    | _ => decide
  | str => exact kept_str _

theorem kept_strField {W : World} {h : Heap} {t : Ty} {v : GV} {d : Doc} (hd : StrFieldDoc W h t v d) : KeptTrip W d := by
  cases hd with
  | str => exact kept_str _
  | basic => exact kept_str _
  | ifaceNil => exact fun _ => .null
  | iface => exact kept_str _

theorem keptKey_str {s : Bytes} (hs : ¬ NumberKey s) : KeptKey (strDoc s) :=
  fun h => .str (lenText_natText (by simp [strDoc, Doc.text] at h; omega)) hs

theorem kept_key {W : World} {t : Ty} {v : GV} {d : Doc} (h : KeyDoc W t v d) (hs : ∀ s, v = .str s → ¬ NumberKey s)
    (hn : (∀ i, v = .int i → InRange .i64 i) ∧ ∀ n, v = .uint n → n < 2 ^ 63) : KeptKey d := by
  cases h with
  | int => exact fun _ => .int (intText_spec _) (hn.1 _ rfl)
  | uint => exact fun _ => .int (intText_spec (Int.ofNat _)) (nat_range (hn.2 _ rfl))
  | str => exact keptKey_str (hs _ rfl)

theorem tripPairs_refl {W : World} {es : List (Doc × Doc)} (hk : ∀ k v, (k, v) ∈ es → TripKey k k) (hv : ∀ k v, (k, v) ∈ es → Trip W v v) :
    TripPairs W es es := by
  induction es with
  | nil => exact .nil
  | cons e es ih =>
    exact .cons (hk _ _ List.mem_cons_self) (hv _ _ List.mem_cons_self) (ih (fun k v h => hk k v (List.mem_cons_of_mem _ h)) fun k v h => hv k v (List.mem_cons_of_mem _ h))

theorem pairDocs_distinct {kd D : Nat → Doc} {n : Nat} : ∀ {i m : Nat}, i + m ≤ n → (∀ i j, i < j → j < n → kd i ≠ kd j) →
    (pairDocs kd D i m).Pairwise (fun x y => x.1 ≠ y.1) := by
  intro i m
  induction m generalizing i with
  | zero => intro _ _; exact .nil
  | succ m ih =>
    intro hn h
    have h1 : pairDocs kd D i (m + 1) = (kd i, D i) :: pairDocs kd D (i + 1) m := by simp [pairDocs, List.range'_succ]
    rw [h1]
    refine .cons (fun x hx => ?_) (ih (by omega) h)
    obtain ⟨j, h2, h3, h4, -⟩ := mem_pairDocs.1 (show (x.1, x.2) ∈ _ from hx)
    rw [h4]
    exact h i j (by omega) (by omega)

theorem kept_container {W : World} {α : Type} {vs : List α} {kd : Nat → Doc} {tx : Nat → Bytes}
    (hk : ∀ j v, vs[j]? = some v → j < 2 ^ 63 → KeptKey (kd j)) (hne : ∀ i j x y, vs[i]? = some x → vs[j]? = some y → i < j → kd i ≠ kd j)
    (h : ∀ j v, vs[j]? = some v → ∃ d, tx j = d.text ∧ KeptTrip W d) : ∃ d, arrText vs.length kd tx = d.text ∧ KeptTrip W d := by
  obtain ⟨D, hD⟩ := choose_docs h
  refine ⟨_, arrText_doc fun j hj => (hD j vs[j] (List.getElem?_eq_getElem hj)).1, fun hl => ?_⟩
  have h1 : (pairsText (pairDocs kd D 0 vs.length)).length < 2 ^ 63 := by
    have := container_len (d := .arr (natText vs.length) (pairDocs kd D 0 vs.length)) .arr
    omega
  have hlen := pairDocs_length kd D 0 vs.length
  have hcnt := pairs_count (pairDocs kd D 0 vs.length)
  have key : Trip W (.arr (natText vs.length) (pairDocs kd D 0 vs.length)) (.arr (natText (pairDocs kd D 0 vs.length).length) (pairDocs kd D 0 vs.length)) := by
    refine .arr (by rw [hlen]; exact lenText_natText (by omega)) (tripPairs_refl (fun k v hm => ?_) (fun k v hm => ?_)) (pairDocs_distinct (n := vs.length) (by omega) fun i j hij hj => ?_)
    · have hml := mem_pairs_len hm
      obtain ⟨j, -, hj, rfl, rfl⟩ := mem_pairDocs.1 hm
      exact hk j _ (List.getElem?_eq_getElem (by omega)) (by omega) (by omega)
    · have hml := mem_pairs_len hm
      obtain ⟨j, -, hj, rfl, rfl⟩ := mem_pairDocs.1 hm
      exact (hD j vs[j] (List.getElem?_eq_getElem (by omega))).2 (by omega)
    · exact hne i j vs[i] vs[j] (List.getElem?_eq_getElem (by omega)) (List.getElem?_eq_getElem (by omega)) hij
  rw [hlen] at key
  exact key

theorem natText_inj {a b : Nat} (h : natText a = natText b) : a = b := by
  rw [← natText_val a, ← natText_val b, h]

theorem intText_inj {a b : Int} (h : intText a = intText b) : a = b :=
  intText_unique (intText_spec a) (by rw [h]; exact intText_spec b)

theorem keys_ne {W : World} {k : Ty} {x y : GV} {d d' : Doc} (hx : KeyDoc W k x d) (hy : KeyDoc W k y d') (hn : x ≠ y) : d ≠ d' := by
  rintro rfl
  cases hx with
  | int h1 =>
    generalize hd : Doc.int (intText _) = d at hy
    cases hy with
    | int _ => exact hn (by rw [intText_inj (Doc.int.inj hd)])
    | uint h2 _ => rw [h1] at h2; cases h2
    | str h2 => cases hd
  | uint h1 _ =>
    generalize hd : Doc.int (natText _) = d at hy
    cases hy with
    | int h2 => rw [h1] at h2; cases h2
    | uint h2 _ => exact hn (by rw [natText_inj (Doc.int.inj hd)])
    | str h2 => cases hd
  | str h1 =>
    generalize hd : strDoc _ = d at hy
    cases hy with
    | int h2 => cases hd
    | uint h2 _ => cases hd
    | str _ => exact hn (by rw [(Doc.str.inj hd).2])

theorem pairwise_ne {xs : List (GV × GV)} (h : xs.Pairwise (fun x y => x.1 ≠ y.1)) {i j : Nat} {x y : GV × GV} (hx : xs[i]? = some x) (hy : xs[j]? = some y)
    (hij : i < j) : x.1 ≠ y.1 := by
  obtain ⟨hi, rfl⟩ := List.getElem?_eq_some_iff.1 hx
  obtain ⟨hj, rfl⟩ := List.getElem?_eq_some_iff.1 hy
  exact List.pairwise_iff_getElem.1 h i j hi hj hij

theorem kept_idx {α : Type} {vs : List α} : ∀ j v, vs[j]? = some v → j < 2 ^ 63 → KeptKey (idxDoc j) :=
  fun j _ _ hj _ => .int (intText_spec (Int.ofNat j)) (nat_range hj)

theorem idx_ne {α : Type} {vs : List α} : ∀ i j x y, vs[i]? = some x → vs[j]? = some y → i < j → idxDoc i ≠ idxDoc j := by
  intro i j _ _ _ _ hij h
  have := natText_inj (Doc.int.inj h)
  omega

theorem kept_field {W : World} {h : Heap} {t : Ty} {id : Nat} {vs : List GV} {ws : List WField} (hr : W.resolve t = .struct id)
    (hw : Written W 0 (W.fields id) vs ws) {j : Nat} {w : WField} (hj : ws[j]? = some w) (hk : WordKeys W h t (.struct vs)) :
    KeptKey (strDoc ((ws[j]?.map (·.key)).getD [])) := by
  obtain ⟨f, om, -, h1, -, -, h2, -⟩ := written_field hw (List.mem_of_getElem? hj)
  rw [hj]
  exact keptKey_str (hk _ _ _ hr (List.mem_of_getElem? h1) ⟨_, _, h2⟩)

theorem fields_ne {W : World} {h : Heap} {t : Ty} {id : Nat} {vs : List GV} {ws : List WField} (hr : W.resolve t = .struct id)
    (hw : Written W 0 (W.fields id) vs ws) {i j : Nat} {x y : WField} (hx : ws[i]? = some x) (hy : ws[j]? = some y) (hij : i < j)
    (hk : PhpFit W h t (.struct vs)) : strDoc ((ws[i]?.map (·.key)).getD []) ≠ strDoc ((ws[j]?.map (·.key)).getD []) := by
  obtain ⟨f, om, -, h1, -, h2, h3, h4, -⟩ := written_field hw (List.mem_of_getElem? hx)
  obtain ⟨g, om', -, g1, -, g2, g3, -⟩ := written_field hw (List.mem_of_getElem? hy)
  rw [hx, hy]
  intro he
  have he' : x.key = y.key := (Doc.str.inj he).2
  have hxy : x.idx < y.idx := by
    have hp := (written_positions hw).1
    obtain ⟨hi, rfl⟩ := List.getElem?_eq_some_iff.1 hx
    obtain ⟨hj, rfl⟩ := List.getElem?_eq_some_iff.1 hy
    have := List.pairwise_iff_getElem.1 hp i j (by simpa using hi) (by simpa using hj) hij
    simpa using this
  have := hk id _ _ f g x.key hr h1 g1 h2 g2 ⟨_, _, h3⟩ ⟨_, _, by rw [he']; exact g3⟩ h4
  omega

/-- No string that PHP takes for an integer is a key in what `Marshal` writes, and everything fits: PHP reads the text and writes the
same one. -/
theorem encG_kept {W : World} {h : Heap} {ok : Ty → Prop} {G : Stack → Nat → Bool → Prop} (hf : FloatTextsOk W)
    {m : Mode} {st : Stack} {p : Path} {t : Ty} {v : GV} {tx : Bytes} (he : EncG W h ok G m st p t v tx)
    (hk : ∀ t' v', Within W h t v t' v' → W.marOf t' = false ∧ WordKeys W h t' v' ∧ PhpFit W h t' v') : ∃ d, tx = d.text ∧ KeptTrip W d := by
  have hnull : ∃ d : Doc, Doc.null.text = d.text ∧ KeptTrip W d := ⟨.null, rfl, fun _ => .null⟩
  induction he with
  | marshaler a hr => rw [(hk _ _ .refl).1] at a; cases a
  | bytesNil => exact ⟨strDoc _, rfl, kept_str _⟩
  | bytes => exact ⟨strDoc _, rfl, kept_str _⟩
  | plain _ _ _ _ ih => exact ih hk
  | ptrNil => exact hnull
  | ptrStruct _ hr _ _ _ ih => exact ih fun t' v' hw => hk t' v' (.step (.ptr hr) hw)
  | ptrKind _ hr _ _ ih => exact ih fun t' v' hw => hk t' v' (.step (.ptr hr) hw)
  | ptrTyped _ hr _ _ _ _ _ ih => exact ih fun t' v' hw => hk t' v' (.step (.ptr hr) hw)
  | ptrIface _ _ _ _ ih => exact ih hk
  | scalar hs => exact ⟨_, rfl, kept_scalar hf hs (hk _ _ .refl).2.2⟩
  | struct hr hws _ ih =>
    exact kept_container (fun j w hw _ => kept_field hr hws hw (hk _ _ .refl).2.1)
      (fun i j x y hx hy hij => fields_ne hr hws hx hy hij (hk _ _ .refl).2.2) fun j w hw => ih j w hw fun t' v' hw' => hk t' v' (.step (written_part hr hws hw) hw')
  | array hr _ _ ih =>
    exact kept_container kept_idx idx_ne fun j w hw => ih j w hw fun t' v' hw' => hk t' v' (.step (.array hr (List.mem_of_getElem? hw)) hw')
  | sliceNil => exact hnull
  | slice hr _ hv _ ih =>
    subst hv
    exact kept_container kept_idx idx_ne fun j w hw => ih j w hw fun t' v' hw' => hk t' v' (.step (.slice hr (List.mem_of_getElem? hw)) hw')
  | mapNil => exact hnull
  | map hr _ hv hkd _ ih =>
    subst hv
    exact kept_container (fun j w hw _ => kept_key (hkd j w.1 w.2 hw) (fun s hs => (hk _ _ .refl).2.1 _ _ _ _ hr (List.mem_of_getElem? hw) s hs)
        (((hk _ _ .refl).2.2 _ _ _ hr).2 _ (List.mem_of_getElem? hw)))
      (fun i j x y hx hy hij => keys_ne (hkd i x.1 x.2 hx) (hkd j y.1 y.2 hy) (pairwise_ne ((hk _ _ .refl).2.2 _ _ _ hr).1 hx hy hij)) fun j w hw => ih j w.1 w.2 hw fun t' v' hw' =>
      hk t' v' (.step (.map hr (List.mem_of_getElem? hw)) hw')
  | iface _ _ ih => exact ih hk
  | heldNil => exact hnull
  | heldScalar hd hs => exact ⟨_, rfl, kept_scalar hf hs (hk _ _ (deref_within hd rfl)).2.2⟩
  | heldConcreteSlice hd _ _ _ _ _ ih => exact ih fun t' v' hw => hk t' v' (within_trans (deref_within hd rfl) hw)
  | heldSliceNil => exact hnull
  | heldSlice hd hr _ _ hv _ ih =>
    subst hv
    exact kept_container kept_idx idx_ne fun j w hw => ih j w hw fun t' v' hw' =>
      hk t' v' (within_trans (deref_within hd rfl) (.step (.slice hr (List.mem_of_getElem? hw)) hw'))
  | heldMapNil => exact hnull
  | heldMap hd hr _ _ _ hv hkd _ ih =>
    subst hv
    exact kept_container (fun j w hw _ => kept_key (hkd j w.1 w.2 hw) (fun s hs => (hk _ _ (deref_within hd rfl)).2.1 _ _ _ _ hr (List.mem_of_getElem? hw) s hs)
        (((hk _ _ (deref_within hd rfl)).2.2 _ _ _ hr).2 _ (List.mem_of_getElem? hw)))
      (fun i j x y hx hy hij => keys_ne (hkd i x.1 x.2 hx) (hkd j y.1 y.2 hy) (pairwise_ne ((hk _ _ (deref_within hd rfl)).2.2 _ _ _ hr).1 hx hy hij)) fun j w hw => ih j w.1 w.2 hw fun t' v' hw' =>
      hk t' v' (within_trans (deref_within hd rfl) (.step (.map hr (List.mem_of_getElem? hw)) hw'))
  | heldConcreteMap hd hr _ _ _ hv _ hkd _ ih =>
    subst hv
    exact kept_container (fun j w hw _ => kept_key (hkd j w.1 w.2 hw) (fun s hs => (hk _ _ (deref_within hd rfl)).2.1 _ _ _ _ hr (List.mem_of_getElem? hw) s hs)
        (((hk _ _ (deref_within hd rfl)).2.2 _ _ _ hr).2 _ (List.mem_of_getElem? hw)))
      (fun i j x y hx hy hij => keys_ne (hkd i x.1 x.2 hx) (hkd j y.1 y.2 hy) (pairwise_ne ((hk _ _ (deref_within hd rfl)).2.2 _ _ _ hr).1 hx hy hij)) fun j w hw => ih j w.1 w.2 hw fun t' v' hw' =>
      hk t' v' (within_trans (deref_within hd rfl) (.step (.map hr (List.mem_of_getElem? hw)) hw'))
  | heldStruct hd _ _ _ ih => exact ih fun t' v' hw => hk t' v' (within_trans (deref_within hd rfl) hw)
  | fieldPlain _ _ ih => exact ih hk
  | fieldPtrNil => exact hnull
  | fieldPtrStruct hr _ _ _ ih => exact ih fun t' v' hw => hk t' v' (.step (.ptr hr) hw)
  | fieldPtr hr _ _ ih => exact ih fun t' v' hw => hk t' v' (.step (.ptr hr) hw)
  | fieldStr _ hd => exact ⟨_, rfl, kept_strField hd⟩
  | fieldStrPtr _ hd => exact ⟨_, rfl, kept_strField hd⟩

/-! ### The usual spelling -/

theorem natText_le {t : Bytes} (h : IsDigits t) : (natText (digitsVal t)).length ≤ t.length :=
  natText_length (List.length_pos_iff.2 h.1) (digitsVal_lt h.2)

theorem intText_le {t : Bytes} {i : Int} (h : IntText t i) : (intText i).length ≤ t.length := by
  cases h with
  | pos h => rw [intText_natCast]; exact natText_le h
  | @neg ds h =>
    have := natText_le h
    generalize digitsVal ds = n at *
    cases n with
    | zero => show (natText 0).length ≤ _; simp only [List.length_cons]; omega
    | succ n => show (45 :: natText (n + 1)).length ≤ _; simp only [List.length_cons]; omega

mutual
/-- The document with the usual numerals. -/
theorem usual_exists {W : World} {n : Nat} : ∀ {d : Doc}, Lax n d → ∃ d', Respelled W d d' ∧ d'.text.length ≤ d.text.length
  | .null, _ => ⟨.null, .null, Nat.le_refl _⟩
  | .bool b, _ => ⟨.bool b, .bool, Nat.le_refl _⟩
  | .int t, h => by
    cases h with
    | int h => exact ⟨_, .int h, by have := intText_le h; simp only [Doc.text, List.length_append, List.length_cons, List.length_nil]; omega⟩
  | .float t, h => by
    cases h with
    | float h1 h2 => exact ⟨_, .float h1 h2 fun _ h => h, Nat.le_refl _⟩
  | .str len s, h => by
    cases h with
    | str h => exact ⟨_, .str h.1, by have := natText_le h.1; simp only [Doc.text, List.length_append, List.length_cons, List.length_nil]; omega⟩
  | .arr cnt es, h => by
    cases h with
    | arr h h1 h2 =>
      obtain ⟨es', h3, h4⟩ := usual_pairs h1 h2
      exact ⟨_, .arr h h3, by have := natText_le h; simp only [Doc.text, List.length_append, List.length_cons, List.length_nil]; omega⟩
  | .obj clen cls cnt es, h => by
    cases h with
    | obj hc h h1 h2 =>
      obtain ⟨es', h3, h4⟩ := usual_pairs h1 h2
      exact ⟨_, .obj hc.1 h h3, by
        have := natText_le h; have := natText_le hc.1; simp only [Doc.text, List.length_append, List.length_cons, List.length_nil]; omega⟩
theorem usual_pairs {W : World} {n : Nat} : ∀ {es : List (Doc × Doc)}, (∀ k v, (k, v) ∈ es → Lax n k) → (∀ k v, (k, v) ∈ es → Lax n v) →
    ∃ es', RespelledPairs W es es' ∧ (pairsText es').length ≤ (pairsText es).length
  | [], _, _ => ⟨[], .nil, Nat.le_refl _⟩
  | (k, v) :: es, h1, h2 => by
    obtain ⟨k', a1, a2⟩ := usual_exists (W := W) (h1 k v List.mem_cons_self)
    obtain ⟨v', b1, b2⟩ := usual_exists (W := W) (h2 k v List.mem_cons_self)
    obtain ⟨es', c1, c2⟩ := usual_pairs (W := W) (es := es) (fun k v h => h1 k v (List.mem_cons_of_mem _ h)) (fun k v h => h2 k v (List.mem_cons_of_mem _ h))
    exact ⟨_, .cons a1 b1 c1, by simp only [pairsText, List.length_append]; omega⟩
end

end Verif

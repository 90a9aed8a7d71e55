import Verif.Spec.Accept
import Verif.Proofs.Used
/-
Lemmas about which documents a type takes.
-/
namespace Verif
open Spec

variable {W : World}

/-- No interface with methods is reached from the type. -/
def NoMethods (W : World) (t : Ty) : Prop := ∀ t' i, Reach W t t' → ¬ Plain W t' (.iface i)

theorem reach_front {a b c : Ty} (h : Component W a b) (h' : Reach W b c) : Reach W a c := by
  induction h' with
  | refl => exact .step .refl h
  | step _ h2 ih => exact .step ih h2

theorem reach_any {t : Ty} (h : Reach W .any t) : t = .any := by
  induction h with
  | refl => rfl
  | step _ h2 ih => subst ih; cases h2 with | _ hp => cases hp.2

theorem noMethods_comp {t t' : Ty} (h : NoMethods W t) (hc : Component W t t') : NoMethods W t' := fun t'' i hr => h t'' i (reach_front hc hr)

theorem noMethods_step {t t' : Ty} {n n' : Nat} {d d' : Doc} (h : NoMethods W t) (hs : DocStep W t n d t' n' d') : NoMethods W t' := by
  cases hs with
  | ptr hp => exact noMethods_comp h (.ptr hp)
  | slice hp => exact noMethods_comp h (.slice hp)
  | array hp => exact noMethods_comp h (.array hp)
  | mapKey hp => exact noMethods_comp h (.mapKey hp)
  | mapVal hp => exact noMethods_comp h (.mapVal hp)
  | field hp _ _ _ hf => exact noMethods_comp h (.field hp (List.mem_iff_getElem?.2 ⟨_, hf.1⟩))
  | any =>
    intro t' i hr hp
    rw [reach_any hr] at hp
    cases hp.2

theorem inPlace_reach {t t' : Ty} (h : InPlace W t t') : Reach W t t' := by
  induction h with
  | refl => exact .refl
  | ptr _ h ih => exact .step ih (.ptr h)
  | field _ h1 h2 _ ih => exact .step ih (.field h1 h2)

/-- What is stored suits the type. -/
theorem dec_slot (hz : ∀ t, Slot W t (W.zero t)) {t : Ty} (hn : NoMethods W t) {n : Nat} {d : Doc} {rv v : Val} (h : DecDoc W t n d rv v) (hs : Slot W t rv) :
    Slot W t v := by
  obtain ⟨o, h1, rfl, -⟩ := decDoc_acts (K := fun _ => True) hz trivial h fun t' ht => ⟨fun i => hn t' i (inPlace_reach ht), fun _ _ _ _ _ _ _ _ => trivial⟩
  exact app_shape hz h1 hs

theorem intText_val {txt : Bytes} {i j : Nat} (h : IntText txt (i : Int)) (h' : IntText txt (j : Int)) : i = j := by
  have := intText_unique h h'
  omega

theorem fieldKey_val {kd : Doc} {s s' : Bytes} (h : FieldKey kd s) (h' : FieldKey kd s') : s = s' := by
  cases h <;> cases h' <;> rfl

theorem scalar_not_ignored {t : Ty} (h : IsScalar W t) (h' : StringIgnored W t) : False := by
  rcases h with h | ⟨k, h⟩ | ⟨k, h⟩ | h | h <;> obtain ⟨h1, h2⟩ := h <;> simp [StringIgnored, h1, h2] at h'

theorem fieldFor_val {id i j : Nat} {s : Bytes} {f g : Field} (h : FieldFor W id s i f) (h' : FieldFor W id s j g) : i = j ∧ f = g := by
  cases fieldFor_same h h'
  have := h.1.symm.trans h'.1
  cases this
  exact ⟨rfl, rfl⟩

theorem fieldFor_no {id i : Nat} {s : Bytes} {f : Field} (h : FieldFor W id s i f) (h' : NoField W id s) : False := h' i f h.1 h.2.1 h.2.2.1

/-! ### Accepted documents are accepted at every place -/

theorem elems_mem {e : Ty} {n : Nat} {es : List (Doc × Doc)} {vs vs' : List Val} (h : DecElems W e n es vs vs') {k d : Doc} (hm : (k, d) ∈ es) :
    ∃ rv v, DecDoc W e n d rv v := by
  induction es generalizing vs with
  | nil => cases hm
  | cons p es ih =>
    cases h with
    | cons _ _ _ _ h1 h2 =>
      rcases List.mem_cons.1 hm with h3 | h3
      · cases h3; exact ⟨_, _, h1⟩
      · exact ih h2 h3

theorem elems_index {e : Ty} {n : Nat} {es : List (Doc × Doc)} {vs vs' : List Val} (h : DecElems W e n es vs vs')
    (hl : vs.length < 2 ^ 63 ∧ esize W e * vs.length ≤ 2 ^ 48) {k d : Doc} (hm : (k, d) ∈ es) :
    ∃ txt i, k = .int txt ∧ IntText txt (i : Nat) ∧ i + 1 < 2 ^ 63 ∧ esize W e * (i + 1) ≤ 2 ^ 48 := by
  induction es generalizing vs with
  | nil => cases hm
  | cons p es ih =>
    cases h with
    | @cons _ _ txt i _ _ _ _ _ _ h1 h2 h3 h4 h5 h6 =>
      by_cases hi : vs.length ≤ i
      · rcases List.mem_cons.1 hm with h7 | h7
        · cases h7; exact ⟨txt, i, rfl, h1, h3 hi⟩
        · refine ih h6 ?_ h7
          have : ((padTo (W.zero e) i vs).set i ‹Val›).length = i + 1 := by simp [padTo]; omega
          rw [this]; exact h3 hi
      · have h8 : ((padTo (W.zero e) i vs).set i ‹Val›).length = vs.length := by simp [padTo]; omega
        rcases List.mem_cons.1 hm with h7 | h7
        · cases h7
          refine ⟨txt, i, rfl, h1, by omega, Nat.le_trans (Nat.mul_le_mul_left _ (by omega)) hl.2⟩
        · refine ih h6 ?_ h7
          rw [h8]; exact hl

theorem arr_mem {e : Ty} {n : Nat} {es : List (Doc × Doc)} {vs vs' : List Val} (h : DecArr W e n es vs vs') {txt : Bytes} {i : Nat} {d : Doc}
    (hm : (.int txt, d) ∈ es) (hi : IntText txt (i : Nat)) (hl : i < vs.length) : ∃ rv v, DecDoc W e n d rv v := by
  induction es generalizing vs with
  | nil => cases hm
  | cons p es ih =>
    cases h with
    | store _ _ _ h1 h2 =>
      rcases List.mem_cons.1 hm with h3 | h3
      · cases h3; exact ⟨_, _, h1⟩
      · exact ih h2 h3 (by simpa using hl)
    | skip h1 _ h2 _ h4 =>
      rcases List.mem_cons.1 hm with h3 | h3
      · cases h3
        have := intText_val hi h1
        omega
      · exact ih h4 h3 hl

theorem arr_index {e : Ty} {n : Nat} {es : List (Doc × Doc)} {vs vs' : List Val} (h : DecArr W e n es vs vs') {k d : Doc} (hm : (k, d) ∈ es) :
    ∃ txt i, k = .int txt ∧ IntText txt (i : Nat) ∧ i < 2 ^ 63 ∧ (vs.length ≤ i → Strict n d) := by
  induction es generalizing vs with
  | nil => cases hm
  | cons p es ih =>
    cases h with
    | @store _ _ txt i _ _ _ _ _ _ h0 h0' h9 h1 h2 =>
      rcases List.mem_cons.1 hm with h3 | h3
      · cases h3
        refine ⟨txt, i, rfl, h0, h0', fun h => ?_⟩
        rw [List.getElem?_eq_none h] at h9; cases h9
      · simpa using ih h2 h3
    | @skip _ _ txt i _ _ _ _ h1 h1' h2 h5 h4 =>
      rcases List.mem_cons.1 hm with h3 | h3
      · cases h3
        exact ⟨txt, i, rfl, h1, h1', fun _ => h5⟩
      · exact ih h4 h3

theorem pairs_val {km : KeyMode} {e : Ty} {n : Nat} {es : List (Doc × Doc)} {m m' : List (Val × Val)} (h : DecPairs W km e n es m m') {kd d : Doc}
    (hm : (kd, d) ∈ es) : ∃ rv v, DecDoc W e n d rv v := by
  induction es generalizing m with
  | nil => cases hm
  | cons p es ih =>
    rcases List.mem_cons.1 hm with h3 | h3
    · cases h3; cases h <;> exact ⟨_, _, ‹DecDoc W e n d _ _›⟩
    · cases h <;> exact ih ‹DecPairs _ _ _ _ _ _ _› h3

theorem pairs_key {k e : Ty} {n : Nat} {es : List (Doc × Doc)} {m m' : List (Val × Val)} (h : DecPairs W (.ofType k) e n es m m') {kd d : Doc}
    (hm : (kd, d) ∈ es) : (∃ kv, KeyType W k ∧ DecDoc W k n kd (W.zero k) kv ∧ Hashable kv) ∨
      ∃ p, kd = .null ∧ Plain W k (.ptr p) ∧ W.unmOf p = none ∧ KeyType W p := by
  induction es generalizing m with
  | nil => cases hm
  | cons p es ih =>
    rcases List.mem_cons.1 hm with h3 | h3
    · cases h3
      cases h with
      | key h1 h2 _ h4 => exact .inl ⟨_, h1, h2, h4⟩
      | ptrKey h1 h2 h3 => exact .inr ⟨_, rfl, h1, h2, h3⟩
    · cases h <;> exact ih ‹DecPairs _ _ _ _ _ _ _› h3

theorem pairs_keys {e : Ty} {n : Nat} {es : List (Doc × Doc)} {m m' : List (Val × Val)} (h : DecPairs W .anyKey e n es m m') {kd d : Doc}
    (hm : (kd, d) ∈ es) : (∃ txt i, kd = .int txt ∧ IntText txt i ∧ InRange .i64 i) ∨ ∃ len s, kd = .str len s ∧ LenText len s.length := by
  induction es generalizing m with
  | nil => cases hm
  | cons p es ih =>
    rcases List.mem_cons.1 hm with h3 | h3
    · cases h3
      cases h with
      | anyInt h1 h2 => exact .inl ⟨_, _, rfl, h1, h2⟩
      | anyStr h1 => exact .inr ⟨_, _, rfl, h1⟩
    · cases h <;> exact ih ‹DecPairs _ _ _ _ _ _ _› h3

/-- What reading the entries of a struct shows of one of them. -/
theorem fields_mem {id n : Nat} {es : List (Doc × Doc)} {vs vs' : List Val} (h : DecFields W id n es vs vs') {kd d : Doc} (hm : (kd, d) ∈ es) :
    ∃ s, FieldKey kd s ∧ ((NoField W id s ∧ Strict n d) ∨ ∃ i f, FieldFor W id s i f ∧
      (((¬ HasString W f ∨ StringIgnored W f.ty) ∧ ∃ rv v, DecDoc W f.ty n d rv v) ∨ (HasString W f ∧ QuotedOk W f.ty d))) := by
  have quote : ∀ {t : Ty} {d : Doc} {a b : Val}, IsScalar W t → Wrapped W t d a b → QuotedOk W t d := by
    intro t d a b hs h
    cases h with
    | null => exact .null hs
    | str h1 h2 => exact .str hs h1 h2
  induction es generalizing vs with
  | nil => cases hm
  | cons p es ih =>
    rcases List.mem_cons.1 hm with h3 | h3
    · cases h3
      cases h with
      | skip h1 h2 h3 => exact ⟨_, h1, .inl ⟨h2, h3⟩⟩
      | plain h1 h2 h3 _ h5 => exact ⟨_, h1, .inr ⟨_, _, h2, .inl ⟨h3, _, _, h5⟩⟩⟩
      | wrapped h1 h2 h3 h4 _ h6 => exact ⟨_, h1, .inr ⟨_, _, h2, .inr ⟨h3, quote h4 h6⟩⟩⟩
      | wrappedPtrNull h1 h2 h3 h4 h5 => exact ⟨_, h1, .inr ⟨_, _, h2, .inr ⟨h3, .ptrNull h4 h5⟩⟩⟩
      | wrappedPtr h1 h2 h3 h4 h5 _ _ _ h9 =>
        refine ⟨_, h1, .inr ⟨_, _, h2, .inr ⟨h3, ?_⟩⟩⟩
        cases h9 with
        | null => exact .ptrNull h4 h5
        | str h6 h7 => exact .ptrStr h4 h5 h6 h7
    · cases h <;> exact ih ‹DecFields _ _ _ _ _ _› h3

theorem container_same {d : Doc} {cnt cnt' : Bytes} {es es' : List (Doc × Doc)} (h : Container d cnt es) (h' : Container d cnt' es') : cnt = cnt' ∧ es = es' := by
  cases h <;> cases h' <;> exact ⟨rfl, rfl⟩

/-- If a document is accepted, so is each part. -/
theorem step_dec {t t' : Ty} {n n' : Nat} {d d' : Doc} {rv v : Val} (h : DecDoc W t n d rv v) (hs : DocStep W t n d t' n' d') :
    ∃ rv' v', DecDoc W t' n' d' rv' v' := by
  cases hs with
  | ptr hp hd =>
    cases h <;> try other_type hp
    case ptrNull => exact absurd rfl hd
    case ptrNew => have h1 := plain_ne hp ‹Plain W _ _›; cases h1; exact ⟨_, _, ‹_›⟩
    case ptrOld => have h1 := plain_ne hp ‹Plain W _ _›; cases h1; exact ⟨_, _, ‹_›⟩
  | slice hp hm =>
    cases h <;> try other_type hp
    case sliceEmpty => cases hm
    case slice => have h1 := plain_ne hp ‹Plain W _ _›; cases h1; exact elems_mem ‹_› hm
  | array hp hm hi hl =>
    cases h <;> try other_type hp
    case arrayEmpty => cases hm
    case array => have h1 := plain_ne hp ‹Plain W _ _›; cases h1; exact arr_mem ‹_› hm hi (by simpa using hl)
  | mapKey hp hk hc hm =>
    cases h <;> try other_type hp
    case mapNull => cases hc
    case map hp' h2 hc' _ =>
      have h1 := plain_ne hp hp'; cases h1
      cases container_unique hc hc'
      rcases pairs_key h2 hm with ⟨kv, -, h3, -⟩ | ⟨p, -, h3, -, -⟩
      · exact ⟨_, _, h3⟩
      · obtain ⟨h4, h5⟩ := h3
        simp [KeyType, h4, h5] at hk
  | mapVal hp hc hm =>
    cases h <;> try other_type hp
    case mapNull => cases hc
    case map hp' h2 hc' _ =>
      have h1 := plain_ne hp hp'; cases h1
      cases container_unique hc hc'
      exact pairs_val h2 hm
  | field hp hc hm hk hf ho =>
    cases h <;> try other_type hp
    case structNull => cases hc
    case structEmpty hc' => cases container_unique hc hc'; cases hm
    case struct hp' h2 hc' =>
      have h1 := plain_ne hp hp'; cases h1
      cases container_unique hc hc'
      obtain ⟨s, h3, h4 | ⟨i, f, h4, h5 | ⟨h5, h6⟩⟩⟩ := fields_mem h2 hm
      · cases fieldKey_val h3 hk
        exact (fieldFor_no hf h4.1).elim
      · cases fieldKey_val h3 hk
        cases (fieldFor_val h4 hf).2
        exact h5.2
      · exfalso
        cases fieldKey_val h3 hk
        cases (fieldFor_val h4 hf).2
        rcases ho with ho | ho
        · exact ho h5
        · cases h6 with
          | null h | str h => exact scalar_not_ignored h ho
          | ptrNull h | ptrStr h => exact ptr_not_ignored h ho
  | any hp hc hm =>
    cases h <;> try other_type hp
    case anyArr h2 => cases hc; exact pairs_val h2 hm
    case anyObj h2 => cases hc; exact pairs_val h2 hm
    all_goals cases hc

/-- A document that was stored as a key of a map may be one. -/
theorem key_ok {k : Ty} {n : Nat} {kd : Doc} {kv : Val} (hn : ∀ i, ¬ Plain W k (.iface i)) (hk : KeyType W k) (h : DecDoc W k n kd (W.zero k) kv) (hh : Hashable kv) :
    KeyOk W k kd := by
  generalize W.zero k = z at h
  cases hu : W.unmOf k with
  | some id =>
    cases h with
    | unmNull h1 => rw [hu] at h1; cases h1; exact .unmNull hu hh
    | unm h1 h2 h3 h4 =>
      rw [hu] at h1; cases h1
      exact .unm hu h2 fun v hv => by rw [h4] at hv; cases hv; exact hh
    | _ => have h1 := (‹Plain W k _›).1; rw [hu] at h1; cases h1
  | none =>
    rcases hk with h1 | h1 | h1 | ⟨i, h1⟩ | ⟨i, h1⟩ | h1 | ⟨i, h1⟩
    · exact absurd hu h1
    · exact .str ⟨hu, h1⟩
    · exact .bool ⟨hu, h1⟩
    · exact .int ⟨hu, h1⟩
    · exact .uint ⟨hu, h1⟩
    · refine .any ⟨hu, h1⟩ ?_
      have hp : Plain W k .any := ⟨hu, h1⟩
      rintro cnt es hc
      cases hc <;> cases h <;> try other_type hp
      all_goals (cases hh with | iface h => cases h)
    · exact absurd ⟨hu, h1⟩ (hn i)

/-- An accepted document is what the variable asks for. -/
theorem here_dec {t : Ty} {n : Nat} {d : Doc} {rv v : Val} (hn : NoMethods W t) (h : DecDoc W t n d rv v) : HereOk W t n d := by
  cases h with
  | unmNull h => exact .unmNull h
  | unm h1 h2 h3 h4 => exact .unm h1 h2 h3 h4
  | ptrNull h1 h2 | ptrNew h1 h2 | ptrOld h1 h2 => exact .ptr h1 h2
  | boolNull h => exact .scalarNull (.inl h)
  | bool h => exact .bool h
  | intNull h => exact .scalarNull (.inr (.inl ⟨_, h⟩))
  | int h1 h2 h3 => exact .int h1 h2 h3
  | uintNull h => exact .scalarNull (.inr (.inr (.inl ⟨_, h⟩)))
  | uint h1 h2 h3 => exact .uint h1 h2 h3
  | f32Null h => exact .scalarNull (.inr (.inr (.inr (.inl h))))
  | f32 h1 h2 h3 h4 h5 => exact .f32 h1 h2 h3 h4 h5
  | f64Null h => exact .scalarNull (.inr (.inr (.inr (.inr h))))
  | f64 h1 h2 h3 h4 => exact .f64 h1 h2 h3 h4
  | strNull h => exact .strNull h
  | str h1 h2 => exact .str h1 h2
  | bytesNull h1 h2 => exact .bytesNull h1 h2
  | bytes h1 h2 h3 => exact .bytes h1 h2 h3
  | sliceNull h1 h2 => exact .sliceNull h1 h2
  | sliceEmpty h => exact .sliceEmpty h
  | slice h1 h2 h3 h4 h5 h6 => exact .slice h1 h2 h3 h4 h5 fun k d hm => elems_index h6 ⟨by simp, by simp⟩ hm
  | arrayNull h => exact .arrayNull h
  | arrayEmpty h => exact .arrayEmpty h
  | array h1 h2 h3 h4 h5 => exact .array h1 h2 h3 h4 fun k d hm => by simpa using arr_index h5 hm
  | mapNull h => exact .mapNull h
  | map h1 h2 h3 h4 h5 =>
    refine .map h1 h2 h3 fun kd x hm => ?_
    rcases pairs_key h5 hm with ⟨kv, h6, h7, h8⟩ | ⟨p, rfl, h6, h7, h8⟩
    · exact key_ok (fun i => hn _ i (.step .refl (.mapKey h1))) h6 h7 h8
    · exact .ptr h6 h7 h8
  | structNull h => exact .structNull h
  | structEmpty h1 h2 h3 => exact .struct h1 h2 h3 (by simp)
  | struct h1 h2 h3 h4 h5 =>
    refine .struct h1 h2 h3 fun kd x hm => ?_
    obtain ⟨s, h6, h7 | ⟨i, f, h7, h8 | h8⟩⟩ := fields_mem h5 hm
    · exact ⟨s, h6, .inl h7⟩
    · exact ⟨s, h6, .inr ⟨i, f, h7, .inl h8.1⟩⟩
    · exact ⟨s, h6, .inr ⟨i, f, h7, .inr h8⟩⟩
  | anyNull h => exact .anyNull h
  | anyBool h => exact .anyBool h
  | anyInt h1 h2 h3 => exact .anyInt h1 h2 h3
  | anyFloat h1 h2 h3 h4 => exact .anyFloat h1 h2 h3 h4
  | anyStr h1 h2 => exact .anyStr h1 h2
  | anyArr h1 h2 h3 => exact .anyArr h1 h2 fun kd x hm => pairs_keys h3 hm
  | anyObj h1 h2 h3 h4 =>
    refine .anyObj h1 h2 h3 fun kd x hm => ?_
    rcases pairs_key h4 hm with ⟨kv, -, h7, -⟩ | ⟨p, -, h6, -, -⟩
    · rcases (decDoc_str ⟨rfl, rfl⟩).1 h7 with ⟨rfl, -⟩ | ⟨len, s, rfl, h8, -⟩
      · exact ⟨_, .null⟩
      · exact ⟨_, .str h8⟩
    · cases h6.2
  | ifaceNull h | ifaceDyn h => exact absurd h (hn _ _ .refl)

/-- So an accepted document is accepted at every place. -/
theorem at_dec {t t' : Ty} {n n' : Nat} {d d' : Doc} (ha : DocAt W t n d t' n' d') (hn : NoMethods W t) {rv v : Val} (h : DecDoc W t n d rv v) :
    HereOk W t' n' d' := by
  induction ha generalizing rv v with
  | here => exact here_dec hn h
  | step h1 _ ih =>
    obtain ⟨rv', v', h2⟩ := step_dec h h1
    exact ih (noMethods_step hn h1) h2

/-! ### A document that is fine at every place is accepted -/

theorem elems_build {e : Ty} {n : Nat} (hz : Slot W e (W.zero e)) {es : List (Doc × Doc)}
    (hi : ∀ k d, (k, d) ∈ es → ∃ txt i, k = .int txt ∧ IntText txt (i : Nat) ∧ i + 1 < 2 ^ 63 ∧ esize W e * (i + 1) ≤ 2 ^ 48)
    (hd : ∀ k d, (k, d) ∈ es → ∀ rv, Slot W e rv → ∃ v, DecDoc W e n d rv v ∧ Slot W e v) :
    ∀ vs, (∀ x ∈ vs, Slot W e x) → ∃ vs', DecElems W e n es vs vs' := by
  induction es with
  | nil => exact fun vs _ => ⟨vs, .nil⟩
  | cons p es ih =>
    intro vs hv
    obtain ⟨k, d⟩ := p
    obtain ⟨txt, i, rfl, h1, h2, h3⟩ := hi k d (List.mem_cons_self ..)
    have hp : ∀ x ∈ padTo (W.zero e) i vs, Slot W e x := by
      intro x hx
      rcases List.mem_append.1 hx with h | h
      · exact hv x h
      · rw [(List.mem_replicate.1 h).2]; exact hz
    have hl : i < (padTo (W.zero e) i vs).length := by simp [padTo]; omega
    obtain ⟨v, h4, h5⟩ := hd _ d (List.mem_cons_self ..) ((padTo (W.zero e) i vs)[i]) (hp _ (List.getElem_mem hl))
    obtain ⟨vs', h6⟩ := ih (fun k d hm => hi k d (List.mem_cons_of_mem _ hm)) (fun k d hm => hd k d (List.mem_cons_of_mem _ hm))
      ((padTo (W.zero e) i vs).set i v) fun x hx => by
        rcases List.mem_or_eq_of_mem_set hx with h | rfl
        · exact hp x h
        · exact h5
    exact ⟨vs', .cons h1 (by omega) (fun _ => ⟨h2, h3⟩) (List.getElem?_eq_getElem hl) h4 h6⟩

theorem arr_build {e : Ty} {n l : Nat} {es : List (Doc × Doc)}
    (hi : ∀ k d, (k, d) ∈ es → ∃ txt i, k = .int txt ∧ IntText txt (i : Nat) ∧ i < 2 ^ 63 ∧ (l ≤ i → Strict n d))
    (hd : ∀ txt i d, (.int txt, d) ∈ es → IntText txt (i : Nat) → i < l → ∀ rv, Slot W e rv → ∃ v, DecDoc W e n d rv v ∧ Slot W e v) :
    ∀ vs, vs.length = l → (∀ x ∈ vs, Slot W e x) → ∃ vs', DecArr W e n es vs vs' := by
  induction es with
  | nil => exact fun vs _ _ => ⟨vs, .nil⟩
  | cons p es ih =>
    intro vs hl hv
    obtain ⟨k, d⟩ := p
    obtain ⟨txt, i, rfl, h1, h2, h3⟩ := hi k d (List.mem_cons_self ..)
    have ih := ih (fun k d hm => hi k d (List.mem_cons_of_mem _ hm)) (fun txt i d hm => hd txt i d (List.mem_cons_of_mem _ hm))
    by_cases hil : i < l
    · have hl' : i < vs.length := by omega
      obtain ⟨v, h4, h5⟩ := hd _ i d (List.mem_cons_self ..) h1 hil vs[i] (hv _ (List.getElem_mem hl'))
      obtain ⟨vs', h6⟩ := ih (vs.set i v) (by simpa using hl) fun x hx => by
        rcases List.mem_or_eq_of_mem_set hx with h | rfl
        · exact hv x h
        · exact h5
      exact ⟨vs', .store h1 h2 (List.getElem?_eq_getElem hl') h4 h6⟩
    · obtain ⟨vs', h6⟩ := ih vs hl hv
      exact ⟨vs', .skip h1 h2 (by omega) (h3 (by omega)) h6⟩

theorem pairs_build {km : KeyMode} {e : Ty} {n : Nat} (hz : Slot W e (W.zero e)) {es : List (Doc × Doc)}
    (hk : ∀ kd d x, (kd, d) ∈ es → DecDoc W e n d (W.zero e) x → ∃ kv, ∀ es' m m', DecPairs W km e n es' (mapInsert kv x m) m' → DecPairs W km e n ((kd, d) :: es') m m')
    (hd : ∀ kd d, (kd, d) ∈ es → ∀ rv, Slot W e rv → ∃ v, DecDoc W e n d rv v ∧ Slot W e v) :
    ∀ m, ∃ m', DecPairs W km e n es m m' := by
  induction es with
  | nil => exact fun m => ⟨m, .nil⟩
  | cons p es ih =>
    intro m
    obtain ⟨kd, d⟩ := p
    obtain ⟨x, h1, -⟩ := hd kd d (List.mem_cons_self ..) _ hz
    obtain ⟨kv, h2⟩ := hk kd d x (List.mem_cons_self ..) h1
    obtain ⟨m', h3⟩ := ih (fun k d x hm => hk k d x (List.mem_cons_of_mem _ hm)) (fun k d hm => hd k d (List.mem_cons_of_mem _ hm)) (mapInsert kv x m)
    exact ⟨m', h2 _ _ _ h3⟩

theorem slots_set {id : Nat} {us : List Val} {i : Nat} {f : Field} {u : Val} (h : FieldShapes W id us) (hf : (W.fields id)[i]? = some f) (hu : Slot W f.ty u) :
    FieldShapes W id (us.set i u) := by
  refine ⟨by simp [h.1], fun j g v hg hv => ?_⟩
  rw [List.getElem?_set] at hv
  by_cases hj : i = j
  · subst hj
    rw [if_pos rfl] at hv
    split at hv
    · cases hv
      rw [hf] at hg; cases hg
      exact hu
    · cases hv
  · rw [if_neg hj] at hv
    exact h.2 j g v hg hv

theorem fields_build {id n : Nat} {es : List (Doc × Doc)}
    (hk : ∀ kd x, (kd, x) ∈ es → ∃ s, FieldKey kd s ∧ ((NoField W id s ∧ Strict n x) ∨
      ∃ i f, FieldFor W id s i f ∧ ((¬ HasString W f ∨ StringIgnored W f.ty) ∨ (HasString W f ∧ QuotedOk W f.ty x))))
    (hd : ∀ kd d s i f, (kd, d) ∈ es → FieldKey kd s → FieldFor W id s i f → (¬ HasString W f ∨ StringIgnored W f.ty) →
      ∀ rv, Slot W f.ty rv → ∃ v, DecDoc W f.ty n d rv v ∧ Slot W f.ty v) :
    ∀ vs, FieldShapes W id vs → ∃ vs', DecFields W id n es vs vs' := by
  induction es with
  | nil => exact fun vs _ => ⟨vs, .nil⟩
  | cons p es ih =>
    intro vs hv
    obtain ⟨kd, d⟩ := p
    have ih := ih (fun k x hm => hk k x (List.mem_cons_of_mem _ hm)) (fun k d s i f hm => hd k d s i f (List.mem_cons_of_mem _ hm))
    obtain ⟨s, h1, ⟨h2, h3⟩ | ⟨i, f, h2, h3⟩⟩ := hk kd d (List.mem_cons_self ..)
    · obtain ⟨vs', h4⟩ := ih vs hv
      exact ⟨vs', .skip h1 h2 h3 h4⟩
    · obtain ⟨u, hu⟩ := fieldShapes_get hv h2.1
      have hs := hv.2 i f u h2.1 hu
      rcases h3 with h3 | ⟨h3, h4⟩
      · obtain ⟨v, h4, h5⟩ := hd kd d s i f (List.mem_cons_self ..) h1 h2 h3 u hs
        obtain ⟨vs', h6⟩ := ih _ (slots_set hv h2.1 h5)
        exact ⟨vs', .plain h1 h2 h3 hu h4 h6⟩
      · cases h4 with
        | null h5 =>
          obtain ⟨vs', h6⟩ := ih _ (slots_set hv h2.1 hs)
          exact ⟨vs', .wrapped h1 h2 h3 h5 hu (.null h5) h6⟩
        | str h5 h6 h7 =>
          obtain ⟨vs', h8⟩ := ih _ (slots_set hv h2.1 (scalar_shape h5 _))
          exact ⟨vs', .wrapped h1 h2 h3 h5 hu (.str h6 h7) h8⟩
        | ptrNull h5 h6 =>
          obtain ⟨vs', h8⟩ := ih _ (slots_set hv h2.1 (.ptrNil h5))
          exact ⟨vs', .wrappedPtrNull h1 h2 h3 h5 h6 hu h8⟩
        | @ptrStr e len s' v h5 h6 h7 h8 =>
          obtain ⟨vs', h9⟩ := ih _ (slots_set hv h2.1 (.ptr h5 (scalar_shape h6 v)))
          have hb : ∃ b, (u = .ptrNil ∧ b = W.zero e) ∨ u = .ptr b := by
            cases hs with
            | unm h => rw [h5.1] at h; cases h
            | leaf h => exact absurd h5.2 (h _)
            | ptrNil => exact ⟨_, .inl ⟨rfl, rfl⟩⟩
            | ptr => exact ⟨_, .inr rfl⟩
            | mapNil hp' | map hp' | struct hp' => have := plain_ne h5 hp'; cases this
          obtain ⟨b, hb⟩ := hb
          exact ⟨vs', .wrappedPtr h1 h2 h3 h5 h6 hu hb (by simp) (.str h7 h8) h9⟩

/-- What is read from a document that may be a key can be hashed. -/
theorem key_hash (hW : WorldOk W fun _ => True) {k : Ty} {kd : Doc} (hk : KeyOk W k kd) (ht : KeyType W k) {n : Nat} {kv : Val}
    (h : DecDoc W k n kd (W.zero k) kv) : Hashable kv := by
  have hz := zero_hasTy hW k
  generalize W.zero k = z at hz h
  cases hk with
  | unmNull h1 h2 =>
    cases h <;> first
      | (have h3 := ‹World.unmOf _ _ = some _›; rw [h1] at h3; cases h3; exact h2)
      | exact absurd rfl ‹_›
      | (have h3 := (‹Plain W k _›).1; rw [h1] at h3; cases h3)
  | unm h1 h2 h3 =>
    cases h with
    | unmNull => exact absurd rfl h2
    | unm h4 _ _ h5 => rw [h1] at h4; cases h4; exact h3 _ h5
    | _ => have h3 := (‹Plain W k _›).1; rw [h1] at h3; cases h3
  | str hp =>
    rcases (decDoc_str hp).1 h with ⟨-, rfl⟩ | ⟨_, _, -, -, rfl⟩
    · cases hz <;> first | (have := hp.2; simp_all; done) | constructor
    · exact .str
  | bool hp =>
    rcases (decDoc_bool hp).1 h with ⟨-, rfl⟩ | ⟨_, -, rfl⟩
    · cases hz <;> first | (have := hp.2; simp_all; done) | constructor
    · exact .bool
  | int hp =>
    rcases (decDoc_int hp).1 h with ⟨-, rfl⟩ | ⟨_, _, -, -, -, rfl⟩
    · cases hz <;> first | (have := hp.2; simp_all; done) | constructor
    · exact .int
  | uint hp =>
    rcases (decDoc_uint hp).1 h with ⟨-, rfl⟩ | ⟨_, -, -, -, rfl⟩
    · cases hz <;> first | (have := hp.2; simp_all; done) | constructor
    · exact .uint
  | any hp hc =>
    cases h <;> try other_type hp
    case anyArr => exact absurd .arr (hc _ _)
    case anyObj => exact absurd (.obj ‹_›) (hc _ _)
    all_goals first | exact .ifaceNil | exact .iface (by constructor)
  | ptr hp =>
    obtain ⟨h4, h5⟩ := hp
    simp [KeyType, h4, h5] at ht

/-- Every part of the document that is read into something is what that asks for. -/
def AllOk (W : World) (t : Ty) (n : Nat) (d : Doc) : Prop := ∀ t' n' d', DocAt W t n d t' n' d' → HereOk W t' n' d'

theorem allOk_step {t t' : Ty} {n n' : Nat} {d d' : Doc} (h : AllOk W t n d) (hs : DocStep W t n d t' n' d') : AllOk W t' n' d' :=
  fun t2 n2 d2 ha => h t2 n2 d2 (.step hs ha)

theorem mem_size {k d : Doc} {es : List (Doc × Doc)} (h : (k, d) ∈ es) : sizeOf k < sizeOf es ∧ sizeOf d < sizeOf es := by
  have := List.sizeOf_lt_of_mem h
  simp only [Prod.mk.sizeOf_spec] at this
  omega

theorem container_size {d : Doc} {cnt : Bytes} {es : List (Doc × Doc)} (h : Container d cnt es) : sizeOf es < sizeOf d := by
  cases h <;> simp <;> omega

/-- Reading a smaller document. -/
def Builds (W : World) (N : Nat) : Prop :=
  ∀ t n d, sizeOf d < N → NoMethods W t → AllOk W t n d → ∀ rv, Slot W t rv → ∃ v, DecDoc W t n d rv v ∧ Slot W t v

theorem allOk_other (hW : WorldOk W fun _ => True) {t : Ty} {n : Nat} {d : Doc} (ih : Builds W (sizeOf d)) (hn : NoMethods W t) (ha : AllOk W t n d)
    (hnp : ∀ e, ¬ Plain W t (.ptr e)) (rv : Val) (hs : Slot W t rv) : ∃ v, DecDoc W t n d rv v := by
  have hz := shape_zero hW
  cases ha t n d .here with
  | unmNull h => exact ⟨_, .unmNull h⟩
  | unm h1 h2 h3 h4 => exact ⟨_, .unm h1 h2 h3 h4⟩
  | ptr h => exact absurd h (hnp _)
  | scalarNull h =>
    rcases h with h | ⟨k, h⟩ | ⟨k, h⟩ | h | h
    · exact ⟨_, .boolNull h⟩
    · exact ⟨_, .intNull h⟩
    · exact ⟨_, .uintNull h⟩
    · exact ⟨_, .f32Null h⟩
    · exact ⟨_, .f64Null h⟩
  | bool h => exact ⟨_, .bool h⟩
  | int h1 h2 h3 => exact ⟨_, .int h1 h2 h3⟩
  | uint h1 h2 h3 => exact ⟨_, .uint h1 h2 h3⟩
  | f32 h1 h2 h3 h4 h5 => exact ⟨_, .f32 h1 h2 h3 h4 h5⟩
  | f64 h1 h2 h3 h4 => exact ⟨_, .f64 h1 h2 h3 h4⟩
  | strNull h => exact ⟨_, .strNull h⟩
  | str h1 h2 => exact ⟨_, .str h1 h2⟩
  | bytesNull h1 h2 => exact ⟨_, .bytesNull h1 h2⟩
  | bytes h1 h2 h3 => exact ⟨_, .bytes h1 h2 h3⟩
  | sliceNull h1 h2 => exact ⟨_, .sliceNull h1 h2⟩
  | sliceEmpty h => exact ⟨_, .sliceEmpty h⟩
  | @slice m e cnt _ es h1 h2 h3 h4 h5 h6 =>
    obtain ⟨vs, h7⟩ := elems_build (hz _) h6 (fun k d hm rv hr => by
      have hst := DocStep.slice (n := m) (cnt := cnt) h1 hm
      exact ih _ _ d (by have := mem_size hm; have := container_size (.arr (cnt := cnt) (es := es)); omega) (noMethods_step hn hst) (allOk_step ha hst) rv hr) [] (by simp)
    exact ⟨_, .slice h1 h2 h3 h4 h5 h7⟩
  | arrayNull h => exact ⟨_, .arrayNull h⟩
  | arrayEmpty h => exact ⟨_, .arrayEmpty h⟩
  | @array m l e cnt _ es h1 h2 h3 h4 h5 =>
    obtain ⟨vs, h7⟩ := arr_build (e := e) h5 (fun txt i d hm hi hl rv hr => by
      have hst := DocStep.array (n := m) (cnt := cnt) h1 hm hi hl
      exact ih _ _ d (by have := mem_size hm; have := container_size (.arr (cnt := cnt) (es := es)); omega) (noMethods_step hn hst) (allOk_step ha hst) rv hr)
      (List.replicate l (W.zero e)) (by simp) fun x hx => by rw [(List.mem_replicate.1 hx).2]; exact hz e
    exact ⟨_, .array h1 h2 h3 h4 h7⟩
  | mapNull h => exact ⟨_, .mapNull h⟩
  | @map m k e _ cnt _ es h1 h2 h3 h4 =>
    have hb : ∃ es0, MapBase rv es0 := by
      cases hs with
      | unm h => have := h1.1; rw [this] at h; cases h
      | leaf _ h => exact absurd h1.2 (h _ _)
      | mapNil => exact ⟨_, .nil⟩
      | map => exact ⟨_, .map⟩
      | ptrNil hp' | ptr hp' | struct hp' => have := plain_ne h1 hp'; cases this
    obtain ⟨es0, hb⟩ := hb
    obtain ⟨es1, h5⟩ := pairs_build (km := .ofType k) (e := e) (n := m) (es := es) (hz _) (fun kd x y hm hx => by
        have hkd := h4 kd x hm
        by_cases hkt : KeyType W k
        · have hst := DocStep.mapKey (n := m) h1 hkt h2 hm
          obtain ⟨kv, h6, -⟩ := ih _ _ kd (by have := mem_size hm; have := container_size h2; omega) (noMethods_step hn hst) (allOk_step ha hst) _ (hz k)
          exact ⟨kv, fun es' m m' h7 => .key hkt h6 hx (key_hash hW hkd hkt h6) h7⟩
        · cases hkd with
          | unmNull h | unm h => exact absurd (.inl (by rw [h]; simp)) hkt
          | str h => exact absurd (.inr (.inl h.2)) hkt
          | bool h => exact absurd (.inr (.inr (.inl h.2))) hkt
          | int h => exact absurd (.inr (.inr (.inr (.inl ⟨_, h.2⟩)))) hkt
          | uint h => exact absurd (.inr (.inr (.inr (.inr (.inl ⟨_, h.2⟩))))) hkt
          | any h => exact absurd (.inr (.inr (.inr (.inr (.inr (.inl h.2)))))) hkt
          | ptr h6 h7 h8 => exact ⟨.ptrNil, fun es' m m' h9 => .ptrKey h6 h7 h8 hx h9⟩)
      (fun kd x hm rv hr => by
        have hst := DocStep.mapVal (n := m) h1 h2 hm
        exact ih _ _ x (by have := mem_size hm; have := container_size h2; omega) (noMethods_step hn hst) (allOk_step ha hst) rv hr) es0
    exact ⟨_, .map h1 h2 h3 hb h5⟩
  | structNull h => exact ⟨_, .structNull h⟩
  | @struct m id _ cnt es h1 h2 h3 h4 =>
    obtain ⟨vs, rfl, hl, hf⟩ := slot_struct h1 hs
    by_cases he : es = []
    · subst he; exact ⟨_, .structEmpty h1 h2 h3⟩
    · obtain ⟨vs', h5⟩ := fields_build h4 (fun kd x s i f hm h6 h7 h8 rv hr => by
        have hst := DocStep.field (n := m) h1 h2 hm h6 h7 h8
        exact ih _ _ x (by have := mem_size hm; have := container_size h2; omega) (noMethods_step hn hst) (allOk_step ha hst) rv hr) vs ⟨hl, hf⟩
      exact ⟨_, .struct h1 h2 h3 he h5⟩
  | anyNull h => exact ⟨_, .anyNull h⟩
  | anyBool h => exact ⟨_, .anyBool h⟩
  | anyInt h1 h2 h3 => exact ⟨_, .anyInt h1 h2 h3⟩
  | anyFloat h1 h2 h3 h4 => exact ⟨_, .anyFloat h1 h2 h3 h4⟩
  | anyStr h1 h2 => exact ⟨_, .anyStr h1 h2⟩
  | @anyArr m cnt _ es h1 h2 h3 =>
    obtain ⟨es1, h5⟩ := pairs_build (km := .anyKey) (e := .any) (n := m) (es := es) (hz _) (fun kd x y hm hx => by
        rcases h3 kd x hm with ⟨txt, i, rfl, h4, h5⟩ | ⟨len, s, rfl, h4⟩
        · exact ⟨_, fun es' m m' h9 => .anyInt h4 h5 hx h9⟩
        · exact ⟨_, fun es' m m' h9 => .anyStr h4 hx h9⟩)
      (fun kd x hm rv hr => by
        have hst := DocStep.any (n := m) h1 (.arr (cnt := cnt)) hm
        exact ih _ _ x (by have := mem_size hm; have := container_size (.arr (cnt := cnt) (es := es)); omega) (noMethods_step hn hst) (allOk_step ha hst) rv hr) []
    exact ⟨_, .anyArr h1 h2 h5⟩
  | @anyObj m clen cls cnt _ es h1 h2 h3 h4 =>
    obtain ⟨es1, h5⟩ := pairs_build (km := .ofType .str) (e := .any) (n := m) (es := es) (hz _) (fun kd x y hm hx => by
        obtain ⟨s, h5⟩ := h4 kd x hm
        cases h5 with
        | str h6 => exact ⟨_, fun es' m m' h9 => .key (.inr (.inl rfl)) (.str ⟨rfl, rfl⟩ h6) hx .str h9⟩
        | null => exact ⟨_, fun es' m m' h9 => .key (.inr (.inl rfl)) (.strNull ⟨rfl, rfl⟩) hx .str h9⟩)
      (fun kd x hm rv hr => by
        have hst := DocStep.any (n := m) h1 (.obj (cnt := cnt) h2) hm
        exact ih _ _ x (by have := mem_size hm; have := container_size (.obj (cnt := cnt) (es := es) h2); omega) (noMethods_step hn hst) (allOk_step ha hst) rv hr) []
    exact ⟨_, .anyObj h1 h2 h3 h5⟩

theorem builds (hW : WorldOk W fun _ => True) : ∀ N, Builds W N
  | 0 => fun t n d h => absurd h (by omega)
  | N + 1 => fun t n d hd hn ha rv hs => by
    have hz := shape_zero hW
    have ih : Builds W (sizeOf d) := fun t' n' d' hd' => builds hW N t' n' d' (by omega)
    have fin : ∀ v, DecDoc W t n d rv v → ∃ v, DecDoc W t n d rv v ∧ Slot W t v := fun v h => ⟨v, h, dec_slot hz hn h hs⟩
    by_cases hp : ∃ e, Plain W t (.ptr e)
    · obtain ⟨e, hp⟩ := hp
      by_cases hnull : d = .null
      · subst hnull
        cases ha t n _ .here with
        | ptr hp' he => exact fin _ (.ptrNull hp' he)
        | unmNull h => have := hp.1; rw [h] at this; cases this
        | scalarNull h => rcases h with h | ⟨k, h⟩ | ⟨k, h⟩ | h | h <;> (have := plain_ne hp h; cases this)
        | _ => have := plain_ne hp ‹Plain W t _›; first | (cases this; done) | exact absurd rfl ‹_›
      · have he : W.isPtr e = false := by
          cases ha t n _ .here with
          | ptr hp' he => have := plain_ne hp hp'; cases this; exact he
          | unmNull h | unm h => have := hp.1; rw [h] at this; cases this
          | scalarNull h => exact absurd rfl hnull
          | _ => have := plain_ne hp ‹Plain W t _›; cases this
        have hst := DocStep.ptr (n := n) hp hnull
        have hne : ∀ e', ¬ Plain W e (.ptr e') := fun e' h => by simp [World.isPtr, h.2] at he
        have hn' := noMethods_step hn hst
        have key := fun v0 hv0 => allOk_other hW ih hn' (allOk_step ha hst) hne v0 hv0
        cases hs with
        | unm h => have := hp.1; rw [this] at h; cases h
        | leaf h => exact absurd hp.2 (h _)
        | ptrNil =>
          obtain ⟨v, h⟩ := key _ (hz e)
          exact fin _ (.ptrNew hp he hnull h)
        | ptr hp' hv =>
          have := plain_ne hp hp'; cases this
          obtain ⟨v, h⟩ := key _ hv
          exact fin _ (.ptrOld hp he hnull h)
        | mapNil hp' | map hp' | struct hp' => have := plain_ne hp hp'; cases this
    · obtain ⟨v, h⟩ := allOk_other hW ih hn ha (fun e he => hp ⟨e, he⟩) rv hs
      exact fin v h

/-- A document is taken if and only if it is what is asked for at every place. -/
theorem accepts_iff (hW : WorldOk W fun _ => True) {t : Ty} (hn : NoMethods W t) {n : Nat} {d : Doc} {rv : Val} (hs : Slot W t rv) :
    (∃ v, DecDoc W t n d rv v) ↔ AllOk W t n d := by
  constructor
  · rintro ⟨v, h⟩ t' n' d' ha
    exact at_dec ha hn h
  · intro h
    obtain ⟨v, h1, -⟩ := builds hW _ t n d (Nat.lt_succ_self _) hn h rv hs
    exact ⟨v, h1⟩

/-! ### The order of entries -/

theorem here_entries {t : Ty} {n : Nat} {cnt : Bytes} {es es' : List (Doc × Doc)} (hu : W.unmOf t = none) (hp : ∀ e, W.resolve t ≠ .ptr e)
    (he : ∀ p, p ∈ es ↔ p ∈ es') (h : HereOk W t n (.arr cnt es)) : HereOk W t n (.arr cnt es') := by
  have hne : es ≠ [] → es' ≠ [] := by
    rintro h rfl
    exact h (List.eq_nil_iff_forall_not_mem.2 fun p hp => by simpa using (he p).1 hp)
  cases h with
  | unm h => rw [hu] at h; cases h
  | ptr h => exact absurd h.2 (hp _)
  | sliceEmpty h =>
    have : es' = [] := List.eq_nil_iff_forall_not_mem.2 fun p hp => by simpa using (he p).2 hp
    subst this; exact .sliceEmpty h
  | slice h1 h2 h3 h4 h5 h6 => exact .slice h1 h2 h3 h4 (hne h5) fun k d hm => h6 k d ((he _).2 hm)
  | arrayEmpty h =>
    have : es' = [] := List.eq_nil_iff_forall_not_mem.2 fun p hp => by simpa using (he p).2 hp
    subst this; exact .arrayEmpty h
  | array h1 h2 h3 h4 h5 => exact .array h1 h2 h3 (hne h4) fun k d hm => h5 k d ((he _).2 hm)
  | map h1 h2 h3 h4 => cases h2; exact .map h1 .arr h3 fun k d hm => h4 k d ((he _).2 hm)
  | struct h1 h2 h3 h4 => cases h2; exact .struct h1 .arr h3 fun k d hm => h4 k d ((he _).2 hm)
  | anyArr h1 h2 h3 => exact .anyArr h1 h2 fun k d hm => h3 k d ((he _).2 hm)

theorem allOk_entries {t : Ty} {n : Nat} {cnt : Bytes} {es es' : List (Doc × Doc)} (hu : W.unmOf t = none) (hp : ∀ e, W.resolve t ≠ .ptr e)
    (he : ∀ p, p ∈ es ↔ p ∈ es') (h : AllOk W t n (.arr cnt es)) : AllOk W t n (.arr cnt es') := by
  intro t' n' d' ha
  cases ha with
  | here => exact here_entries hu hp he (h _ _ _ .here)
  | step hs ha =>
    refine h _ _ _ (.step ?_ ha)
    cases hs with
    | ptr h => exact absurd h.2 (hp _)
    | slice h1 h2 => exact .slice h1 ((he _).2 h2)
    | array h1 h2 h3 h4 => exact .array h1 ((he _).2 h2) h3 h4
    | mapKey h1 h2 h3 h4 => cases h3; exact .mapKey h1 h2 .arr ((he _).2 h4)
    | mapVal h1 h3 h4 => cases h3; exact .mapVal h1 .arr ((he _).2 h4)
    | field h1 h3 h4 h5 h6 h7 => cases h3; exact .field h1 .arr ((he _).2 h4) h5 h6 h7
    | any h1 h3 h4 => cases h3; exact .any h1 .arr ((he _).2 h4)

end Verif

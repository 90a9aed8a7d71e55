import Verif.Proofs.Unmarshal
/-
Consequences of the tree-level specification, and facts about failing runs, used by the property theorems.
-/
set_option linter.unusedSimpArgs false
namespace Verif
open Spec

/-! ### Reading at a known document -/

/-- If a well-formed document is known to stand at the cursor, decoding succeeds exactly as the specification says. -/
theorem decode_at_iff {W : World} {b : Bytes} (hb : b.length < 2 ^ 63) {f : Nat} {t : Ty} {c c' depth m : Nat} {d : Doc} {rv v : Val}
    (hd : depth ≤ maxDepth) (hf : b.length ≤ c + f) (hat : At b c d c') (hl : Lax m d) :
    decodeF W b f t c depth rv = (v, .ok c') ↔ DecDoc W t (maxDepth - depth) d rv v := by
  rw [decodeF_ok_iff hb hd hf]
  constructor
  · rintro ⟨d', hat', h⟩
    obtain ⟨rfl, -⟩ := lax_unique (decDoc_lax h) hl (hat'.1.symm.trans hat.1)
    exact h
  · exact fun h => ⟨d, hat, h⟩

/-- If a well-formed document stands at the cursor, successful decoding ends right after it. -/
theorem decode_end {W : World} {b : Bytes} (hb : b.length < 2 ^ 63) {f : Nat} {t : Ty} {c c' e depth m : Nat} {d : Doc} {rv v : Val}
    (hd : depth ≤ maxDepth) (hat : At b c d c') (hl : Lax m d) (h : decodeF W b f t c depth rv = (v, .ok e)) : e = c' := by
  obtain ⟨d', hat', h⟩ := decodeF_sound hb hd h
  obtain ⟨rfl, -⟩ := lax_unique (decDoc_lax h) hl (hat'.1.symm.trans hat.1)
  rw [hat.2, hat'.2]

theorem at_text (d : Doc) : At d.text 0 d d.text.length := ⟨by simp, by simp⟩

theorem at_text_mid (pre post : Bytes) (d : Doc) : At (pre ++ d.text ++ post) pre.length d (pre.length + d.text.length) := by
  refine ⟨?_, rfl⟩
  simp only [List.append_assoc, List.drop_left]
  rw [← List.drop_drop, List.drop_left, List.drop_left]

/-- `Unmarshal` of the text of a document. -/
theorem unmarshal_text_iff {W : World} {fuel : Nat} {t : Ty} {v v' : Val} {d : Doc} {m : Nat} (hb : d.text.length < 2 ^ 63) (hl : Lax m d) :
    unmarshal W fuel d.text (.ptr t v) = (some v', .ok ()) ↔ compileD W fuel [] t = .ok () ∧ DecDoc W t maxDepth d v v' := by
  rw [unmarshal_ok_iff hb]
  constructor
  · rintro ⟨hc, d', w, hw, ht, h⟩
    cases hw
    obtain ⟨rfl, -⟩ := lax_unique hl (decDoc_lax h) (r1 := []) (r2 := []) (by simpa using ht)
    exact ⟨hc, h⟩
  · rintro ⟨hc, h⟩
    exact ⟨hc, d, v', rfl, rfl, h⟩

/-! ### Failing scalar decoders leave the destination alone -/

/-- Unless it succeeds, the run leaves the destination as it was. -/
def Keeps (rv : Val) (r : DR) : Prop := (∃ c, r.2 = .ok c) ∨ r.1 = rv

theorem keeps_err {rv : Val} {e : Err} : Keeps rv (rv, .err e) := .inr rfl
theorem keeps_same {rv : Val} {r : Res Nat} : Keeps rv (rv, r) := .inr rfl
theorem keeps_ok {rv v : Val} {c : Nat} : Keeps rv (v, .ok c) := .inl ⟨c, rfl⟩

theorem keeps_onOk {α : Type} {rv : Val} {r : Res α} {k : α → DR} (hk : ∀ x, r = .ok x → Keeps rv (k x)) : Keeps rv (onOk rv r k) := by
  cases r with
  | ok a => exact hk a rfl
  | err e => exact .inr rfl
  | panic p => exact .inr rfl
  | diverge => exact .inr rfl

theorem keeps_ite {rv : Val} {c : Prop} [Decidable c] {x y : DR} (hx : c → Keeps rv x) (hy : ¬ c → Keeps rv y) :
    Keeps rv (if c then x else y) := by
  split
  · exact hx ‹_›
  · exact hy ‹_›

theorem keeps_processInt {k : IKind} {s : Bytes} {c : Nat} {rv : Val} : Keeps rv (processInt k s c rv) := by
  unfold processInt
  split
  · exact keeps_ite (fun _ => keeps_err) fun _ => keeps_ok
  · exact keeps_same
  · exact keeps_same
  · exact keeps_same

theorem keeps_intDecode {k : IKind} {b : Bytes} {c : Nat} {rv : Val} : Keeps rv (intDecode k b c rv) := by
  unfold intDecode
  refine keeps_onOk ?_
  rintro ⟨ob, c'⟩ _
  cases ob with
  | none => exact keeps_ok
  | some s => exact keeps_processInt

theorem keeps_uintDecode {k : UKind} {b : Bytes} {c : Nat} {rv : Val} : Keeps rv (uintDecode k b c rv) := by
  unfold uintDecode
  refine keeps_onOk ?_
  rintro ⟨ob, c'⟩ _
  cases ob with
  | none => exact keeps_ok
  | some s =>
    dsimp only
    unfold processUint
    split
    · exact keeps_same
    · exact keeps_ite (fun _ => keeps_err) fun _ => keeps_ok

theorem keeps_floatDecode {W : World} {s32 : Bool} {b : Bytes} {c : Nat} {rv : Val} : Keeps rv (floatDecode W s32 b c rv) := by
  unfold floatDecode
  refine keeps_onOk ?_
  rintro ⟨ob, c'⟩ _
  cases ob with
  | none => exact keeps_ok
  | some s =>
    dsimp only
    unfold processFloat
    split
    · exact keeps_same
    · exact keeps_ite (fun _ => keeps_ite (fun _ => keeps_same) fun _ => keeps_ok) fun _ => keeps_ok

theorem keeps_boolDecode {b : Bytes} {c : Nat} {rv : Val} : Keeps rv (boolDecode b c rv) := by
  unfold boolDecode
  refine keeps_ite (fun _ => keeps_err) fun _ => keeps_onOk fun _ _ => ?_
  refine keeps_ite (fun _ => keeps_onOk fun _ _ => keeps_ok) fun _ => keeps_ite (fun _ => keeps_onOk fun _ _ => keeps_ok) fun _ => keeps_err

theorem keeps_stringDecode {b : Bytes} {c : Nat} {rv : Val} : Keeps rv (stringDecode b c rv) := by
  unfold stringDecode
  refine keeps_onOk ?_
  rintro ⟨ob, c'⟩ _
  cases ob <;> exact keeps_ok

/-- A byte slice keeps its old value when the failing input does not begin with `a`. -/
theorem keeps_bytesDecode {dec : Nat → Nat → Val → DR} {z : Val} {b : Bytes} {c depth : Nat} {rv : Val} (h : idx b c ≠ .ok ca) :
    Keeps rv (bytesDecode dec z b c depth rv) := by
  unfold bytesDecode
  refine keeps_onOk fun x hx => ?_
  rw [if_neg (by rintro rfl; exact h hx)]
  refine keeps_onOk ?_
  rintro ⟨ob, c'⟩ _
  cases ob <;> exact keeps_ok

theorem keeps_decodeF {W : World} {b : Bytes} {f : Nat} {t : Ty} {c depth : Nat} {rv : Val}
    (ht : IsScalar W t ∨ Plain W t .str ∨ ∃ e, Plain W t (.slice e) ∧ W.isByte e = true ∧ idx b c ≠ .ok ca) :
    Keeps rv (decodeF W b f t c depth rv) := by
  cases f with
  | zero => exact keeps_same
  | succ f =>
    unfold decodeF
    rcases ht with (h | ⟨k, h⟩ | ⟨k, h⟩ | h | h) | h | ⟨e, h, hb, hx⟩ <;> simp only [h.1, h.2, decodeNonPtr]
    · exact keeps_boolDecode
    · exact keeps_intDecode
    · exact keeps_uintDecode
    · exact keeps_floatDecode
    · exact keeps_floatDecode
    · exact keeps_stringDecode
    · rw [if_pos hb]; exact keeps_bytesDecode hx

/-! ### Struct entries one at a time -/

/-- What one entry does to the field it is for. -/
inductive FieldDec (W : World) (n : Nat) (f : Field) : Doc → Val → Val → Prop
  | plain {d v0 v} : (¬ HasString W f ∨ StringIgnored W f.ty) → DecDoc W f.ty n d v0 v → FieldDec W n f d v0 v
  | wrapped {d v0 v} : HasString W f → IsScalar W f.ty → Wrapped W f.ty d v0 v → FieldDec W n f d v0 v
  | wrappedPtrNull {e v0} : HasString W f → Plain W f.ty (.ptr e) → IsScalar W e → FieldDec W n f .null v0 .ptrNil
  | wrappedPtr {e d v0 b v} : HasString W f → Plain W f.ty (.ptr e) → IsScalar W e →
      ((v0 = .ptrNil ∧ b = W.zero e) ∨ v0 = .ptr b) → d ≠ .null → Wrapped W e d b v → FieldDec W n f d v0 (.ptr v)

/-- What one entry does to the struct. -/
inductive Entry (W : World) (id n : Nat) (s : Bytes) (d : Doc) : List Val → List Val → Prop
  | skip {vs} : NoField W id s → Strict n d → Entry W id n s d vs vs
  | store {vs i f v0 v} : FieldFor W id s i f → vs[i]? = some v0 → FieldDec W n f d v0 v → Entry W id n s d vs (vs.set i v)

theorem decFields_cons {W : World} {id n : Nat} {kd d : Doc} {es : List (Doc × Doc)} {vs vs' : List Val} :
    DecFields W id n ((kd, d) :: es) vs vs' ↔ ∃ s mid, FieldKey kd s ∧ Entry W id n s d vs mid ∧ DecFields W id n es mid vs' := by
  constructor
  · intro h
    cases h with
    | skip h1 h2 h3 h4 => exact ⟨_, _, h1, .skip h2 h3, h4⟩
    | plain h1 h2 h3 h4 h5 h6 => exact ⟨_, _, h1, .store h2 h4 (.plain h3 h5), h6⟩
    | wrapped h1 h2 h3 h4 h5 h6 h7 => exact ⟨_, _, h1, .store h2 h5 (.wrapped h3 h4 h6), h7⟩
    | wrappedPtrNull h1 h2 h3 h4 h5 h6 h7 => exact ⟨_, _, h1, .store h2 h6 (.wrappedPtrNull h3 h4 h5), h7⟩
    | wrappedPtr h1 h2 h3 h4 h5 h6 h7 h8 h9 h10 => exact ⟨_, _, h1, .store h2 h6 (.wrappedPtr h3 h4 h5 h7 h8 h9), h10⟩
  · rintro ⟨s, mid, h1, h2, h3⟩
    cases h2 with
    | skip h4 h5 => exact .skip h1 h4 h5 h3
    | store h4 h5 h6 =>
      cases h6 with
      | plain h7 h8 => exact .plain h1 h4 h7 h5 h8 h3
      | wrapped h7 h8 h9 => exact .wrapped h1 h4 h7 h8 h5 h9 h3
      | wrappedPtrNull h7 h8 h9 => exact .wrappedPtrNull h1 h4 h7 h8 h9 h5 h3
      | wrappedPtr h7 h8 h9 h10 h11 h12 => exact .wrappedPtr h1 h4 h7 h8 h9 h5 h10 h11 h12 h3

theorem decFields_nil {W : World} {id n : Nat} {vs vs' : List Val} : DecFields W id n [] vs vs' ↔ vs' = vs := by
  constructor
  · intro h; cases h; rfl
  · rintro rfl; exact .nil

theorem fieldKey_unique {d : Doc} {s s' : Bytes} (h : FieldKey d s) (h' : FieldKey d s') : s = s' := by
  cases h <;> cases h' <;> rfl

/-- Inserting an entry that names no field changes nothing. -/
theorem decFields_insert {W : World} {id n : Nat} {k x : Doc} {s : Bytes} {es1 es2 : List (Doc × Doc)} {vs vs' : List Val}
    (hk : FieldKey k s) (hn : NoField W id s) (hx : Strict n x) :
    DecFields W id n (es1 ++ (k, x) :: es2) vs vs' ↔ DecFields W id n (es1 ++ es2) vs vs' := by
  induction es1 generalizing vs with
  | nil =>
    simp only [List.nil_append]
    rw [decFields_cons]
    constructor
    · rintro ⟨s', mid, h1, h2, h3⟩
      cases fieldKey_unique hk h1
      cases h2 with
      | skip => exact h3
      | store h4 => exact absurd h4.2.2.1 (hn _ _ h4.1 h4.2.1)
    · exact fun h => ⟨s, vs, hk, .skip hn hx, h⟩
  | cons e es1 ih =>
    obtain ⟨kd, d⟩ := e
    simp only [List.cons_append]
    rw [decFields_cons, decFields_cons]
    constructor
    · rintro ⟨s', mid, h1, h2, h3⟩; exact ⟨s', mid, h1, h2, ih.1 h3⟩
    · rintro ⟨s', mid, h1, h2, h3⟩; exact ⟨s', mid, h1, h2, ih.2 h3⟩

theorem fieldFor_index_ne {W : World} {id : Nat} {s s' : Bytes} {i j : Nat} {f g : Field} (h : FieldFor W id s i f)
    (h' : FieldFor W id s' j g) (hs : s ≠ s') : i ≠ j := by
  rintro rfl
  have : f = g := by have := h.1.symm.trans h'.1; simpa using this
  subst this
  exact hs ((hasKey_iff.1 h.2.2.1).symm.trans (hasKey_iff.1 h'.2.2.1))

theorem entry_swap {W : World} {id n : Nat} {s s' : Bytes} {d d' : Doc} {vs m1 vs' : List Val} (hs : s ≠ s')
    (h1 : Entry W id n s d vs m1) (h2 : Entry W id n s' d' m1 vs') :
    ∃ m2, Entry W id n s' d' vs m2 ∧ Entry W id n s d m2 vs' := by
  cases h1 with
  | skip a b => exact ⟨vs', h2, .skip a b⟩
  | @store i f v0 v hf hv hd =>
    cases h2 with
    | skip a b => exact ⟨vs, .skip a b, .store hf hv hd⟩
    | @store j g w0 w hg hw hd' =>
      have hne := fieldFor_index_ne hf hg hs
      rw [List.getElem?_set_ne hne] at hw
      refine ⟨vs.set j w, .store hg hw hd', ?_⟩
      rw [List.set_comm _ _ hne]
      refine .store hf ?_ hd
      rw [List.getElem?_set_ne (Ne.symm hne)]
      exact hv

/-- The keys of the entries differ pairwise. -/
def DistinctKeys (es : List (Doc × Doc)) : Prop :=
  es.Pairwise fun e e' => ∀ s s', FieldKey e.1 s → FieldKey e'.1 s' → s ≠ s'

theorem distinctKeys_perm {es es' : List (Doc × Doc)} (hp : es.Perm es') (h : DistinctKeys es) : DistinctKeys es' :=
  hp.pairwise h fun h s s' h1 h2 e => h s' s h2 h1 e.symm

/-- The order of entries with different keys does not matter. -/
theorem decFields_perm {W : World} {id n : Nat} {es es' : List (Doc × Doc)} (hp : es.Perm es') (hk : DistinctKeys es)
    {vs vs' : List Val} (h : DecFields W id n es vs vs') : DecFields W id n es' vs vs' := by
  induction hp generalizing vs with
  | nil => exact h
  | cons e _ ih =>
    obtain ⟨k, d⟩ := e
    rw [decFields_cons] at h ⊢
    obtain ⟨s, mid, h1, h2, h3⟩ := h
    exact ⟨s, mid, h1, h2, ih (List.pairwise_cons.1 hk).2 h3⟩
  | swap e e' l =>
    obtain ⟨k, d⟩ := e
    obtain ⟨k', d'⟩ := e'
    rw [decFields_cons] at h
    obtain ⟨s, mid, h1, h2, h3⟩ := h
    rw [decFields_cons] at h3
    obtain ⟨s', mid', h4, h5, h6⟩ := h3
    have hne : s ≠ s' := (List.pairwise_cons.1 hk).1 (k, d) (by simp) s s' h1 h4
    obtain ⟨m2, h7, h8⟩ := entry_swap hne h2 h5
    rw [decFields_cons]
    refine ⟨s', m2, h4, h7, ?_⟩
    rw [decFields_cons]
    exact ⟨s, mid', h1, h8, h6⟩
  | trans hp1 _ ih1 ih2 => exact ih2 (distinctKeys_perm hp1 hk) (ih1 hk h)

/-! ### Containers -/

theorem container_inj {d : Doc} {cnt cnt' : Bytes} {es es' : List (Doc × Doc)} (h : Container d cnt es) (h' : Container d cnt' es') :
    cnt = cnt' ∧ es = es' := by
  cases h <;> cases h' <;> exact ⟨rfl, rfl⟩

/-- For structs, only the entries matter. -/
theorem decDoc_struct_iff {W : World} {t : Ty} {id n : Nat} {d : Doc} {cnt : Bytes} {es : List (Doc × Doc)} {rv v : Val}
    (hp : Plain W t (.struct id)) (hc : Container d cnt es) (hd : IsDigits cnt) :
    DecDoc W t n d rv v ↔ ∃ m, n = m + 1 ∧ ((es = [] ∧ v = rv) ∨
      (es ≠ [] ∧ ∃ vs vs', rv = .struct vs ∧ v = .struct vs' ∧ DecFields W id m es vs vs')) := by
  obtain ⟨hu, hr⟩ := hp
  constructor
  · intro h
    cases h
    case structEmpty n' id' cnt' hd' hp' hc' =>
      cases (hr.symm.trans hp'.2)
      obtain ⟨rfl, rfl⟩ := container_inj hc hc'
      exact ⟨_, rfl, .inl ⟨rfl, rfl⟩⟩
    case struct n' id' cnt' es' vs vs' h1 h2 h3 hp' h4 =>
      cases (hr.symm.trans hp'.2)
      obtain ⟨rfl, rfl⟩ := container_inj hc h4
      exact ⟨_, rfl, .inr ⟨h2, vs, vs', rfl, rfl, h3⟩⟩
    all_goals first | (cases hc; done) | (simp_all [Plain]; done)
  · rintro ⟨m, rfl, ⟨rfl, rfl⟩ | ⟨hne, vs, vs', rfl, rfl, h⟩⟩
    · exact .structEmpty ⟨hu, hr⟩ hc hd
    · exact .struct ⟨hu, hr⟩ hc hd hne h

end Verif

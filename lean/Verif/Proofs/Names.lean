import Verif.Proofs.NoType
import Verif.Proofs.DecMake
import Verif.Proofs.UnquoteUse
/-
The names in type errors are those of a place in the input.
-/
namespace Verif
open Spec

variable {W : World} {b : Bytes} {t0 : Ty} {c depth : Nat}

/-- What holds of the errors of a run: type errors name a place. -/
def Named (W : World) (b : Bytes) (t0 : Ty) (e : Err) : Prop := ∀ w o bl, e = .typeError w o bl → ∃ x, bl = some x ∧ NamesPlace W b t0 w o x

theorem named_untyped : Untyped (Named W b t0) := fun _ h w o bl he => absurd he (h w o bl)

theorem named_untyped_blame {n : Names} {t : Option Ty} : Untyped (fun e => Named W b t0 (blame n t e)) := by
  intro e h
  have : blame n t e = e := by
    cases e with
    | typeError w o bl => exact absurd rfl (h w o bl)
    | _ => rfl
  rw [this]
  exact named_untyped e h

theorem named_blame {n : Names} {t : Option Ty} {e : Err} (h : Named W b t0 e) : Named W b t0 (blame n t e) := by
  cases e with
  | typeError w o bl =>
    obtain ⟨x, rfl, h1⟩ := h w o bl rfl
    exact h
  | _ => exact h

/-- Errors made here are named right. -/
theorem named_new {t : Ty} {n n' : Names} (hp : Spot W b t0 t c n) (hn : RightNames W b t0 t c n n') {ty : Ty} (ht : ReportedType W t ty) {w : What} {o : Int}
    (ho : o = c ∨ ∃ e : Nat, o = e ∧ IntegerAt b c e ∧ ∃ k k', W.resolve ty = .int k ∨ W.resolve ty = .uint k') : Named W b t0 (blame n' (some ty) (.typeError w o none)) := by
  intro w' o' bl he
  cases he
  exact ⟨_, rfl, t, c, n, hp, .inl ⟨hn, ty, rfl, ht, ho⟩⟩

theorem tells_blamed {Q : Err → Prop} {n : Names} {t : Ty} {x : DR} (h : Tells (fun e => Q (blame n (some t) e)) x.2) : Tells Q (blamed n t x).2 := by
  intro e he
  simp only [blamed] at he
  cases hx : x.2 with
  | err e' => rw [hx] at he; cases he; exact h _ hx
  | ok _ => rw [hx] at he; cases he
  | panic _ => rw [hx] at he; cases he
  | diverge => rw [hx] at he; cases he

theorem tells_mapErr {α : Type} {Q : Err → Prop} {g : Err → Err} {x : Res α} (h : Tells (fun e => Q (g e)) x) : Tells Q (x.mapErr g) := by
  intro e he
  cases x with
  | err e' => cases he; exact h _ rfl
  | _ => cases he

theorem runInt_named {k k' : IKind} {t ty : Ty} {n : Names} {rv : Val} (hp : Spot W b t0 t c n) (ht : ReportedType W t ty) (hi : W.resolve ty = .int k') :
    Tells (Named W b t0) (runInt k ty n b c rv).2 :=
  tells_blamed (intDecode_q named_untyped_blame fun e _ he => named_new hp (.inl rfl) ht (.inr ⟨e, rfl, he, k', .u8, .inl hi⟩))

theorem runUint_named {k k' : UKind} {t : Ty} {n : Names} {rv : Val} (hp : Spot W b t0 t c n) (ht : Plain W t (.uint k')) :
    Tells (Named W b t0) (runUint k t b c rv).2 :=
  tells_blamed (uintDecode_q named_untyped_blame fun e _ he => named_new hp (.inr (.inl ⟨rfl, k', ht⟩)) (.inl rfl) (.inr ⟨e, rfl, he, .i64, k', .inr ht.2⟩))

theorem runStr_named {t : Ty} {n : Names} {rv : Val} (hp : Spot W b t0 t c n) (ht : ReportedType W t .str) : Tells (Named W b t0) (runStr n b c rv).2 :=
  tells_blamed (stringDecode_q named_untyped_blame fun _ => named_new hp (.inl rfl) ht (.inl rfl))

theorem stringBytes_named {t : Ty} {n n' : Names} (hp : Spot W b t0 t c n) (hn : RightNames W b t0 t c n n') (ht : ReportedType W t .str) :
    Tells (Named W b t0) ((stringBytes b c).mapErr (blame n' (some .str))) :=
  tells_mapErr (stringBytes_q named_untyped_blame fun _ => named_new hp hn ht (.inl rfl))

theorem runUnm_named {t : Ty} {id : Nat} {n : Names} {rv : Val} (hb : b.length < 2 ^ 63) (hd : depth ≤ maxDepth) (hp : Spot W b t0 t c n) (hu : W.unmOf t = some id) :
    Tells (Named W b t0) (runUnm W id n b c depth rv).2 := by
  unfold runUnm
  refine tells_onOk (skipValue_q named_untyped) fun e h1 => tells_onOk tells_sub fun src h2 => ?_
  obtain ⟨d, -, -, rfl⟩ := skip_sub hb hd h1 h2
  obtain ⟨x, xs, hx, hm⟩ := text_head (d := d)
  have hh : d.text.head? = some x := by rw [hx]; rfl
  dsimp only
  simp only [hh]
  refine tells_dite (fun h => ?_) fun _ => tells_dite (fun h => ?_) fun _ => tells_dite (fun h => ?_) fun _ => ?_
  · cases h; exact absurd hm (by decide)
  · cases h; exact absurd hm (by decide)
  · exfalso
    rcases h with h | h
    · cases h; exact absurd hm (by decide)
    · simp only [Option.any_some] at h
      simp only [List.mem_cons, List.not_mem_nil, or_false] at hm
      rcases hm with rfl | rfl | rfl | rfl | rfl | rfl | rfl <;> exact absurd h (by decide)
  · refine tells_dite (fun _ => tells_ok) fun _ => ?_
    obtain ⟨o, ho, -⟩ := unquoteBytes_total d.text
    rw [ho]
    refine tells_onOk tells_ok fun o' _ => tells_onOk (tells_mapErr ?_) fun _ _ => tells_ok
    intro e he w off bl h
    cases e with
    | typeError w' off' y =>
      simp only [annotate, annotateNames] at h
      cases h
      exact ⟨_, rfl, t, c, n, hp, .inr (.inl ⟨id, _, y, hu, he, rfl, rfl⟩)⟩
    | _ => simp [annotate, annotateNames] at h

theorem runAnyKey_named {n : Names} (hp : Spot W b t0 .any c n) : Tells (Named W b t0) (runAnyKey n b c).2 := by
  have hi : IsIface W .any := .inl ⟨rfl, rfl⟩
  unfold runAnyKey
  refine tells_onOk tells_idx fun x _ => ?_
  refine tells_dite (fun _ => ?_) fun _ => tells_dite (fun _ => ?_) fun _ => tells_err (named_untyped _ (by no_type))
  · exact tells_wrap _ (runStr_named hp (.inr (.inr (.inl ⟨rfl, .inr (.inr (.inr hi))⟩))))
  · exact tells_wrap _ (runInt_named (k' := .i64) hp (.inr (.inr (.inr ⟨rfl, hi⟩))) rfl)

theorem sameRun_ok {x y : DR} {v : Val} {c' : Nat} (h : SameRun x y) (hx : x = (v, .ok c')) : y = (v, .ok c') := by
  subst hx
  obtain ⟨w, r⟩ := y
  have h1 : v = w := h.1
  have h2 := h.2
  cases r <;> simp_all [Res.mapErr]

theorem runAny_named {t : Ty} {n : Names} {anyDec : Nat → Nat → DR} {rv : Val} (hb : b.length < 2 ^ 63) (hp : Spot W b t0 t c n) (hi : IsIface W t)
    (ha : depth + 1 ≤ maxDepth → ∀ c, Spot W b t0 .any c n → Tells (Named W b t0) (anyDec c (depth + 1)).2)
    (hk : depth + 1 ≤ maxDepth → ∀ c v c', anyDec c (depth + 1) = (v, .ok c') → ValueAt b c c') :
    Tells (Named W b t0) (runAny W n anyDec b c depth rv).2 := by
  have hany : IsIface W .any := .inl ⟨rfl, rfl⟩
  unfold runAny
  refine tells_onOk tells_idx fun x _ => ?_
  refine tells_dite (fun _ => ?_) fun _ => tells_dite (fun _ => ?_) fun _ => tells_dite (fun _ => ?_) fun _ => tells_dite (fun _ => ?_) fun _ =>
    tells_dite (fun _ => ?_) fun _ => tells_dite (fun _ => ?_) fun _ => tells_dite (fun _ => ?_) fun _ => ?_
  · refine tells_wrap (x := mapDecode (fun c _ => runStr n b c (.str [])) anyDec b c depth .mapNil) (.iface (.map .str .any)) ?_
    refine mapDecode_q named_untyped hb ?_ ?_ ?_ hk
    · exact fun _ c1 h => runStr_named (.anyKey hp hi h) (.inr (.inr (.inl ⟨rfl, .inr (.inr (.inr hany))⟩)))
    · intro _ c1 v c' h
      obtain ⟨ob, h1, h2⟩ := onOk_ok.1 (sameRun_ok (runStr_alike c1 _) h)
      obtain ⟨ob, e⟩ := ob
      rcases (stringBytes_iff hb).1 h1 with ⟨rfl, h⟩ | ⟨l, s, rfl, hl, h⟩ <;> cases h2
      · exact at_value (n := 0) h .null
      · exact at_value (n := 0) h (.str hl)
    · exact fun hd c1 c2 h1 h2 => ha hd _ (.anyVal hp hi h1 h2)
  · refine tells_wrap (x := mapDecode (fun c _ => runAnyKey n b c) anyDec b c depth .mapNil) (.iface (.map .any .any)) ?_
    refine mapDecode_q named_untyped hb ?_ ?_ ?_ hk
    · exact fun _ c1 h => runAnyKey_named (.anyKey hp hi h)
    · intro _ c1 v c' h
      obtain ⟨d, h1, h2⟩ := anyKeyDecode_sound hb (sameRun_ok (runAnyKey_alike c1) h)
      rcases h2 with ⟨txt, i, rfl, h3, -⟩ | ⟨l, s, rfl, h3, -⟩
      · exact at_value (n := 0) h1 (.int h3)
      · exact at_value (n := 0) h1 (.str h3)
    · exact fun hd c1 c2 h1 h2 => ha hd _ (.anyVal hp hi h1 h2)
  · exact tells_wrap _ (floatDecode_q named_untyped)
  · exact tells_onOk (readString_q named_untyped) fun _ _ => tells_ok
  · exact tells_wrap _ (runInt_named (k' := .i64) hp (.inr (.inr (.inr ⟨rfl, hi⟩))) rfl)
  · exact tells_onOk (readBool_q named_untyped) fun _ _ => tells_ok
  · exact tells_onOk (validateNull_q named_untyped) fun _ _ => tells_ok
  · exact tells_err (named_untyped _ (by no_type))

theorem dynDecode_named {t : Ty} {n : Names} (hp : Spot W b t0 t c n) (hi : IsIface W t) {dt : Ty} {v rv : Val} :
    Tells (fun e => Named W b t0 (blame noNames none e)) (dynDecode W dt v b c depth rv).2 := by
  rw [dynDecode_eq]
  refine tells_onOk (skipValue_q named_untyped_blame) fun e _ => tells_onOk tells_sub fun src _ => ?_
  refine tells_dite (fun _ => tells_ok) fun _ => ?_
  generalize hx : W.unmarshalDyn dt v (unquoted src) = x
  obtain ⟨v', r⟩ := x
  refine tells_onOk ?_ fun _ _ => tells_ok
  intro e he w o bl h
  subst he
  cases e with
  | typeError w' o' y =>
    refine ⟨y.getD ⟨⟨[], []⟩, none⟩, ?_, t, c, n, hp, .inr (.inr ⟨hi, dt, v, unquoted src, v', y, ?_, rfl⟩)⟩
    · cases y <;> (cases h; rfl)
    · cases y <;> (cases h; exact hx)
  | _ => simp [blame] at h

theorem runIface_named {t : Ty} {n : Names} {rv : Val} (hp : Spot W b t0 t c n) (hi : IsIface W t) : Tells (Named W b t0) (runIface W t n b c depth rv).2 := by
  have plain : Tells (Named W b t0) (onOk rv (idx b c) fun x =>
      if x = cN then onOk rv (validateNull b c) fun _ => (.ifaceNil, .ok (c + 2))
      else (rv, .err (.typeError "interface" c (some ⟨n, some t⟩))) : DR).2 := by
    refine tells_onOk tells_idx fun x _ => tells_dite (fun _ => tells_onOk (validateNull_q named_untyped) fun _ _ => tells_ok) fun _ => tells_err ?_
    exact named_new (n' := n) (ty := t) hp (.inl rfl) (.inl rfl) (.inl rfl)
  cases rv with
  | iface dt v =>
    simp only [runIface]
    by_cases hd : W.dynUnm dt = true
    · simp only [hd, if_true]
      exact tells_mapErr (dynDecode_named hp hi)
    · simp only [hd]
      exact plain
  | _ => exact plain

theorem invalid_named {t : Ty} {n : Names} {rv : Val} (hp : Spot W b t0 t c n) : Tells (Named W b t0) (blamed n t (invalidDecode c rv)).2 :=
  tells_blamed (tells_err (named_new hp (.inl rfl) (.inl rfl) (.inl rfl)))

/-! ### Keys -/

theorem runKey_named {anyDec : Names → Nat → Nat → DR} {k : Ty} {n : Names} (hb : b.length < 2 ^ 63) (hd : depth ≤ maxDepth) (hp : Spot W b t0 k c n)
    (ha : depth + 1 ≤ maxDepth → ∀ c, Spot W b t0 .any c n → Tells (Named W b t0) (anyDec n c (depth + 1)).2)
    (hk : depth + 1 ≤ maxDepth → ∀ c v c', anyDec n c (depth + 1) = (v, .ok c') → ValueAt b c c') :
    Tells (Named W b t0) (runKey W anyDec b k (keyObj W k n) c depth).2 := by
  unfold keyObj
  cases hu : W.unmOf k with
  | some id => exact runUnm_named hb hd hp hu
  | none =>
    dsimp only
    cases hr : W.resolve k with
    | ptr e =>
      have hip : W.isPtr k = true := by simp [World.isPtr, hr]
      have hpe : Spot W b t0 e c n := .ptr hp ⟨hu, hr⟩
      dsimp only
      cases hu' : W.unmOf e with
      | some id => exact invalid_named hp
      | none =>
        dsimp only
        cases hr' : W.resolve e with
        | str => simp only [runKey, hip, if_true]; exact ptrKeyDecode_q named_untyped (runStr_named hpe (.inr (.inl hr'.symm)))
        | bool => simp only [runKey, hip, if_true]; exact ptrKeyDecode_q named_untyped (boolDecode_q named_untyped)
        | int i => simp only [runKey, hip, if_true]; exact ptrKeyDecode_q named_untyped (runInt_named hpe (.inl rfl) hr')
        | uint i => simp only [runKey, hip, if_true]; exact ptrKeyDecode_q named_untyped (runUint_named hpe ⟨hu', hr'⟩)
        | any => simp only [runKey, hip, if_true]; exact ptrKeyDecode_q named_untyped (runAny_named hb hpe (.inl ⟨hu', hr'⟩) ha hk)
        | iface i => simp only [runKey, hip, if_true]; exact ptrKeyDecode_q named_untyped (runAny_named hb hpe (.inr ⟨i, hu', hr'⟩) ha hk)
        | _ => exact invalid_named hp
    | str => simp only [runKey, World.isPtr, hr]; exact runStr_named hp (.inr (.inl hr.symm))
    | bool => simp only [runKey, World.isPtr, hr]; exact boolDecode_q named_untyped
    | int i => simp only [runKey, World.isPtr, hr]; exact runInt_named hp (.inl rfl) hr
    | uint i => simp only [runKey, World.isPtr, hr]; exact runUint_named hp ⟨hu, hr⟩
    | any => simp only [runKey, World.isPtr, hr]; exact runAny_named hb hp (.inl ⟨hu, hr⟩) ha hk
    | iface i => simp only [runKey, World.isPtr, hr]; exact runIface_named hp (.inr ⟨i, hu, hr⟩)
    | _ => exact invalid_named hp

/-! ### Structs -/

theorem runString_named {S : List (Ty × Names)} {d : Dec} {t : Ty} {n : Names} (h : Made W S d t n) (hw : Wraps d) (hp : Spot W b t0 t c n) (s : Bytes) (rv : Val) :
    Tells (Named W b t0) (runString W d s c rv).2 := by
  cases h with
  | bool h =>
    simp only [runString]
    cases parseBool s with
    | none => exact tells_err (named_untyped _ (by no_type))
    | some v => exact tells_ok
  | int h => exact tells_blamed (processInt_q named_untyped_blame (named_new hp (.inl rfl) (.inl rfl) (.inl rfl)))
  | uint h => exact tells_blamed (processUint_q named_untyped_blame (named_new hp (.inr (.inl ⟨rfl, _, h⟩)) (.inl rfl) (.inl rfl)))
  | f32 h | f64 h => exact processFloat_q named_untyped
  | _ => exact tells_panic

theorem runWrapped_named {S : List (Ty × Names)} {d : Dec} {t : Ty} {n : Names} (h : Made W S d t n) (hw : Wraps d) (hs : wrappable W t = true)
    (hp : Spot W b t0 t c n) (rv : Val) : Tells (Named W b t0) (runWrapped W d n b c rv).2 := by
  unfold runWrapped
  refine tells_onOk (stringBytes_named hp (.inl rfl) (.inr (.inr (.inl ⟨rfl, .inr (.inr (.inl (wrappable_iff.1 hs)))⟩)))) ?_
  rintro ⟨ob, e⟩ -
  cases ob with
  | none => exact tells_ok
  | some s => exact tells_onOk (runString_named h hw hp s rv) fun _ _ => tells_ok

theorem fieldDecode_value {rec : Ty → Nat → Nat → Val → DR} (hb : b.length < 2 ^ 63)
    (hrec : ∀ t c rv v c', rec t c depth rv = (v, .ok c') → ValueAt b c c') {s : FieldSet} {c' : Nat} {rv v : Val}
    (h : fieldDecode W rec b s c depth rv = (v, .ok c')) : ValueAt b c c' := by
  unfold fieldDecode at h
  split at h
  · split at h
    · split at h
      · rename_i hw
        rcases ptrDecode_cases h with ⟨hat, -⟩ | ⟨-, v0, w, hi, -⟩
        · exact at_value (n := 0) hat .null
        · obtain ⟨d, hat, hwd⟩ := (wrappedDecode_iff hb hw).1 hi
          exact at_value (n := 0) hat (lax_wrapped hwd)
      · cases h
    · split at h
      · rename_i hw
        obtain ⟨d, hat, hwd⟩ := (wrappedDecode_iff hb hw).1 h
        exact at_value (n := 0) hat (lax_wrapped hwd)
      · cases h
  · exact hrec _ _ _ _ _ h

theorem runField_named {S : List (Ty × Names)} {fs : List Field} {sn : Bytes} {a : FieldObj} {s : FieldSet} (h : FieldMade W S fs sn a s)
    {rec : Dec → Nat → Nat → Val → DR}
    (hr : ∀ d t n, Made W S d t n → Spot W b t0 t c n → ∀ v, Tells (Named W b t0) (rec d c depth v).2)
    (hp : ∀ f, fs[s.idx]? = some f → Spot W b t0 s.ty c ⟨sn, f.name⟩) (rv : Val) : Tells (Named W b t0) (runField W rec b a.dec c depth rv).2 := by
  obtain ⟨-, -, d, f, hf, -, -, -, h3, h4⟩ := h
  replace hp := hp f hf
  split at h4
  · rcases wrapDec_cases h3 h4 with ⟨e, hw, hwr, -⟩ | ⟨e, i, hpp, -, e2, hi, hw, hwr⟩
    · rw [e]
      exact runWrapped_named h3 hw hwr hp rv
    · rw [e2]
      exact ptrDecode_q named_untyped fun v => runWrapped_named hi hw hwr (.ptr hp hpp) v
  · rw [h4]
    have := hr d _ _ h3 hp rv
    cases h3 with
    | ptr _ _ h5 => cases h5 <;> exact this
    | _ => exact this

theorem runFields_named {t : Ty} {n : Names} {id : Nat} {c0 : Nat} (hb : b.length < 2 ^ 63) (hp : Spot W b t0 t c0 n) (ht : Plain W t (.struct id))
    {S : List (Ty × Names)} {fm : StructObj} (hm : FieldsMade W S (W.fields id) (W.typeName t) fm.fields (fieldSets W 0 (W.fields id)))
    (hn : fm.names = n ∨ Recursive W t) {dec : Dec → Nat → Val → DR} {skip : Nat → Res Nat}
    (hd : ∀ a s c, FieldMade W S (W.fields id) (W.typeName t) a s → (∀ f, (W.fields id)[s.idx]? = some f → Spot W b t0 s.ty c ⟨W.typeName t, f.name⟩) →
      ∀ v, Tells (Named W b t0) (dec a.dec c v).2)
    (hk : ∀ a s, FieldMade W S (W.fields id) (W.typeName t) a s → ∀ c v v' c', dec a.dec c v = (v', .ok c') → ValueAt b c c')
    (hs : ∀ c, Tells (Named W b t0) (skip c)) (hsk : ∀ c c', skip c = .ok c' → ValueAt b c c') :
    ∀ f c vs, KeyAt b c0 c → Tells (Named W b t0) (runFields fm dec skip b f c vs).2 := by
  intro f
  induction f with
  | zero => intro c vs _; exact tells_diverge
  | succ f ih =>
    intro c vs hc
    unfold runFields
    refine tells_dite (fun _ => tells_err (named_untyped _ (by no_type))) fun _ => tells_onOk ?_ ?_
    · unfold findField
      refine tells_bind (stringBytes_named (.structKey hp ht hc) ?_ (.inl rfl)) fun _ _ => tells_ok
      rcases hn with rfl | hn
      · exact .inl rfl
      · exact .inr (.inr ⟨t, c0, n, id, hp, ht, hc, hn⟩)
    rintro ⟨fld, c1⟩ hf
    simp only [findField, Res.bind_eq_ok, Res.ok.injEq, Prod.mk.injEq, Prod.exists] at hf
    obtain ⟨ob, e, h1, hfld, rfl⟩ := hf
    replace h1 : stringBytes b c = .ok (ob, e) := by
      generalize stringBytes b c = r at h1
      cases r with
      | ok p => exact h1
      | _ => cases h1
    obtain ⟨kd, hkd, hat⟩ : ∃ kd, FieldKey kd (ob.getD []) ∧ At b c kd e := by
      rcases (stringBytes_iff hb).1 h1 with ⟨rfl, h⟩ | ⟨l, s, rfl, hl, h⟩
      · exact ⟨_, .null, h⟩
      · exact ⟨_, .str hl, h⟩
    have hval : ValueAt b c e := at_value (n := 0) hat (lax_fieldKey hkd)
    dsimp only
    refine tells_dite (fun _ => tells_err (named_untyped _ (by no_type))) fun _ => ?_
    have key : ∀ (vs : List Val) (r : Res Nat), Tells (Named W b t0) r → (∀ c', r = .ok c' → ValueAt b e c') → Tells (Named W b t0)
        (onOk (.struct vs) r fun c =>
          if !hasByte b c then (.struct vs, .err (.unexpectedEnd "object" c)) else
          onOk (.struct vs) (idx b c) fun x =>
          if x = cRBrace then (.struct vs, .ok (c + 1)) else
          runFields fm dec skip b f c vs).2 := by
      intro vs r hr hr'
      refine tells_onOk hr fun c2 h2 => tells_dite (fun _ => tells_err (named_untyped _ (by no_type))) fun _ => tells_onOk tells_idx fun x hx => ?_
      exact tells_dite (fun _ => tells_ok) fun hne => ih _ _ ⟨.next hc.1 hval (hr' _ h2), not_brace hx hne⟩
    rcases find_made (key := ob.getD []) hm with ⟨h2, h3⟩ | ⟨a, s, h2, h3, h4⟩
    · rw [h2] at hfld; subst hfld
      exact key vs _ (hs _) (hsk _)
    · rw [h2] at hfld; subst hfld
      obtain ⟨i, g, hfor, rfl⟩ := find_some h3
      dsimp only
      cases vs[a.idx]? with
      | none => exact key vs _ tells_panic (by intro _ h; cases h)
      | some v0 =>
        dsimp only
        refine key _ _ (hd a _ e h4 (fun f' hf' => ?_) v0) fun c' h' => hk a _ h4 e v0 _ c' (by rw [← h'])
        have hg : g = f' := by
          have := hfor.1.symm.trans hf'
          simpa using this
        subst hg
        exact .field hp ht hc.1 hkd hat.1 hat.2 hfor

theorem runStruct_named {t : Ty} {n : Names} {id : Nat} (hb : b.length < 2 ^ 63) (hp : Spot W b t0 t c n) (ht : Plain W t (.struct id))
    {S : List (Ty × Names)} {fm : StructObj} (hm : FieldsMade W S (W.fields id) (W.typeName t) fm.fields (fieldSets W 0 (W.fields id)))
    (hn : fm.names = n ∨ Recursive W t) {dec : Dec → Nat → Nat → Val → DR}
    (hd : depth + 1 ≤ maxDepth → ∀ a s c, FieldMade W S (W.fields id) (W.typeName t) a s → (∀ f, (W.fields id)[s.idx]? = some f → Spot W b t0 s.ty c ⟨W.typeName t, f.name⟩) →
      ∀ v, Tells (Named W b t0) (dec a.dec c (depth + 1) v).2)
    (hk : depth + 1 ≤ maxDepth → ∀ a s, FieldMade W S (W.fields id) (W.typeName t) a s → ∀ c v v' c', dec a.dec c (depth + 1) v = (v', .ok c') → ValueAt b c c')
    (rv : Val) : Tells (Named W b t0) (runStruct fm dec b c depth rv).2 := by
  unfold runStruct
  refine tells_dite (fun _ => tells_err (named_untyped _ (by no_type))) fun _ => ?_
  refine tells_dite (fun _ => tells_err (named_untyped _ (by no_type))) fun hdp => tells_onOk tells_idx fun x hx => ?_
  refine tells_dite (fun _ => tells_onOk (validateNull_q named_untyped) fun _ _ => tells_ok) fun _ => ?_
  refine tells_onOk (header_q named_untyped (by no_type)) fun c1 h1 => ?_
  refine tells_dite (fun _ => tells_err (named_untyped _ (by no_type))) fun _ => tells_onOk tells_idx fun y hy => ?_
  refine tells_dite (fun _ => tells_err (named_untyped _ (by no_type))) fun _ => tells_onOk (skipLen_q named_untyped) fun c2 h2 => ?_
  refine tells_dite (fun _ => tells_err (named_untyped _ (by no_type))) fun _ => tells_onOk tells_idx fun z hz => ?_
  refine tells_dite (fun _ => tells_err (named_untyped _ (by no_type))) fun hzb => ?_
  dsimp only
  refine tells_dite (fun _ => tells_err (named_untyped _ (by no_type))) fun _ => tells_onOk tells_idx fun u hu => ?_
  refine tells_dite (fun _ => tells_ok) fun hne => ?_
  have hzb : z = cLBrace := by simpa using hzb
  subst hzb
  have hdp : depth + 1 ≤ maxDepth := by omega
  cases rv with
  | struct vs =>
    obtain ⟨ds, hds, hdr, he⟩ := skipLen_sound h2
    exact runFields_named hb hp ht hm hn (hd hdp) (hk hdp) (fun _ => skipValue_q named_untyped) (fun _ _ h => skip_value hb hdp h) _ _ _
      ⟨.first (head_of hb hx h1 hds hdr he hz), not_brace hu hne⟩
  | _ => exact tells_panic

/-! ### The whole decoder -/

theorem decodeF_value (hb : b.length < 2 ^ 63) {f : Nat} {t : Ty} {c' : Nat} {rv v : Val} (hd : depth ≤ maxDepth) (h : decodeF W b f t c depth rv = (v, .ok c')) :
    ValueAt b c c' := by
  obtain ⟨d, h1, h2⟩ := decodeF_sound hb hd h
  exact at_value h1 (decDoc_lax h2)

theorem run_named {S : List (Ty × Names)} {H : List StructObj} (hH : AllMade W S H) (hb : b.length < 2 ^ 63) :
    ∀ f d t n, Made W S d t n → ∀ c depth, depth ≤ maxDepth → Spot W b t0 t c n → ∀ v, Tells (Named W b t0) (runDec W H b f d c depth v).2 := by
  have nonptr : ∀ f, (∀ d t n, Made W S d t n → ∀ c depth, depth ≤ maxDepth → Spot W b t0 t c n → ∀ v, Tells (Named W b t0) (runDec W H b f d c depth v).2) →
      ∀ d t n, Made W S d t n → ∀ c depth, depth ≤ maxDepth → Spot W b t0 t c n → ∀ v, Tells (Named W b t0) (runNonPtr W H (runDec W H b f) b d c depth v).2 := by
    intro f ih d t n h c depth hdp hp rv
    have hval : ∀ {d t n depth}, Made W S d t n → depth ≤ maxDepth → ∀ c v v' c', runDec W H b f d c depth v = (v', .ok c') → ValueAt b c c' :=
      fun hm hd c v v' c' h => decodeF_value hb hd (sameRun_ok (run_alike hH b f _ _ _ hm c _ v) h)
    have many : ∀ n, Made W S (.iface .any n) .any n := fun n => .any ⟨rfl, rfl⟩
    have hany : ∀ n c depth, depth + 1 ≤ maxDepth → Spot W b t0 .any c n → Tells (Named W b t0) (runDec W H b f (.iface .any n) c (depth + 1) .ifaceNil).2 :=
      fun n c depth hd hp => ih _ _ _ (many n) _ _ hd hp _
    have hanyk : ∀ n depth, depth + 1 ≤ maxDepth → ∀ c v c', runDec W H b f (.iface .any n) c (depth + 1) .ifaceNil = (v, .ok c') → ValueAt b c c' :=
      fun n depth hd c v c' h => hval (many n) hd c _ v c' h
    unfold runNonPtr
    dsimp only
    cases h with
    | unm h => exact runUnm_named hb hdp hp h
    | bool h => exact boolDecode_q named_untyped
    | f32 h | f64 h => exact floatDecode_q named_untyped
    | int h => exact runInt_named hp (.inl rfl) h.2
    | uint h => exact runUint_named hp h
    | str h => exact runStr_named hp (.inr (.inl h.2.symm))
    | invalid h => exact invalid_named hp
    | any h => simp only [h.2]; exact runAny_named hb hp (.inl h) (fun hd c hp => hany _ _ _ hd hp) (hanyk _ _)
    | iface h => simp only [h.2]; exact runIface_named hp (.inr ⟨_, h⟩)
    | bytes h1 h2 h3 =>
      unfold runBytes
      refine tells_onOk tells_idx fun x _ => tells_dite (fun _ => ?_) fun _ => ?_
      · refine tells_blamed (sliceDecode_q named_untyped_blame (named_new hp (.inl rfl) (.inr (.inl h1.2.symm)) (.inl rfl)) ?_ fun hd => hval h3 hd)
        intro hd c1 c2 v he hv e hr
        exact named_blame (ih _ _ _ h3 _ _ hd (.slice hp h1 he hv) v e hr)
      · refine tells_onOk (stringBytes_named hp (.inl rfl) (.inr (.inr (.inl ⟨rfl, .inr (.inl ⟨_, h1.2, h2⟩)⟩)))) ?_
        rintro ⟨ob, e⟩ -
        cases ob <;> exact tells_ok
    | slice h1 h2 h3 =>
      refine tells_blamed (sliceDecode_q named_untyped_blame (named_new hp (.inl rfl) (.inr (.inl h1.2.symm)) (.inl rfl)) ?_ fun hd => hval h3 hd)
      intro hd c1 c2 v he hv e hr
      exact named_blame (ih _ _ _ h3 _ _ hd (.slice hp h1 he hv) v e hr)
    | array h1 h3 =>
      exact arrayDecode_q named_untyped hb (fun hd c1 c2 v he hv => ih _ _ _ h3 _ _ hd (.array hp h1 he hv) v) fun hd => hval h3 hd
    | map h1 h3 =>
      refine mapDecode_q named_untyped hb ?_ ?_ ?_ ?_
      · exact fun hd c1 he => runKey_named hb hd (.mapKey hp h1 he) (fun hd c hp => hany _ _ _ hd hp) (hanyk _ _)
      · intro hd c1 v c' h
        have := sameRun_ok (runKey_alike (fun n c d => run_alike hH b f _ _ _ (many n) c d .ifaceNil) c1 _) h
        obtain ⟨d, hat, hkr⟩ := keyDecode_sound hb hd (fun hd c v c' h => decodeF_sound hb hd h) this
        rcases hkr with ⟨-, hkr⟩ | ⟨p, -, -, -, rfl, -⟩
        · exact at_value hat (decDoc_lax hkr)
        · exact at_value (n := 0) hat .null
      · exact fun hd c1 c2 he hv => ih _ _ _ h3 _ _ hd (.mapVal hp h1 he hv) _
      · exact fun hd c v c' h => hval h3 hd c _ v c' h
    | ptr h1 => exact tells_panic
    | struct h1 h2 h3 =>
      rename_i n0 id a
      have ha := (List.getElem?_eq_some_iff.1 h2).1
      have ha' : a < H.length := by rw [hH.1]; exact ha
      have hc : H[a]? = some H[a] := List.getElem?_eq_getElem ha'
      obtain ⟨hnm, id', hp', hf⟩ := hH.2 a _ t n0 hc h2
      have : id' = id := by have := hp'.2.symm.trans h1.2; simpa using this
      subst this
      simp only [hc]
      refine runStruct_named hb hp h1 hf (by rw [hnm]; exact h3) ?_ ?_ rv
      · exact fun hd a s c hm hpl v => runField_named hm (fun d t n h hp v => ih d t n h _ _ hd hp v) hpl v
      · intro hd a s hm c v v' c' h
        have := sameRun_ok (runField_alike hm (run_alike hH b f) c _ v) h
        exact fieldDecode_value hb (fun t c rv v c' h => decodeF_value hb hd h) this
  intro f
  induction f with
  | zero => intro d t n _ c depth _ _ v; exact tells_diverge
  | succ f ih =>
    intro d t n h c depth hdp hp rv
    cases h with
    | ptr h1 h2 h3 => exact ptrDecode_q named_untyped fun v => nonptr f ih _ _ _ h3 _ _ hdp (.ptr hp h1) v
    | iface h => simp only [runDec]; exact nonptr f ih _ _ _ (.iface h) _ _ hdp hp rv
    | _ =>
      simp only [runDec]
      refine nonptr f ih _ _ _ ?_ _ _ hdp hp rv
      constructor <;> assumption

theorem decodeWith_named {S : List (Ty × Names)} {H : List StructObj} {d : Dec} (hH : AllMade W S H) (hb : b.length < 2 ^ 63) (hd : Made W S d t0 noNames) (v : Val) :
    Tells (Named W b t0) (decodeWith W d H b v).2 := by
  have h := run_named hH hb (b.length + 1) d t0 noNames hd 0 0 (Nat.zero_le _) .top v
  unfold decodeWith
  generalize runDec W H b (b.length + 1) d 0 0 v = x at h ⊢
  obtain ⟨v', r⟩ := x
  cases r with
  | ok c => exact validateEndBuf_q named_untyped
  | err e => intro e' he; cases he; exact h _ rfl
  | _ => intro e' he; cases he

end Verif

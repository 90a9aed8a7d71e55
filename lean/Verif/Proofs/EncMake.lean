import Verif.Model.EncObj
import Verif.Proofs.DecMake
/-
Making encoder objects: it ends as `compileE` says, and what it makes was made for the type.
-/
namespace Verif

/-- Types whose encoder is a plain function. -/
def scalarKind (W : World) (t : Ty) : Bool :=
  match W.resolve t with
  | .bool | .int _ | .f32 | .f64 | .str => true
  | .uint k => decide (k ≠ .uptr)
  | _ => false

/-- Types whose encoder is reached through a variable. -/
def cellKind (W : World) (t : Ty) : Bool :=
  match W.resolve t with
  | .struct _ | .slice _ | .map _ _ => true
  | _ => false

/-- Element types for which `compilePtr` asks `compile`. -/
def viaCompile (W : World) (e : Ty) : Bool :=
  match W.resolve e with
  | .array _ _ | .slice _ | .other | .named _ => true
  | .uint k => decide (k = .uptr)
  | _ => false

def isMap (W : World) (t : Ty) : Bool :=
  match W.resolve t with
  | .map _ _ => true
  | _ => false

/-- The object was made for the type: with `true`, by the functions for kinds, with `false` by `compile`. `S` are the types of the variables. -/
inductive EMade (W : World) (S : List Ty) : Bool → Enc → Ty → Prop
  | marshaler {t} : W.marOf t = true → EMade W S false (.marshaler t) t
  | bytes {t} : W.marOf t = false → t = .slice (.uint .u8) → EMade W S false .bytes t
  | scalar {t} : scalarKind W t = true → EMade W S true (.scalar t) t
  | iface {t} : W.isIface t = true → EMade W S true (.iface t) t
  | array {t n e d} : W.resolve t = .array n e → EMade W S false d e → EMade W S true (.array n d) t
  | cell {a t} : S[a]? = some t → cellKind W t = true → EMade W S true (.cell a) t
  | kind {d t} : W.marOf t = false → t ≠ .slice (.uint .u8) → (∀ e, W.resolve t ≠ .ptr e) → EMade W S true d t → EMade W S false d t
  | derefKind {t e d} : W.marOf t = false → t ≠ .slice (.uint .u8) → W.resolve t = .ptr e → (scalarKind W e || isMap W e) = true → EMade W S true d e →
      EMade W S false (.derefKind e d) t
  | check {t e d} : W.marOf t = false → t ≠ .slice (.uint .u8) → W.resolve t = .ptr e → W.isStruct e = true → EMade W S true d e →
      EMade W S false (.check e d) t
  | ptrIface {t e} : W.marOf t = false → t ≠ .slice (.uint .u8) → W.resolve t = .ptr e → W.isIface e = true → EMade W S false (.iface t) t
  | deref {t e d} : W.marOf t = false → t ≠ .slice (.uint .u8) → W.resolve t = .ptr e → viaCompile W e = true → EMade W S false d e →
      EMade W S false (.deref e d) t

theorem EMade.mono {W : World} {S : List Ty} (S' : List Ty) {k : Bool} {d : Enc} {t : Ty} (h : EMade W S k d t) : EMade W (S ++ S') k d t := by
  induction h with
  | marshaler h => exact .marshaler h
  | bytes h1 h2 => exact .bytes h1 h2
  | scalar h => exact .scalar h
  | iface h => exact .iface h
  | array h _ ih => exact .array h ih
  | cell h1 h2 =>
    refine .cell ?_ h2
    rw [List.getElem?_append_left (List.getElem?_eq_some_iff.1 h1).1]
    exact h1
  | kind h1 h2 h3 _ ih => exact .kind h1 h2 h3 ih
  | derefKind h1 h2 h3 h4 _ ih => exact .derefKind h1 h2 h3 h4 ih
  | check h1 h2 h3 h4 _ ih => exact .check h1 h2 h3 h4 ih
  | ptrIface h1 h2 h3 h4 => exact .ptrIface h1 h2 h3 h4
  | deref h1 h2 h3 h4 _ ih => exact .deref h1 h2 h3 h4 ih

/-- How a field and its object belong together. -/
def EFieldMade (W : World) (S : List Ty) (a : EncField) (b : EField) : Prop :=
  a.idx = b.idx ∧ a.name = b.name ∧ a.omitEmpty = b.omitEmpty ∧
  match W.resolve b.ty with
  | .ptr e =>
    if b.str then a.ptr = some e ∧ a.enc = .asString e
    else W.isPtr e = false ∧ if W.isStruct e then a.ptr = none ∧ ∃ d, a.enc = .check e d ∧ EMade W S false d e
      else a.ptr = some e ∧ EMade W S false a.enc e
  | _ => a.ptr = none ∧ if b.str then a.enc = .asString b.ty else EMade W S false a.enc b.ty

theorem EFieldMade.mono {W : World} {S : List Ty} (S' : List Ty) {a : EncField} {b : EField} (h : EFieldMade W S a b) : EFieldMade W (S ++ S') a b := by
  obtain ⟨h1, h2, h3, h4⟩ := h
  refine ⟨h1, h2, h3, ?_⟩
  split
  · rename_i e he
    rw [he] at h4
    dsimp only at h4
    split
    · rename_i hs; rw [if_pos hs] at h4; exact h4
    · rename_i hs
      rw [if_neg hs] at h4
      refine ⟨h4.1, ?_⟩
      have h4 := h4.2
      split
      · rename_i hs; rw [if_pos hs] at h4; obtain ⟨h5, d, h6, h7⟩ := h4; exact ⟨h5, d, h6, h7.mono S'⟩
      · rename_i hs; rw [if_neg hs] at h4; exact ⟨h4.1, h4.2.mono S'⟩
  · split at h4
    · rename_i he _ e he'; exact absurd he' (he e)
    · refine ⟨h4.1, ?_⟩
      have h4 := h4.2
      split
      · rename_i hs; rw [if_pos hs] at h4; exact h4
      · rename_i hs; rw [if_neg hs] at h4; exact h4.mono S'

/-- Field by field. -/
def EFieldsMade (W : World) (S : List Ty) : List EncField → List EField → Prop
  | [], [] => True
  | a :: as, b :: bs => EFieldMade W S a b ∧ EFieldsMade W S as bs
  | _, _ => False

theorem EFieldsMade.mono {W : World} {S : List Ty} (S' : List Ty) : ∀ {as : List EncField} {bs : List EField}, EFieldsMade W S as bs → EFieldsMade W (S ++ S') as bs
  | [], [], _ => trivial
  | [], _ :: _, h => h.elim
  | _ :: _, [], h => h.elim
  | _ :: _, _ :: _, ⟨h1, h⟩ => ⟨h1.mono S', h.mono S'⟩

/-- The contents of a variable were made for the type. -/
def BodyMade (W : World) (S : List Ty) (body : EncBody) (t : Ty) : Prop :=
  match W.resolve t with
  | .struct id => ∃ fls, body = .struct (W.fields id).length fls ∧ EFieldsMade W S fls (efields W 0 (W.fields id))
  | .slice e => ∃ d, body = .slice e d ∧ EMade W S false d e
  | .map k v => ∃ d, body = .map k v d ∧ EMade W S false d v
  | _ => False

theorem BodyMade.mono {W : World} {S : List Ty} (S' : List Ty) {body : EncBody} {t : Ty} (h : BodyMade W S body t) : BodyMade W (S ++ S') body t := by
  unfold BodyMade at h ⊢
  cases hr : W.resolve t <;> rw [hr] at h <;> dsimp only at h ⊢
  case struct id => obtain ⟨fls, h1, h2⟩ := h; exact ⟨fls, h1, h2.mono S'⟩
  case slice e => obtain ⟨d, h1, h2⟩ := h; exact ⟨d, h1, h2.mono S'⟩
  case map k v => obtain ⟨d, h1, h2⟩ := h; exact ⟨d, h1, h2.mono S'⟩
  all_goals exact h

/-- All variables are set. -/
def AllEMade (W : World) (S : List Ty) (H : List (Option EncBody)) : Prop :=
  H.length = S.length ∧ ∀ (a : Nat) b t, H[a]? = some b → S[a]? = some t → ∃ body, b = some body ∧ BodyMade W S body t

/-- The memory of encoders while the variables `o` are not set. -/
structure EMemOk (W : World) (S : List Ty) (o : List Nat) (m : EncMem) : Prop where
  len : m.heap.length = S.length
  done : ∀ (a : Nat) b t, m.heap[a]? = some b → S[a]? = some t → a ∉ o → ∃ body, b = some body ∧ BodyMade W S body t
  seen : ∀ p ∈ m.seen, S[p.2]? = some p.1 ∧ cellKind W p.1 = true

/-- One step of compilation and what the type-directed check says. -/
def ESteady {α : Type} (W : World) (S : List Ty) (o : List Nat) (P : List Ty → α → Prop) (r : Res (α × EncMem)) (r' : Res (List Ty)) : Prop :=
  match r with
  | .ok (x, m') => r' = .ok (m'.seen.map (·.1)) ∧ ∃ S', EMemOk W (S ++ S') o m' ∧ P (S ++ S') x
  | .err e => r' = .err e
  | .panic p => r' = .panic p
  | .diverge => r' = .diverge

theorem ESteady.pure {α : Type} {W : World} {S : List Ty} {o : List Nat} {m : EncMem} {P : List Ty → α → Prop} {x : α} (hm : EMemOk W S o m) (h : P S x) :
    ESteady W S o P (.ok (x, m)) (.ok (m.seen.map (·.1))) :=
  ⟨rfl, [], by rw [List.append_nil]; exact ⟨hm, h⟩⟩

theorem ESteady.bind {α β : Type} {W : World} {S : List Ty} {o : List Nat} {P : List Ty → α → Prop} {Q : List Ty → β → Prop}
    {r : Res (α × EncMem)} {r' : Res (List Ty)} {k : α × EncMem → Res (β × EncMem)} {k' : List Ty → Res (List Ty)} (h : ESteady W S o P r r')
    (hk : ∀ S' x m', EMemOk W (S ++ S') o m' → P (S ++ S') x → ESteady W (S ++ S') o Q (k (x, m')) (k' (m'.seen.map (·.1)))) :
    ESteady W S o Q (r >>= k) (r' >>= k') := by
  cases r with
  | ok p =>
    obtain ⟨x, m'⟩ := p
    obtain ⟨e, S', h1, h2⟩ := h
    have := hk S' x m' h1 h2
    subst e
    simp only [Res.bind_ok]
    cases hkx : k (x, m') with
    | ok q =>
      rw [hkx] at this
      obtain ⟨e, S2, h3, h4⟩ := this
      exact ⟨e, S' ++ S2, by rw [← List.append_assoc]; exact ⟨h3, h4⟩⟩
    | err e => rw [hkx] at this; exact this
    | panic e => rw [hkx] at this; exact this
    | diverge => rw [hkx] at this; exact this
  | err e => have : r' = _ := h; subst this; exact rfl
  | panic e => have : r' = _ := h; subst this; exact rfl
  | diverge => have : r' = _ := h; subst this; exact rfl

/-- Wrapping what was made. -/
theorem ESteady.map {α β : Type} {W : World} {S : List Ty} {o : List Nat} {P : List Ty → α → Prop} {Q : List Ty → β → Prop}
    {r : Res (α × EncMem)} {r' : Res (List Ty)} {g : α → β} (h : ESteady W S o P r r') (hg : ∀ S' x, P (S ++ S') x → Q (S ++ S') (g x)) :
    ESteady W S o Q (r >>= fun (x, m) => .ok (g x, m)) r' := by
  cases r with
  | ok p => obtain ⟨x, m'⟩ := p; obtain ⟨e, S', h1, h2⟩ := h; exact ⟨e, S', h1, hg _ _ h2⟩
  | err e => exact h
  | panic e => exact h
  | diverge => exact h

/-- Setting a new variable when its contents have been made. -/
theorem ESteady.fill {α : Type} {W : World} {S : List Ty} {o : List Nat} {t : Ty} {P : List Ty → α → Prop} {r : Res (α × EncMem)} {r' : Res (List Ty)} {a : Nat}
    (ha : a = S.length) (hc : cellKind W t = true) {mk : α → EncBody} (h : ESteady W (S ++ [t]) (a :: o) P r r')
    (hb : ∀ S x, P S x → BodyMade W S (mk x) t) :
    ESteady W S o (fun S d => EMade W S true d t) (r >>= fun (x, m) => .ok (.cell a, { m with heap := m.heap.set a (some (mk x)) })) r' := by
  subst ha
  cases r with
  | ok p =>
    obtain ⟨x, m'⟩ := p
    obtain ⟨e, S', h1, h2⟩ := h
    have hat : (S ++ [t] ++ S')[S.length]? = some t := by simp
    refine ⟨e, [t] ++ S', ?_, ?_⟩ <;> rw [← List.append_assoc]
    · refine ⟨by simpa using h1.len, fun a b u h3 h4 ho => ?_, h1.seen⟩
      by_cases hab : a = S.length
      · subst hab
        rw [hat] at h4
        cases h4
        have hl : S.length < m'.heap.length := by rw [h1.len]; simp
        rw [List.getElem?_set_self hl] at h3
        cases h3
        exact ⟨_, rfl, hb _ _ h2⟩
      · rw [List.getElem?_set_ne (Ne.symm hab)] at h3
        exact h1.done a b u h3 h4 (by simp [hab, ho])
    · exact .cell hat hc
  | err e => exact h
  | panic e => exact h
  | diverge => exact h

/-- A new empty variable. -/
theorem EMemOk.push {W : World} {S : List Ty} {o : List Nat} {m : EncMem} (h : EMemOk W S o m) {t : Ty} (hc : cellKind W t = true) :
    EMemOk W (S ++ [t]) (m.heap.length :: o) { heap := m.heap ++ [none], seen := (t, m.heap.length) :: m.seen } := by
  refine ⟨by simp [h.len], fun a b u h1 h2 ho => ?_, fun p hp => ?_⟩
  · have hne : a ≠ m.heap.length := by intro e; exact ho (by rw [e]; exact List.mem_cons_self)
    have hl : a < m.heap.length := by
      have := (List.getElem?_eq_some_iff.1 h1).1
      simp at this
      omega
    rw [List.getElem?_append_left hl] at h1
    rw [List.getElem?_append_left (by rw [← h.len]; exact hl)] at h2
    obtain ⟨body, h3, h4⟩ := h.done a b u h1 h2 (fun hx => ho (List.mem_cons_of_mem _ hx))
    exact ⟨body, h3, h4.mono [t]⟩
  · rcases List.mem_cons.1 hp with rfl | hp
    · exact ⟨by simp [h.len], hc⟩
    · obtain ⟨h1, h2⟩ := h.seen p hp
      exact ⟨by rw [List.getElem?_append_left (List.getElem?_eq_some_iff.1 h1).1]; exact h1, h2⟩

/-- A variable that exists. -/
theorem ESteady.known {W : World} {S : List Ty} {o : List Nat} {m : EncMem} (h : EMemOk W S o m) {t : Ty} {a : Nat} (hl : m.seen.lookup t = some a) :
    ESteady W S o (fun S d => EMade W S true d t) (.ok (.cell a, m)) (.ok (m.seen.map (·.1))) :=
  ESteady.pure h (.cell (h.seen _ (lookup_mem hl)).1 (h.seen _ (lookup_mem hl)).2)

theorem res_assoc {α β γ : Type} (r : Res α) (f : α → Res β) (g : β → Res γ) : (r >>= f) >>= g = r >>= fun x => f x >>= g := by
  cases r <;> rfl

/-- What is asked of the recursive calls. -/
def ERecOk (W : World) (rec : EncMem → Ty → Res (Enc × EncMem)) (rec' : List Ty → Ty → Res (List Ty)) : Prop :=
  ∀ S o m t, EMemOk W S o m → ESteady W S o (fun S d => EMade W S false d t) (rec m t) (rec' (m.seen.map (·.1)) t)

theorem makeSlice_steady {W : World} {rec rec'} (hr : ERecOk W rec rec') {S : List Ty} {o : List Nat} {m : EncMem} (hm : EMemOk W S o m) {t e : Ty}
    (ht : W.resolve t = .slice e) :
    ESteady W S o (fun S d => EMade W S true d t) (makeSlice rec m t e) (compileESlice rec' (m.seen.map (·.1)) t e) := by
  have hc : cellKind W t = true := by simp [cellKind, ht]
  unfold makeSlice compileESlice
  rw [lookup_contains]
  cases hl : m.seen.lookup t with
  | some a => simpa using ESteady.known hm hl
  | none =>
    simp only [Option.isSome_none, Bool.false_eq_true, if_false]
    exact ESteady.fill hm.len hc (mk := fun d => .slice e d) (hr _ _ _ _ (hm.push hc)) (fun S d h => by simp only [BodyMade, ht]; exact ⟨d, rfl, h⟩)

theorem makeMap_steady {W : World} {rec rec'} (hr : ERecOk W rec rec') {S : List Ty} {o : List Nat} {m : EncMem} (hm : EMemOk W S o m) {t k v : Ty}
    (ht : W.resolve t = .map k v) :
    ESteady W S o (fun S d => EMade W S true d t) (makeMap W rec m t k v) (compileEMap W rec' (m.seen.map (·.1)) t k v) := by
  have hc : cellKind W t = true := by simp [cellKind, ht]
  unfold makeMap compileEMap
  rw [lookup_contains]
  cases hl : m.seen.lookup t with
  | some a => simpa using ESteady.known hm hl
  | none =>
    simp only [Option.isSome_none, Bool.false_eq_true, if_false]
    by_cases hk : (!W.mapKeyOk k) = true
    · rw [if_pos hk, if_pos hk]; rfl
    · rw [if_neg hk, if_neg hk]
      exact ESteady.fill hm.len hc (mk := fun d => .map k v d) (hr _ _ _ _ (hm.push hc)) (fun S d h => by simp only [BodyMade, ht]; exact ⟨d, rfl, h⟩)

theorem makeEFields_steady {W : World} {rec rec'} (hr : ERecOk W rec rec') : ∀ (fs : List Field) i S o m, EMemOk W S o m →
    ESteady W S o (fun S fls => EFieldsMade W S fls (efields W i fs)) (makeEFields W rec i m fs) (compileEFields W rec' (m.seen.map (·.1)) fs)
  | [], i, S, o, m, hm => by
    exact ESteady.pure hm trivial
  | f :: fs, i, S, o, m, hm => by
    unfold makeEFields compileEFields efields
    dsimp only
    by_cases h1 : (decide ((structTag W f).key = [45]) || !f.exported) = true
    · simp only [if_pos h1]
      exact makeEFields_steady hr fs (i + 1) S o m hm
    simp only [if_neg h1]
    have hptr : W.isPtr f.ty = true ↔ ∃ e, W.resolve f.ty = .ptr e := by
      unfold World.isPtr; split <;> simp_all
    -- the rest of the fields, after this one
    have rest : ∀ S' m' ptr d, EMemOk W (S ++ S') o m' →
        EFieldMade W (S ++ S') { idx := i, name := if (structTag W f).key.isEmpty then f.name else (structTag W f).key, omitEmpty := (structTag W f).omitEmpty, ptr := ptr, enc := d }
          { idx := i, name := if (structTag W f).key.isEmpty then f.name else (structTag W f).key, omitEmpty := (structTag W f).omitEmpty, str := (structTag W f).isString, ty := f.ty } →
        ESteady W (S ++ S') o (fun S fls => EFieldsMade W S fls ({ idx := i, name := if (structTag W f).key.isEmpty then f.name else (structTag W f).key, omitEmpty := (structTag W f).omitEmpty, str := (structTag W f).isString, ty := f.ty } :: efields W (i + 1) fs))
          (makeEFields W rec (i + 1) m' fs >>= fun (fls, m) => .ok ({ idx := i, name := if (structTag W f).key.isEmpty then f.name else (structTag W f).key, omitEmpty := (structTag W f).omitEmpty, ptr := ptr, enc := d } :: fls, m))
          (compileEFields W rec' (m'.seen.map (·.1)) fs) := by
      intro S' m' ptr d hm' hf
      exact ESteady.map (makeEFields_steady hr fs (i + 1) (S ++ S') o m' hm') (g := fun fls => _ :: fls) (fun S2 x hx => ⟨hf.mono S2, hx⟩)
    have rest0 := fun ptr d => rest [] m ptr d (by rw [List.append_nil]; exact hm)
    rw [List.append_nil] at rest0
    cases hres : W.resolve f.ty with
    | ptr e =>
      have hfe : fieldElem W f.ty = e := by simp [fieldElem, hres]
      simp only [World.isPtr, hfe, hres, Bool.true_and]
      by_cases h2 : W.isPtr e = true
      · unfold World.isPtr at h2
        simp only [h2, if_true]; rfl
      have h2' := h2
      unfold World.isPtr at h2
      simp only [h2]
      by_cases h3 : (f.anon && W.isStruct f.ty) = true
      · simp only [if_pos h3]; rfl
      simp only [if_neg h3, Option.getD_some]
      by_cases h4 : (structTag W f).isString = true
      · simp only [if_pos h4]
        by_cases h5 : asStringOk W e = true
        · simp only [if_pos h5]
          exact rest0 _ _ ⟨rfl, rfl, rfl, by simp only [hres, h4, if_true]; exact ⟨trivial, trivial⟩⟩
        · simp only [if_neg h5]; rfl
      · simp only [if_neg h4]
        rw [res_assoc]
        refine ESteady.bind (hr S o m e hm) fun S' d m' hm' hd => ?_
        dsimp only
        by_cases h6 : W.isStruct e = true
        · simp only [if_pos h6, Res.bind_ok]
          refine rest S' m' _ _ hm' ⟨rfl, rfl, rfl, ?_⟩
          simp only [hres, if_neg h4, if_pos h6]
          exact ⟨by simpa using h2', trivial, d, rfl, hd⟩
        · simp only [if_neg h6, Res.bind_ok]
          refine rest S' m' _ _ hm' ⟨rfl, rfl, rfl, ?_⟩
          simp only [hres, if_neg h4, if_neg h6]
          exact ⟨by simpa using h2', trivial, hd⟩
    | _ =>
      have hfe : fieldElem W f.ty = f.ty := by simp [fieldElem, hres]
      simp only [World.isPtr, hfe, hres, Bool.false_and, Bool.false_eq_true, if_false]
      by_cases h3 : (f.anon && W.isStruct f.ty) = true
      · simp only [if_pos h3]; rfl
      simp only [if_neg h3, Option.getD_none]
      by_cases h4 : (structTag W f).isString = true
      · simp only [if_pos h4]
        by_cases h5 : asStringOk W f.ty = true
        · simp only [if_pos h5]
          exact rest0 _ _ ⟨rfl, rfl, rfl, by simp only [hres, h4, if_true]; exact ⟨trivial, trivial⟩⟩
        · simp only [if_neg h5]; rfl
      · simp only [if_neg h4]
        rw [res_assoc]
        refine ESteady.bind (hr S o m f.ty hm) fun S' d m' hm' hd => ?_
        simp only [Res.bind_ok]
        refine rest S' m' _ _ hm' ⟨rfl, rfl, rfl, ?_⟩
        simp only [hres, if_neg h4]
        exact ⟨trivial, hd⟩

theorem makeEStruct_steady {W : World} {rec rec'} (hr : ERecOk W rec rec') {S : List Ty} {o : List Nat} {m : EncMem} (hm : EMemOk W S o m) {t : Ty} {id : Nat}
    (ht : W.resolve t = .struct id) :
    ESteady W S o (fun S d => EMade W S true d t) (makeEStruct W rec m t (W.fields id)) (compileEStruct W rec' (m.seen.map (·.1)) t (W.fields id)) := by
  have hc : cellKind W t = true := by simp [cellKind, ht]
  unfold makeEStruct compileEStruct
  rw [lookup_contains]
  cases hl : m.seen.lookup t with
  | some a => simpa using ESteady.known hm hl
  | none =>
    simp only [Option.isSome_none, Bool.false_eq_true, if_false]
    exact ESteady.fill hm.len hc (mk := fun fls => .struct (W.fields id).length fls) (makeEFields_steady hr _ _ _ _ _ (hm.push hc))
      (fun S fls h => by simp only [BodyMade, ht]; exact ⟨fls, rfl, h⟩)

theorem makeEPtr_steady {W : World} {rec rec'} (hr : ERecOk W rec rec') {S : List Ty} {o : List Nat} {m : EncMem} (hm : EMemOk W S o m) {t e : Ty}
    (h1 : W.marOf t = false) (h2 : t ≠ .slice (.uint .u8)) (ht : W.resolve t = .ptr e) :
    ESteady W S o (fun S d => EMade W S false d t) (makeEPtr W rec m t e) (compileEPtr W rec' (m.seen.map (·.1)) e) := by
  unfold makeEPtr compileEPtr
  cases he : W.resolve e with
  | ptr _ => rfl
  | bool | int _ | f32 | f64 | str =>
    exact ESteady.pure hm (.derefKind h1 h2 ht (by simp [scalarKind, he]) (.scalar (by simp [scalarKind, he])))
  | any | iface _ => exact ESteady.pure hm (.ptrIface h1 h2 ht (by simp [World.isIface, he]))
  | uint k =>
    dsimp only
    by_cases hk : k = .uptr
    · rw [if_pos hk, if_pos hk]
      exact ESteady.map (hr S o m e hm) (Q := fun S d => EMade W S false d t) (g := fun d => Enc.deref e d) (fun S' d hd => EMade.deref h1 h2 ht (by simp [viaCompile, he, hk]) hd)
    · rw [if_neg hk, if_neg hk]
      exact ESteady.pure hm (.derefKind h1 h2 ht (by simp [scalarKind, he, hk]) (.scalar (by simp [scalarKind, he, hk])))
  | map k v => exact ESteady.map (makeMap_steady hr hm he) (Q := fun S d => EMade W S false d t) (g := fun d => Enc.derefKind e d) (fun S' d hd => EMade.derefKind h1 h2 ht (by simp [isMap, he]) hd)
  | struct id => exact ESteady.map (makeEStruct_steady hr hm he) (Q := fun S d => EMade W S false d t) (g := fun d => Enc.check e d) (fun S' d hd => EMade.check h1 h2 ht (by simp [World.isStruct, he]) hd)
  | array _ _ | slice _ | other | named _ =>
    exact ESteady.map (hr S o m e hm) (Q := fun S d => EMade W S false d t) (g := fun d => Enc.deref e d) (fun S' d hd => EMade.deref h1 h2 ht (by simp [viaCompile, he]) hd)

/-- Making an encoder object ends like the check of its type, and the object was made for the type. -/
theorem makeEnc_steady {W : World} : ∀ f, ERecOk W (makeEnc W f) (compileE W f) := by
  intro f
  induction f with
  | zero => intro S o m t hm; rfl
  | succ f ih =>
    intro S o m t hm
    unfold makeEnc compileE
    by_cases h1 : W.marOf t = true
    · rw [if_pos h1, if_pos h1]; exact ESteady.pure hm (.marshaler h1)
    rw [if_neg h1, if_neg h1]
    have h1 : W.marOf t = false := by simpa using h1
    by_cases h2 : t = .slice (.uint .u8)
    · rw [if_pos h2, if_pos h2]; exact ESteady.pure hm (.bytes h1 h2)
    rw [if_neg h2, if_neg h2]
    have up : ∀ {r r'}, (∀ e, W.resolve t ≠ .ptr e) → ESteady W S o (fun S d => EMade W S true d t) r r' → ESteady W S o (fun S d => EMade W S false d t) r r' := by
      intro r r' hp h
      cases r with
      | ok p => obtain ⟨e, S', h3, h4⟩ := h; exact ⟨e, S', h3, .kind h1 h2 hp h4⟩
      | err e => exact h
      | panic e => exact h
      | diverge => exact h
    cases he : W.resolve t with
    | bool | int _ | f32 | f64 | str => exact up (by simp [he]) (ESteady.pure hm (.scalar (by simp [scalarKind, he])))
    | any | iface _ => exact up (by simp [he]) (ESteady.pure hm (.iface (by simp [World.isIface, he])))
    | uint k =>
      dsimp only
      by_cases hk : k = .uptr
      · rw [if_pos hk, if_pos hk]; rfl
      · rw [if_neg hk, if_neg hk]
        exact up (by simp [he]) (ESteady.pure hm (.scalar (by simp [scalarKind, he, hk])))
    | struct id => exact up (by simp [he]) (makeEStruct_steady ih hm he)
    | array n e =>
      refine up (by simp [he]) ?_
      have hm0 : EMemOk W S o { m with seen := [] } := ⟨hm.len, hm.done, by simp⟩
      have h := ih S o _ e hm0
      dsimp only at h ⊢
      generalize makeEnc W f { m with seen := [] } e = r at h ⊢
      cases r with
      | ok p =>
        obtain ⟨d, m'⟩ := p
        obtain ⟨h3, S', h4, h5⟩ := h
        rw [List.map_nil] at h3
        rw [h3]
        refine ⟨rfl, S', ⟨h4.len, h4.done, fun p hp => ?_⟩, .array he h5⟩
        obtain ⟨h6, h7⟩ := hm.seen p hp
        exact ⟨by rw [List.getElem?_append_left (List.getElem?_eq_some_iff.1 h6).1]; exact h6, h7⟩
      | err e => have h : compileE W f [] _ = _ := h; rw [h]; rfl
      | panic e => have h : compileE W f [] _ = _ := h; rw [h]; rfl
      | diverge => have h : compileE W f [] _ = _ := h; rw [h]; rfl
    | slice e => exact up (by simp [he]) (makeSlice_steady ih hm he)
    | map k v => exact up (by simp [he]) (makeMap_steady ih hm he)
    | ptr e => exact makeEPtr_steady ih hm h1 h2 he
    | other | named _ => rfl

/-- Preparing a type for encoding ends like the check of the type, and what it makes was made for it. -/
theorem getEncoder_spec (W : World) (cf : Nat) (t : Ty) :
    (∃ d H S s, getEncoder W cf t = .ok (d, H) ∧ compileE W cf [] t = .ok s ∧ AllEMade W S H ∧ EMade W S false d t) ∨
    (∃ e, getEncoder W cf t = .err e ∧ compileE W cf [] t = .err e) ∨
    (∃ p, getEncoder W cf t = .panic p ∧ compileE W cf [] t = .panic p) ∨
    (getEncoder W cf t = .diverge ∧ compileE W cf [] t = .diverge) := by
  have h := makeEnc_steady (W := W) cf [] [] { heap := [], seen := [] } t ⟨rfl, by simp, by simp⟩
  unfold getEncoder
  generalize makeEnc W cf { heap := [], seen := [] } t = r at h
  cases r with
  | ok q =>
    obtain ⟨d, m⟩ := q
    obtain ⟨h1, S, h2, h3⟩ := h
    exact .inl ⟨d, m.heap, S, _, rfl, h1, ⟨by simpa using h2.len, fun a b u h4 h5 => by simpa using h2.done a b u h4 (by simpa using h5) (by simp)⟩, by simpa using h3⟩
  | err e => exact .inr (.inl ⟨e, rfl, h⟩)
  | panic p => exact .inr (.inr (.inl ⟨p, rfl, h⟩))
  | diverge => exact .inr (.inr (.inr ⟨rfl, h⟩))

end Verif

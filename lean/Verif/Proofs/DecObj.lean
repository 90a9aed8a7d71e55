import Verif.Proofs.DecAlike
import Verif.Proofs.Unmarshal
/-
The decoder objects do what the types say, but for the names in type errors.
-/
namespace Verif
open Spec

/-- The key decoder that `compileMapKey` ends up with. -/
def keyObj (W : World) (k : Ty) (n : Names) : Dec :=
  match W.unmOf k with
  | some id => .unm id n
  | none => match W.resolve k with
    | .str => .str n
    | .bool => .bool n
    | .int i => .int i k n
    | .uint i => .uint i k n
    | .any | .iface _ => .iface k n
    | .ptr e => match W.unmOf e with
      | some _ => .invalid k n
      | none => match W.resolve e with
        | .str => .str n
        | .bool => .bool n
        | .int i => .int i e n
        | .uint i => .uint i e n
        | .any | .iface _ => .iface e n
        | _ => .invalid k n
    | _ => .invalid k n

/-- `d` was made for type `t` in a place with names `n`; `S` lists the types and names of the struct decoders in memory. A struct decoder has the names of
its place, unless the type contains itself. -/
inductive Made (W : World) (S : List (Ty × Names)) : Dec → Ty → Names → Prop
  | unm {t n id} : W.unmOf t = some id → Made W S (.unm id n) t n
  | bool {t n} : Plain W t .bool → Made W S (.bool n) t n
  | int {t n k} : Plain W t (.int k) → Made W S (.int k t n) t n
  | uint {t n k} : Plain W t (.uint k) → Made W S (.uint k t n) t n
  | f32 {t n} : Plain W t .f32 → Made W S (.float true n) t n
  | f64 {t n} : Plain W t .f64 → Made W S (.float false n) t n
  | str {t n} : Plain W t .str → Made W S (.str n) t n
  | bytes {t n e d} : Plain W t (.slice e) → W.isByte e = true → Made W S d e n → Made W S (.bytes d e n) t n
  | slice {t n e d} : Plain W t (.slice e) → W.isByte e = false → Made W S d e n → Made W S (.slice d e n) t n
  | array {t n l e d} : Plain W t (.array l e) → Made W S d e n → Made W S (.array d l e n) t n
  | map {t n k v vd} : Plain W t (.map k v) → Made W S vd v n → Made W S (.map k (keyObj W k n) v vd n) t n
  | any {t n} : Plain W t .any → Made W S (.iface t n) t n
  | iface {t n i} : Plain W t (.iface i) → Made W S (.iface t n) t n
  | ptr {t n e d} : Plain W t (.ptr e) → W.isPtr e = false → Made W S d e n → Made W S (.ptr d e n) t n
  | struct {t n n0 id a} : Plain W t (.struct id) → S[a]? = some (t, n0) → n0 = n ∨ Recursive W t → Made W S (.struct a) t n
  | invalid {t n} : Plain W t .other → Made W S (.invalid t n) t n

theorem Made.mono {W : World} {S : List (Ty × Names)} {d : Dec} {t : Ty} {n : Names} (h : Made W S d t n) (S' : List (Ty × Names)) :
    Made W (S ++ S') d t n := by
  induction h with
  | unm h => exact .unm h
  | bool h => exact .bool h
  | int h => exact .int h
  | uint h => exact .uint h
  | f32 h => exact .f32 h
  | f64 h => exact .f64 h
  | str h => exact .str h
  | bytes h1 h2 _ ih => exact .bytes h1 h2 ih
  | slice h1 h2 _ ih => exact .slice h1 h2 ih
  | array h1 _ ih => exact .array h1 ih
  | map h1 _ ih => exact .map h1 ih
  | any h => exact .any h
  | iface h => exact .iface h
  | ptr h1 h2 _ ih => exact .ptr h1 h2 ih
  | struct h1 h2 h3 => exact .struct h1 (by rw [List.getElem?_append_left (List.getElem?_eq_some_iff.1 h2).1]; exact h2) h3
  | invalid h => exact .invalid h

/-- An entry of a field table was made for a field; `fs` are the fields of the struct type, `sn` is its name. -/
def FieldMade (W : World) (S : List (Ty × Names)) (fs : List Field) (sn : Bytes) (a : FieldObj) (b : FieldSet) : Prop :=
  a.key = b.key ∧ a.idx = b.idx ∧ ∃ d f, fs[b.idx]? = some f ∧ isIgnored f = false ∧ (structTag W f).key = b.key ∧ f.ty = b.ty ∧ Made W S d b.ty ⟨sn, f.name⟩ ∧
    if b.str then wrapDec ⟨sn, f.name⟩ d = .ok a.dec else a.dec = d

def FieldsMade (W : World) (S : List (Ty × Names)) (fs : List Field) (sn : Bytes) : List FieldObj → List FieldSet → Prop
  | [], [] => True
  | a :: as, b :: bs => FieldMade W S fs sn a b ∧ FieldsMade W S fs sn as bs
  | _, _ => False

theorem FieldsMade.mono {W : World} {S : List (Ty × Names)} {fs : List Field} {sn : Bytes} (S' : List (Ty × Names)) :
    ∀ {as : List FieldObj} {bs : List FieldSet}, FieldsMade W S fs sn as bs → FieldsMade W (S ++ S') fs sn as bs
  | [], [], _ => trivial
  | [], _ :: _, h => h.elim
  | _ :: _, [], h => h.elim
  | _ :: _, _ :: _, ⟨⟨h1, h2, d, f, h3, h4, h5, h6, h7, h8⟩, h⟩ => ⟨⟨h1, h2, d, f, h3, h4, h5, h6, h7.mono S', h8⟩, h.mono S'⟩

/-- The object is that of the struct type `t`. -/
def CellMade (W : World) (S : List (Ty × Names)) (fm : StructObj) (t : Ty) : Prop :=
  ∃ id, Plain W t (.struct id) ∧ FieldsMade W S (W.fields id) (W.typeName t) fm.fields (fieldSets W 0 (W.fields id))

/-- All struct decoders are finished. -/
def AllMade (W : World) (S : List (Ty × Names)) (H : List StructObj) : Prop :=
  H.length = S.length ∧ ∀ (a : Nat) fm t n, H[a]? = some fm → S[a]? = some (t, n) → fm.names = n ∧ CellMade W S fm t

/-! ### Running -/

theorem find_made {W : World} {S : List (Ty × Names)} {fs : List Field} {sn key : Bytes} :
    ∀ {as : List FieldObj} {bs : List FieldSet}, FieldsMade W S fs sn as bs →
    (as.find? (fun s => decide (s.key = key)) = none ∧ bs.find? (fun s => decide (s.key = key)) = none) ∨
    ∃ a b, as.find? (fun s => decide (s.key = key)) = some a ∧ bs.find? (fun s => decide (s.key = key)) = some b ∧ FieldMade W S fs sn a b
  | [], [], _ => .inl ⟨rfl, rfl⟩
  | [], _ :: _, h => h.elim
  | _ :: _, [], h => h.elim
  | a :: as, b :: bs, ⟨h1, h⟩ => by
    by_cases hk : b.key = key
    · exact .inr ⟨a, b, by simp [List.find?, h1.1, hk], by simp [List.find?, hk], h1⟩
    · simp only [List.find?, h1.1, hk, decide_false]
      exact find_made h

theorem runFields_alike {W : World} {S : List (Ty × Names)} {fs : List Field} {sn : Bytes} {fm : StructObj} {sets : List FieldSet}
    (hm : FieldsMade W S fs sn fm.fields sets) {dec : Dec → Nat → Val → DR} {dec' : FieldSet → Nat → Val → DR}
    (hd : ∀ a b, FieldMade W S fs sn a b → ∀ c v, SameRun (dec a.dec c v) (dec' b c v))
    {skip : Nat → Res Nat} {buf : Bytes} (f : Nat) : ∀ c vs, SameRun (runFields fm dec skip buf f c vs) (structLoop sets dec' skip buf f c vs) := by
  induction f with
  | zero => intro c vs; exact SameRun.refl _
  | succ f ih =>
    intro c vs
    unfold runFields structLoop
    refine ite_alike (SameRun.refl _) ?_
    unfold findField decodeKey
    cases stringBytes buf c with
    | err e =>
      refine ⟨rfl, ?_⟩
      simp only [Res.mapErr, Res.bind_err, onOk, plain_blame]
    | panic e => exact SameRun.refl _
    | diverge => exact SameRun.refl _
    | ok p =>
      obtain ⟨ob, e⟩ := p
      simp only [Res.mapErr_ok, Res.bind_ok, onOk]
      refine ite_alike (SameRun.refl _) ?_
      have key : ∀ (vs : List Val) (r r' : Res Nat), AlikeR r r' → SameRun
          (onOk (.struct vs) r fun c =>
            if !hasByte buf c then (.struct vs, .err (.unexpectedEnd "object" c)) else
            onOk (.struct vs) (idx buf c) fun b =>
            if b = cRBrace then (.struct vs, .ok (c + 1)) else
            runFields fm dec skip buf f c vs)
          (onOk (.struct vs) r' fun c =>
            if !hasByte buf c then (.struct vs, .err (.unexpectedEnd "object" c)) else
            onOk (.struct vs) (idx buf c) fun b =>
            if b = cRBrace then (.struct vs, .ok (c + 1)) else
            structLoop sets dec' skip buf f c vs) := by
        intro vs r r' hr
        exact onOk_alike hr fun c2 => ite_alike (SameRun.refl _) (onOk_same fun b => ite_alike (SameRun.refl _) (ih _ _))
      rcases find_made (key := ob.getD []) hm with ⟨h1, h2⟩ | ⟨a, b, h1, h2, h3⟩
      · rw [h1, h2]
        exact key vs _ _ (.refl _)
      · rw [h1, h2]
        dsimp only
        rw [h3.2.1]
        cases vs[b.idx]? with
        | none => exact SameRun.refl _
        | some v0 =>
          dsimp only
          rw [(hd a b h3 e v0).1]
          exact key _ _ _ (hd a b h3 e v0).2

theorem runStruct_alike {W : World} {S : List (Ty × Names)} {fs : List Field} {sn : Bytes} {fm : StructObj} {sets : List FieldSet}
    (hm : FieldsMade W S fs sn fm.fields sets) {dec : Dec → Nat → Nat → Val → DR} {dec' : FieldSet → Nat → Nat → Val → DR}
    (hd : ∀ a b, FieldMade W S fs sn a b → ∀ c d v, SameRun (dec a.dec c d v) (dec' b c d v)) {buf : Bytes} :
    ∀ c depth rv, SameRun (runStruct fm dec buf c depth rv) (structDecode sets dec' buf c depth rv) := by
  intro c depth rv
  unfold runStruct structDecode
  dsimp only
  refine ite_alike (SameRun.refl _) (ite_alike (SameRun.refl _) (onOk_same fun b => ite_alike (SameRun.refl _) (onOk_same fun c1 => ?_)))
  refine ite_alike (SameRun.refl _) (onOk_same fun b => ite_alike (SameRun.refl _) (onOk_same fun c2 => ?_))
  refine ite_alike (SameRun.refl _) (onOk_same fun b => ite_alike (SameRun.refl _) (ite_alike (SameRun.refl _) (onOk_same fun b => ite_alike (SameRun.refl _) ?_)))
  cases rv with
  | struct vs => exact runFields_alike hm (fun a b h c v => hd a b h c _ v) _ _ _
  | _ => exact SameRun.refl _

/-- Decoders that the `,string` option can wrap as they are. -/
def Wraps (d : Dec) : Prop := ∀ n, wrapDec n d = .ok (.wrapped d n)

theorem runString_alike {W : World} {S : List (Ty × Names)} {d : Dec} {t : Ty} {n : Names} (h : Made W S d t n) (hw : Wraps d) (s : Bytes) (c : Nat) (rv : Val) :
    SameRun (runString W d s c rv) (decodeString W t s c rv) := by
  have hw := hw n
  cases h with
  | bool h =>
    simp only [runString, decodeString, h.2]
    cases parseBool s <;> exact SameRun.refl _
  | f32 h | f64 h => simp only [runString, decodeString, h.2]; exact SameRun.refl _
  | int h | uint h => simp only [runString, decodeString, h.2]; exact alike_blamed _ _ (SameRun.refl _)
  | ptr h1 h2 h3 =>
    simp only [wrapDec] at hw
    obtain ⟨x, -, hx⟩ := Res.bind_eq_ok.1 hw
    cases hx
  | _ => simp [wrapDec] at hw

theorem runWrapped_alike {W : World} {S : List (Ty × Names)} {d : Dec} {t : Ty} {n n' : Names} (h : Made W S d t n) (hw : Wraps d) :
    ∀ buf c rv, SameRun (runWrapped W d n' buf c rv) (wrappedDecode W t buf c rv) := by
  intro buf c rv
  unfold runWrapped wrappedDecode
  refine onOk_alike (alikeR_mapErr (plain_blame _ _) _) ?_
  rintro ⟨ob, e⟩
  cases ob with
  | none => exact SameRun.refl _
  | some s =>
    dsimp only
    rw [(runString_alike h hw s c rv).1]
    exact onOk_alike (runString_alike h hw s c rv).2 fun _ => SameRun.refl _

/-- What wrapping gives. -/
theorem wrapDec_cases {W : World} {S : List (Ty × Names)} {d d' : Dec} {t : Ty} {n : Names} (h : Made W S d t n) (hw : wrapDec n d = .ok d') :
    (d' = .wrapped d n ∧ Wraps d ∧ wrappable W t = true ∧ W.isPtr t = false) ∨
    ∃ e i, Plain W t (.ptr e) ∧ d = .ptr i e n ∧ d' = .ptr (.wrapped i n) e n ∧ Made W S i e n ∧ Wraps i ∧ wrappable W e = true := by
  cases h with
  | ptr h1 h2 h3 =>
    rename_i e i
    refine .inr ⟨e, i, h1, rfl, ?_⟩
    simp only [wrapDec] at hw
    cases h3 with
    | ptr h => simp [World.isPtr, h.2] at h2
    | bool h | int h | uint h | f32 h | f64 h =>
      simp only [wrapDec, Res.bind_ok, Res.ok.injEq] at hw
      exact ⟨hw.symm, by constructor; assumption, fun _ => rfl, by simp [wrappable, h.1, h.2]⟩
    | _ => simp [wrapDec] at hw
  | bool h | int h | uint h | f32 h | f64 h =>
    simp only [wrapDec, Res.ok.injEq] at hw
    exact .inl ⟨hw.symm, fun _ => rfl, by simp [wrappable, h.1, h.2], by simp [World.isPtr, h.2]⟩
  | _ => simp [wrapDec] at hw

theorem runField_alike {W : World} {S : List (Ty × Names)} {fs : List Field} {sn : Bytes} {a : FieldObj} {b : FieldSet} (h : FieldMade W S fs sn a b)
    {rec : Dec → Nat → Nat → Val → DR} {rec' : Ty → Nat → Nat → Val → DR}
    (hr : ∀ d t n, Made W S d t n → ∀ c depth v, SameRun (rec d c depth v) (rec' t c depth v)) {buf : Bytes} :
    ∀ c depth v, SameRun (runField W rec buf a.dec c depth v) (fieldDecode W rec' buf b c depth v) := by
  obtain ⟨h1, h2, d, f, -, -, -, -, h3, h4⟩ := h
  intro c depth rv
  unfold fieldDecode
  split at h4
  · rename_i hs
    rw [if_pos hs]
    rcases wrapDec_cases h3 h4 with ⟨e, hw, hwr, hp⟩ | ⟨e, i, hp, -, e2, hi, hw, hwr⟩
    · rw [e]
      simp only [runField]
      unfold World.isPtr at hp
      split
      · rename_i e he
        simp [he] at hp
      · rw [if_pos hwr]
        exact runWrapped_alike h3 hw _ _ _
    · rw [e2]
      simp only [runField, hp.2, if_pos hwr]
      exact ptrDecode_alike (fun c _ v => runWrapped_alike hi hw buf c v) _ _ _
  · rename_i hs
    rw [if_neg hs, h4]
    have := hr d _ _ h3 c depth rv
    cases h3 with
    | ptr _ _ h5 => cases h5 <;> exact this
    | _ => exact this

theorem runKey_alike {W : World} {anyDec : Names → Nat → Nat → DR} {anyDec' : Nat → Nat → DR} (ha : ∀ n c d, SameRun (anyDec n c d) (anyDec' c d)) {buf : Bytes}
    {k : Ty} {n : Names} (c depth : Nat) :
    SameRun (runKey W anyDec buf k (keyObj W k n) c depth) (keyDecode W anyDec' buf k c depth) := by
  unfold keyObj keyDecode
  cases hu : W.unmOf k with
  | some id => exact runUnm_alike _ _ _
  | none =>
    dsimp only
    have inv : ∀ {t : Ty} {rv : Val}, SameRun (blamed n t (invalidDecode c rv)) (invalidDecode c rv) := alike_blamed _ _ (SameRun.refl _)
    cases hr : W.resolve k with
    | ptr e =>
      have hp : W.isPtr k = true := by simp [World.isPtr, hr]
      dsimp only
      cases hu' : W.unmOf e with
      | some id => exact inv
      | none =>
        dsimp only
        cases hr' : W.resolve e with
        | str => simp only [runKey, hp, if_true]; exact ptrKeyDecode_alike (runStr_alike _ _) _
        | bool => simp only [runKey, hp, if_true]; exact SameRun.refl _
        | int i => simp only [runKey, hp, if_true]; exact ptrKeyDecode_alike (runInt_alike _ _) _
        | uint i => simp only [runKey, hp, if_true]; exact ptrKeyDecode_alike (runUint_alike _ _) _
        | any | iface _ => simp only [runKey, hp, if_true]; exact ptrKeyDecode_alike (runAny_alike (ha n) _ _ _) _
        | _ => exact inv
    | str => simp only [runKey, World.isPtr, hr]; exact runStr_alike _ _
    | bool => simp only [runKey, World.isPtr, hr]; exact SameRun.refl _
    | int i => simp only [runKey, World.isPtr, hr]; exact runInt_alike _ _
    | uint i => simp only [runKey, World.isPtr, hr]; exact runUint_alike _ _
    | any => simp only [runKey, World.isPtr, hr]; exact runAny_alike (ha n) _ _ _
    | iface i => simp only [runKey, World.isPtr, hr]; exact runIface_alike _ _ _
    | _ => exact inv

theorem run_alike {W : World} {S : List (Ty × Names)} {H : List StructObj} (hH : AllMade W S H) (buf : Bytes) :
    ∀ f d t n, Made W S d t n → ∀ c depth v, SameRun (runDec W H buf f d c depth v) (decodeF W buf f t c depth v) := by
  have nonptr : ∀ f, (∀ d t n, Made W S d t n → ∀ c depth v, SameRun (runDec W H buf f d c depth v) (decodeF W buf f t c depth v)) →
      ∀ d t n, Made W S d t n → W.isPtr t = false ∨ W.unmOf t ≠ none →
      ∀ c depth v, SameRun (runNonPtr W H (runDec W H buf f) buf d c depth v) (decodeNonPtr W (decodeF W buf f) buf t c depth v) := by
    intro f ih d t n h hp c depth rv
    have hany : ∀ n c d, SameRun (runDec W H buf f (.iface .any n) c d .ifaceNil) (decodeF W buf f .any c d .ifaceNil) :=
      fun n c d => ih _ .any n (.any ⟨rfl, rfl⟩) _ _ _
    unfold runNonPtr decodeNonPtr
    dsimp only
    cases h with
    | unm h => rw [h]; exact runUnm_alike _ _ _
    | bool h | f32 h | f64 h => simp only [h.1, h.2]; exact SameRun.refl _
    | int h => simp only [h.1, h.2]; exact runInt_alike _ _
    | uint h => simp only [h.1, h.2]; exact runUint_alike _ _
    | str h => simp only [h.1, h.2]; exact runStr_alike _ _
    | invalid h => simp only [h.1, h.2]; exact alike_blamed _ _ (SameRun.refl _)
    | any h => simp only [h.1, h.2]; exact runAny_alike (hany n) _ _ _
    | iface h => simp only [h.1, h.2]; exact runIface_alike _ _ _
    | bytes h1 h2 h3 => simp only [h1.1, h1.2, h2, if_true]; exact runBytes_alike (ih _ _ _ h3) _ _ _
    | slice h1 h2 h3 =>
      simp only [h1.1, h1.2, h2, Bool.false_eq_true, if_false]
      exact alike_blamed _ _ (sliceDecode_alike (ih _ _ _ h3) _ _ _)
    | array h1 h2 => simp only [h1.1, h1.2]; exact arrayDecode_alike (ih _ _ _ h2) _ _ _
    | map h1 h2 =>
      simp only [h1.1, h1.2]
      exact mapDecode_alike (fun c d => runKey_alike hany c d) (fun c d => ih _ _ _ h2 _ _ _) _ _ _
    | ptr h1 =>
      rcases hp with hp | hp
      · simp [World.isPtr, h1.2] at hp
      · exact absurd h1.1 hp
    | struct h1 h2 h3 =>
      rename_i n0 id a
      have ha := (List.getElem?_eq_some_iff.1 h2).1
      have ha' : a < H.length := by rw [hH.1]; exact ha
      have hc : H[a]? = some H[a] := List.getElem?_eq_getElem ha'
      obtain ⟨-, id', hp', hf⟩ := hH.2 a _ t n0 hc h2
      have : id' = id := by have := hp'.2.symm.trans h1.2; simpa using this
      subst this
      simp only [h1.1, h1.2, hc]
      exact runStruct_alike hf (fun a b h => runField_alike h ih) c depth rv
  intro f
  induction f with
  | zero => intro d t n _ c depth v; exact SameRun.refl _
  | succ f ih =>
    intro d t n h c depth rv
    cases h with
    | ptr h1 h2 h3 =>
      simp only [runDec, decodeF, h1.1, h1.2, h2, Bool.false_eq_true, if_false]
      exact ptrDecode_alike (nonptr f ih _ _ _ h3 (.inl h2)) _ _ _
    | iface h =>
      have hp : W.isPtr t = false := by simp [World.isPtr, h.2]
      rw [decodeF_succ (.inr hp)]
      exact nonptr f ih _ _ _ (.iface h) (.inl hp) _ _ _
    | unm h =>
      rw [decodeF_succ (.inl (by rw [h]; simp))]
      exact nonptr f ih _ _ _ (.unm h) (.inr (by rw [h]; simp)) _ _ _
    | bool h | int h | uint h | f32 h | f64 h | str h | bytes h | slice h | array h | map h | any h | struct h | invalid h =>
      have hp : W.isPtr t = false := by simp [World.isPtr, h.2]
      rw [decodeF_succ (.inr hp)]
      exact nonptr f ih _ _ _ (by constructor <;> assumption) (.inl hp) _ _ _

end Verif

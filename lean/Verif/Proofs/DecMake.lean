import Verif.Proofs.DecObj
/-
Making decoder objects: it ends as `compileD` says, and what it makes was made for the type.
-/
namespace Verif
open Spec

/-- The memory of decoders while some structs are being worked on. -/
structure MemOk (W : World) (S : List (Ty × Names)) (m : DecMem) : Prop where
  len : m.heap.length = S.length
  done : ∀ (a : Nat) fm t n, m.heap[a]? = some fm → S[a]? = some (t, n) → (∀ p ∈ m.busy, p.2 ≠ a) → fm.names = n ∧ CellMade W S fm t
  busy : ∀ p ∈ m.busy, (∃ n, S[p.2]? = some (p.1, n)) ∧ ∃ id, Plain W p.1 (.struct id)

/-- The structs being worked on contain the type. -/
def Below (W : World) (busy : List (Ty × Nat)) (t : Ty) : Prop := ∀ p ∈ busy, ∃ u, Component W p.1 u ∧ Reach W u t

theorem Below.step {W : World} {busy : List (Ty × Nat)} {t u : Ty} (h : Below W busy t) (hc : Component W t u) : Below W busy u :=
  fun p hp => let ⟨x, h1, h2⟩ := h p hp; ⟨x, h1, .step h2 hc⟩

/-- One step of compilation and what the type-directed check says. -/
def Steady {α : Type} (W : World) (S : List (Ty × Names)) (m : DecMem) (P : List (Ty × Names) → α → Prop) (r : Res (α × DecMem)) (r' : Res Unit) : Prop :=
  match r with
  | .ok (x, m') => r' = .ok () ∧ m'.busy = m.busy ∧ ∃ S', MemOk W (S ++ S') m' ∧ P (S ++ S') x
  | .err e => r' = .err e
  | .panic p => r' = .panic p
  | .diverge => r' = .diverge

theorem Steady.pure {α : Type} {W : World} {S : List (Ty × Names)} {m : DecMem} {P : List (Ty × Names) → α → Prop} {x : α} (hm : MemOk W S m) (h : P S x) :
    Steady W S m P (.ok (x, m)) (.ok ()) :=
  ⟨rfl, rfl, [], by rw [List.append_nil]; exact ⟨hm, h⟩⟩

theorem Steady.bind {α β : Type} {W : World} {S : List (Ty × Names)} {m : DecMem} {P : List (Ty × Names) → α → Prop} {Q : List (Ty × Names) → β → Prop}
    {r : Res (α × DecMem)} {r' : Res Unit} {k : α × DecMem → Res (β × DecMem)} {k' : Unit → Res Unit} (h : Steady W S m P r r')
    (hk : ∀ S' x m', MemOk W (S ++ S') m' → m'.busy = m.busy → P (S ++ S') x → Steady W (S ++ S') m' Q (k (x, m')) (k' ())) :
    Steady W S m Q (r >>= k) (r' >>= k') := by
  cases r with
  | ok p =>
    obtain ⟨x, m'⟩ := p
    obtain ⟨e, hb, S', h1, h2⟩ := h
    have := hk S' x m' h1 hb h2
    subst e
    simp only [Res.bind_ok]
    cases hkx : k (x, m') with
    | ok q =>
      rw [hkx] at this
      obtain ⟨e, hb', S2, h3, h4⟩ := this
      exact ⟨e, hb'.trans hb, S' ++ S2, by rw [← List.append_assoc]; exact ⟨h3, h4⟩⟩
    | err e => rw [hkx] at this; exact this
    | panic e => rw [hkx] at this; exact this
    | diverge => rw [hkx] at this; exact this
  | err e => have : r' = _ := h; subst this; exact rfl
  | panic e => have : r' = _ := h; subst this; exact rfl
  | diverge => have : r' = _ := h; subst this; exact rfl

theorem Steady.congr {α : Type} {W : World} {S : List (Ty × Names)} {m : DecMem} {P Q : List (Ty × Names) → α → Prop} {r : Res (α × DecMem)} {r' : Res Unit}
    (h : Steady W S m P r r') (hp : ∀ S x, P S x → Q S x) : Steady W S m Q r r' := by
  cases r with
  | ok p => obtain ⟨e, hb, S', h1, h2⟩ := h; exact ⟨e, hb, S', h1, hp _ _ h2⟩
  | err e => exact h
  | panic e => exact h
  | diverge => exact h

theorem wrapDec_iff {W : World} {S : List (Ty × Names)} {d : Dec} {t : Ty} {n n' : Names} (h : Made W S d t n) :
    (canWrap W t = true ∧ ∃ d', wrapDec n' d = .ok d') ∨ (canWrap W t = false ∧ wrapDec n' d = .err (.unsupported "string option")) := by
  cases h with
  | ptr h1 h2 h3 =>
    simp only [canWrap, h1.1, h1.2, wrapDec]
    cases h3 with
    | ptr h => simp [World.isPtr, h.2] at h2
    | unm h => right; simp [wrappable, h, wrapDec]
    | bool h | int h | uint h | f32 h | f64 h => left; simp [wrappable, h.1, h.2, wrapDec]
    | str h | bytes h | slice h | array h | map h | any h | iface h | struct h | invalid h => right; simp [wrappable, h.1, h.2, wrapDec]
  | unm h => right; simp [canWrap, wrappable, h, wrapDec]
  | bool h | int h | uint h | f32 h | f64 h => left; simp [canWrap, wrappable, h.1, h.2, wrapDec]
  | str h | bytes h | slice h | array h | map h | any h | iface h | struct h | invalid h => right; simp [canWrap, wrappable, h.1, h.2, wrapDec]

theorem stripKey_made {W : World} {S : List (Ty × Names)} {d : Dec} {t : Ty} {n : Names} (h : Made W S d t n) (hu : W.unmOf t = none) : stripKey t n d = keyObj W t n := by
  cases h with
  | ptr h1 h2 h3 =>
    simp only [keyObj, h1.1, h1.2, stripKey]
    cases h3 with
    | ptr h => simp [World.isPtr, h.2] at h2
    | unm h => simp [h, stripKey]
    | bool h | int h | uint h | f32 h | f64 h | str h | bytes h | slice h | array h | map h | any h | iface h | struct h | invalid h =>
      simp [h.1, h.2, stripKey]
  | unm h => rw [hu] at h; cases h
  | bool h | int h | uint h | f32 h | f64 h | str h | bytes h | slice h | array h | map h | any h | iface h | struct h | invalid h =>
    simp [keyObj, h.1, h.2, stripKey]

theorem lookup_contains {t : Ty} : ∀ (l : List (Ty × Nat)), (l.map (·.1)).contains t = (l.lookup t).isSome
  | [] => rfl
  | (u, a) :: l => by
    simp only [List.map_cons, List.contains_cons, List.lookup_cons]
    by_cases h : t == u
    · simp [h]
    · have : (t == u) = false := by simpa using h
      simp [this, ← lookup_contains l]

theorem lookup_mem {t : Ty} {a : Nat} : ∀ {l : List (Ty × Nat)}, l.lookup t = some a → (t, a) ∈ l
  | [], h => by cases h
  | (u, b) :: l, h => by
    simp only [List.lookup_cons] at h
    split at h
    · rename_i hu
      cases h
      have : t = u := by simpa using hu
      subst this
      exact List.mem_cons_self
    · exact List.mem_cons_of_mem _ (lookup_mem h)

theorem lookup_none {t : Ty} : ∀ {l : List (Ty × Nat)}, l.lookup t = none → ∀ p ∈ l, p.1 ≠ t
  | [], _ => by simp
  | (u, b) :: l, h => by
    simp only [List.lookup_cons] at h
    split at h
    · cases h
    · rename_i hu
      intro p hp
      rcases List.mem_cons.1 hp with rfl | hp
      · intro e
        subst e
        simp at hu
      · exact lookup_none h p hp

theorem keys_made {W : World} {S : List (Ty × Names)} {fs : List Field} {sn : Bytes} : ∀ {as : List FieldObj} {bs : List FieldSet}, FieldsMade W S fs sn as bs →
    as.map (·.key) = bs.map (·.key)
  | [], [], _ => rfl
  | [], _ :: _, h => h.elim
  | _ :: _, [], h => h.elim
  | _ :: _, _ :: _, ⟨h1, h⟩ => by rw [List.map_cons, List.map_cons, h1.1, keys_made h]

theorem makeFields_steady {W : World} {sn : Bytes} {fs0 : List Field} {rec : Names → DecMem → Ty → Res (Dec × DecMem)} {rec' : Ty → Res Unit} {busy : List (Ty × Nat)}
    (hr : ∀ S m n f, f ∈ fs0 → MemOk W S m → m.busy = busy → Steady W S m (fun S d => Made W S d f.ty n) (rec n m f.ty) (rec' f.ty)) :
    ∀ (fs : List Field) i S m, fs0.drop i = fs → MemOk W S m → m.busy = busy →
      Steady W S m (fun S sets => FieldsMade W S fs0 sn sets (fieldSets W i fs)) (makeFields W sn rec i m fs) (compileDFields W rec' fs)
  | [], i, S, m, _, hm, hb => by
    simp only [makeFields, compileDFields]
    exact Steady.pure hm trivial
  | f :: fs, i, S, m, hd0, hm, hb => by
    have hget : fs0[i]? = some f := by
      have := congrArg (·[0]?) hd0
      simpa using this
    have hdrop : fs0.drop (i + 1) = fs := by
      have := congrArg List.tail hd0
      simpa [List.tail_drop] using this
    simp only [makeFields, compileDFields, fieldSets]
    by_cases hi : isIgnored f = true
    · rw [if_pos hi, if_pos hi, if_pos hi]
      exact makeFields_steady hr fs (i + 1) S m hdrop hm hb
    rw [if_neg hi, if_neg hi, if_neg hi]
    by_cases he : embedded W f = true
    · rw [if_pos he, if_pos he]
      exact rfl
    rw [if_neg he, if_neg he]
    refine (hr S m ⟨sn, f.name⟩ f (List.mem_of_getElem? hget) hm hb).bind fun S1 d m1 hm1 hb1 hd => ?_
    dsimp only
    by_cases hs : ((structTag W f).isString && stringTagOk W f.ty) = true
    · rcases wrapDec_iff hd with ⟨h1, d', h2⟩ | ⟨h1, h2⟩
      · rw [if_pos hs, h2, Res.bind_ok, if_neg (by simp [h1])]
        have := makeFields_steady (sn := sn) hr fs (i + 1) (S ++ S1) m1 hdrop hm1 (hb1.trans hb)
        have h3 := this.bind (Q := fun S sets => FieldsMade W S fs0 sn sets
          ({ key := (structTag W f).key, idx := i, ty := f.ty, str := (structTag W f).isString && stringTagOk W f.ty } :: fieldSets W (i + 1) fs))
          (k := fun p => .ok ({ key := (structTag W f).key, idx := i, dec := d' } :: p.1, p.2)) (k' := fun _ => .ok ())
          fun S2 sets m2 hm2 hb2 hf => Steady.pure hm2 ⟨⟨rfl, rfl, d, f, hget, by simpa using hi, rfl, rfl, hd.mono _, by rw [if_pos hs]; exact h2⟩, hf⟩
        have e : (compileDFields W rec' fs >>= fun _ => Res.ok ()) = compileDFields W rec' fs := by
          cases compileDFields W rec' fs <;> rfl
        rw [e] at h3
        exact h3
      · rw [if_pos hs, h2, if_pos (by rw [hs, h1]; rfl)]
        exact rfl
    · rw [if_neg hs, Res.bind_ok, if_neg (by intro h; rw [Bool.and_eq_true] at h; exact hs h.1)]
      have := makeFields_steady (sn := sn) hr fs (i + 1) (S ++ S1) m1 hdrop hm1 (hb1.trans hb)
      have h3 := this.bind (Q := fun S sets => FieldsMade W S fs0 sn sets
        ({ key := (structTag W f).key, idx := i, ty := f.ty, str := (structTag W f).isString && stringTagOk W f.ty } :: fieldSets W (i + 1) fs))
        (k := fun p => .ok ({ key := (structTag W f).key, idx := i, dec := d } :: p.1, p.2)) (k' := fun _ => .ok ())
        fun S2 sets m2 hm2 hb2 hf => Steady.pure hm2 ⟨⟨rfl, rfl, d, f, hget, by simpa using hi, rfl, rfl, hd.mono _, by rw [if_neg hs]⟩, hf⟩
      have e : (compileDFields W rec' fs >>= fun _ => Res.ok ()) = compileDFields W rec' fs := by
        cases compileDFields W rec' fs <;> rfl
      rw [e] at h3
      exact h3

theorem bind_unit {r : Res Unit} : (r >>= fun _ => Res.ok ()) = r := by cases r <;> rfl

theorem makeDec_steady {W : World} (hW : W.NamedOk) : ∀ f S n m t, MemOk W S m → Below W m.busy t →
    Steady W S m (fun S d => Made W S d t n) (makeDec W f n m t) (compileD W f (m.busy.map (·.1)) t) := by
  intro f
  induction f with
  | zero => intro S n m t _ _; exact rfl
  | succ f ih =>
    intro S n m t hm hB
    -- one nested call
    have one : ∀ (e : Ty) (g : Dec → Dec), Component W t e → (∀ S d, Made W S d e n → Made W S (g d) t n) →
        Steady W S m (fun S d => Made W S d t n) (makeDec W f n m e >>= fun (d, m) => .ok (g d, m)) (compileD W f (m.busy.map (·.1)) e) := by
      intro e g hc hg
      have := (ih S n m e hm (hB.step hc)).bind (Q := fun S d => Made W S d t n) (k := fun (d, m) => .ok (g d, m)) (k' := fun _ => .ok ())
        fun S1 d m1 hm1 _ hd => Steady.pure hm1 (hg _ _ hd)
      rw [bind_unit] at this
      exact this
    unfold makeDec compileD
    cases hu : W.unmOf t with
    | some id => exact Steady.pure hm (.unm hu)
    | none =>
      cases hr : W.resolve t with
      | bool => exact Steady.pure hm (.bool ⟨hu, hr⟩)
      | int k => exact Steady.pure hm (.int ⟨hu, hr⟩)
      | uint k => exact Steady.pure hm (.uint ⟨hu, hr⟩)
      | f32 => exact Steady.pure hm (.f32 ⟨hu, hr⟩)
      | f64 => exact Steady.pure hm (.f64 ⟨hu, hr⟩)
      | str => exact Steady.pure hm (.str ⟨hu, hr⟩)
      | any => exact Steady.pure hm (.any ⟨hu, hr⟩)
      | iface i => exact Steady.pure hm (.iface ⟨hu, hr⟩)
      | other => exact Steady.pure hm (.invalid ⟨hu, hr⟩)
      | named i =>
        exfalso
        unfold World.resolve at hr
        split at hr
        · exact hW _ _ hr
        · rename_i h; exact h _ hr
      | slice e =>
        dsimp only
        by_cases hb : W.isByte e = true
        · rw [if_pos hb, if_pos hb]
          have he : W.resolve e = .uint .u8 := by simpa [World.isByte] using hb
          refine Steady.pure hm (.bytes ⟨hu, hr⟩ hb ?_)
          cases hue : W.unmOf e with
          | some id => exact .unm hue
          | none => exact .uint ⟨hue, he⟩
        · rw [if_neg hb, if_neg hb]
          exact one e (fun d => .slice d e n) (.slice ⟨hu, hr⟩) fun S d h => .slice ⟨hu, hr⟩ (by simpa using hb) h
      | array l e => exact one e (fun d => .array d l e n) (.array ⟨hu, hr⟩) fun S d h => .array ⟨hu, hr⟩ h
      | ptr e =>
        refine (ih S n m e hm (hB.step (.ptr ⟨hu, hr⟩))).bind fun S1 d m1 hm1 _ hd => ?_
        dsimp only
        by_cases hp : W.isPtr e = true
        · rw [if_pos hp, if_pos hp]
          exact rfl
        · rw [if_neg hp, if_neg hp]
          exact Steady.pure hm1 (.ptr ⟨hu, hr⟩ (by simpa using hp) hd)
      | map k v =>
        have key : Steady W S m (fun _ d => d = keyObj W k n)
            (match W.unmOf k, W.resolve k with
              | some id, _ => .ok (.unm id n, m)
              | none, .str => .ok (.str n, m)
              | none, _ => makeDec W f n m k >>= fun (d, m) => .ok (stripKey k n d, m))
            (match W.unmOf k, W.resolve k with
              | some _, _ => .ok ()
              | none, .str => .ok ()
              | none, _ => compileD W f (m.busy.map (·.1)) k) := by
          have gen : W.unmOf k = none → Steady W S m (fun _ d => d = keyObj W k n) (makeDec W f n m k >>= fun (d, m) => .ok (stripKey k n d, m))
              (compileD W f (m.busy.map (·.1)) k) := by
            intro huk
            have := (ih S n m k hm (hB.step (.mapKey ⟨hu, hr⟩))).bind (Q := fun _ d => d = keyObj W k n) (k := fun (d, m) => .ok (stripKey k n d, m)) (k' := fun _ => .ok ())
              fun S1 d m1 hm1 _ hd => Steady.pure hm1 (stripKey_made hd huk)
            rw [bind_unit] at this
            exact this
          cases huk : W.unmOf k with
          | some id => exact Steady.pure hm (by simp [keyObj, huk])
          | none =>
            cases hrk : W.resolve k with
            | str => exact Steady.pure hm (by simp [keyObj, huk, hrk])
            | _ => exact gen huk
        refine key.bind fun S1 kd m1 hm1 hb1 hkd => ?_
        dsimp only
        rw [← hb1, hkd]
        have := (ih (S ++ S1) n m1 v hm1 (by rw [hb1]; exact hB.step (.mapVal ⟨hu, hr⟩))).bind (Q := fun S d => Made W S d t n) (k := fun (d, m) => .ok (.map k (keyObj W k n) v d n, m)) (k' := fun _ => .ok ())
          fun S2 d m2 hm2 _ hd => Steady.pure hm2 (.map ⟨hu, hr⟩ hd)
        rw [bind_unit] at this
        exact this
      | struct id =>
        dsimp only
        rw [lookup_contains]
        cases hl : m.busy.lookup t with
        | some a =>
          obtain ⟨n0, hn0⟩ := (hm.busy _ (lookup_mem hl)).1
          exact Steady.pure hm (.struct ⟨hu, hr⟩ hn0 (.inr (hB _ (lookup_mem hl))))
        | none =>
          simp only [Option.isSome_none, Bool.false_eq_true, if_false]
          have hS : (S ++ [(t, n)])[m.heap.length]? = some (t, n) := by rw [hm.len]; simp
          have hm0 : MemOk W (S ++ [(t, n)]) { heap := m.heap ++ [⟨n, []⟩], busy := (t, m.heap.length) :: m.busy } := by
            refine ⟨by simp [hm.len], ?_, ?_⟩
            · intro a fm u n1 h1 h2 h3
              have ha : a ≠ m.heap.length := fun e => h3 _ List.mem_cons_self e.symm
              have hlt : a < m.heap.length := by
                have := (List.getElem?_eq_some_iff.1 h1).1
                simp at this
                omega
              dsimp only at h1
              rw [List.getElem?_append_left hlt] at h1
              rw [List.getElem?_append_left (by rw [← hm.len]; exact hlt)] at h2
              obtain ⟨h6, id', h4, h5⟩ := hm.done a fm u n1 h1 h2 fun p hp => h3 p (List.mem_cons_of_mem _ hp)
              exact ⟨h6, id', h4, h5.mono _⟩
            · intro p hp
              rcases List.mem_cons.1 hp with rfl | hp
              · exact ⟨⟨n, hS⟩, id, hu, hr⟩
              · obtain ⟨⟨n1, h1⟩, h2⟩ := hm.busy p hp
                exact ⟨⟨n1, by rw [List.getElem?_append_left (List.getElem?_eq_some_iff.1 h1).1]; exact h1⟩, h2⟩
          have hf := makeFields_steady (sn := W.typeName t) (fs0 := W.fields id) (rec := makeDec W f) (rec' := compileD W f (t :: m.busy.map (·.1))) (busy := (t, m.heap.length) :: m.busy)
            (fun S m' n' g hg h1 h2 => by
              have := ih S n' m' g.ty h1 (by
                rw [h2]
                intro p hp
                rcases List.mem_cons.1 hp with rfl | hp
                · exact ⟨g.ty, .field ⟨hu, hr⟩ hg, .refl⟩
                · exact hB.step (.field ⟨hu, hr⟩ hg) p hp)
              rw [h2] at this; exact this) (W.fields id) 0 _ _ rfl hm0 rfl
          generalize hF : makeFields W (W.typeName t) (makeDec W f) 0 { heap := m.heap ++ [⟨n, []⟩], busy := (t, m.heap.length) :: m.busy } (W.fields id) = F at hf
          generalize hG : compileDFields W (compileD W f (t :: m.busy.map (·.1))) (W.fields id) = G at hf
          cases F with
          | err e => have : G = _ := hf; subst this; exact rfl
          | panic e => have : G = _ := hf; subst this; exact rfl
          | diverge => have : G = _ := hf; subst this; exact rfl
          | ok q =>
            obtain ⟨sets, m1⟩ := q
            obtain ⟨e, hb, S1, h1, h2⟩ := hf
            subst e
            simp only [Res.bind_ok]
            rw [keys_made h2]
            split
            · have hfil : m1.busy.filter (fun p => decide (p.1 ≠ t)) = m.busy := by
                rw [hb]
                simp only [List.filter_cons, ne_eq, not_true, decide_false, Bool.false_eq_true, if_false]
                exact List.filter_eq_self.2 fun p hp => by simpa using lookup_none hl p hp
              refine ⟨rfl, hfil, [(t, n)] ++ S1, ?_, ?_⟩
              · rw [← List.append_assoc]
                have hlt : m.heap.length < (S ++ [(t, n)] ++ S1).length := by simp [hm.len]
                have hSa : (S ++ [(t, n)] ++ S1)[m.heap.length]? = some (t, n) := by
                  rw [List.getElem?_append_left (by simp [hm.len])]; exact hS
                refine ⟨by simpa using h1.len, ?_, ?_⟩
                · intro b fm u n1 h3 h4 h5
                  dsimp only at h3 h5
                  by_cases hba : b = m.heap.length
                  · subst hba
                    rw [List.getElem?_set_self (by rw [h1.len]; exact hlt)] at h3
                    cases h3
                    rw [hSa] at h4
                    cases h4
                    exact ⟨rfl, id, ⟨hu, hr⟩, h2⟩
                  · rw [List.getElem?_set_ne (fun e => hba e.symm)] at h3
                    refine h1.done b fm u n1 h3 h4 fun p hp => ?_
                    rw [hb] at hp
                    rcases List.mem_cons.1 hp with rfl | hp
                    · exact fun e => hba e.symm
                    · exact h5 p (by rw [hfil]; exact hp)
                · intro p hp
                  refine h1.busy p ?_
                  rw [hb]
                  dsimp only at hp
                  rw [hfil] at hp
                  exact List.mem_cons_of_mem _ hp
              · refine .struct ⟨hu, hr⟩ ?_ (.inl rfl)
                rw [← List.append_assoc, List.getElem?_append_left (by simp [hm.len])]
                exact hS
            · exact rfl

/-- What `CompileToGetDecoder` makes is a decoder for the type, and it fails as the type check says. -/
theorem getDecoder_spec {W : World} (hW : W.NamedOk) (fuel : Nat) (t : Ty) :
    (∃ d H S, getDecoder W fuel t = .ok (d, H) ∧ compileD W fuel [] t = .ok () ∧ AllMade W S H ∧ Made W S d t noNames) ∨
    (∃ e, getDecoder W fuel t = .err e ∧ compileD W fuel [] t = .err e) ∨
    (∃ p, getDecoder W fuel t = .panic p ∧ compileD W fuel [] t = .panic p) ∨
    (getDecoder W fuel t = .diverge ∧ compileD W fuel [] t = .diverge) := by
  have h := makeDec_steady hW fuel [] noNames { heap := [], busy := [] } t ⟨rfl, by simp, by simp⟩ (by intro p hp; cases hp)
  unfold getDecoder
  generalize makeDec W fuel noNames { heap := [], busy := [] } t = r at h
  cases r with
  | ok q =>
    obtain ⟨d, m⟩ := q
    obtain ⟨h1, h2, S, h3, h4⟩ := h
    refine .inl ⟨d, m.heap, S, rfl, h1, ⟨by simpa using h3.len, fun a fm u n h5 h6 => ?_⟩, by simpa using h4⟩
    have := h3.done a fm u n h5 (by simpa using h6) (by rw [h2]; simp)
    simpa using this
  | err e => exact .inr (.inl ⟨e, rfl, h⟩)
  | panic p => exact .inr (.inr (.inl ⟨p, rfl, h⟩))
  | diverge => exact .inr (.inr (.inr ⟨rfl, h⟩))

/-- Decoding with the object is decoding with the type, but for the names in type errors. -/
theorem decodeWith_alike {W : World} {S : List (Ty × Names)} {H : List StructObj} (hH : AllMade W S H) {d : Dec} {t : Ty} {n : Names} (h : Made W S d t n) {fuel : Nat}
    (hc : compileD W fuel [] t = .ok ()) (data : Bytes) (v : Val) : SameRun (decodeWith W d H data v) (unmarshalInto W fuel data t v) := by
  unfold decodeWith unmarshalInto
  rw [hc]
  dsimp only [onOk]
  rw [(run_alike hH data _ d t n h _ _ _).1]
  exact onOk_alike (run_alike hH data _ d t n h _ _ _).2 fun _ => SameRun.refl _

end Verif

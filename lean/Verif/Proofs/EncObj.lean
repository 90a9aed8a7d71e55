import Verif.Proofs.EncMake
/-
Calling an encoder object is encoding with its type.
-/
namespace Verif

theorem runEField_eq {W : World} {S : List Ty} {a : EncField} {b : EField} (hab : EFieldMade W S a b) {h : Heap} {f : Nat}
    {rec : Enc → Ctx → Bytes → GV → ER Bytes} {rec' : Ty → Ctx → Bytes → GV → ER Bytes} (hr : ∀ d t, EMade W S false d t → rec d = rec' t) :
    runEField W h f rec a = encodeField W h f rec' b := by
  obtain ⟨-, -, -, h4⟩ := hab
  funext c x v
  unfold runEField encodeField
  -- objects of types other than pointers are called as they are
  have plain : ∀ d t, EMade W S false d t → W.isPtr t = false → runFieldEnc W h f rec d = rec' t := by
    intro d t hd ht
    have := hr d t hd
    cases d with
    | asString t => cases hd with | kind _ _ _ h => cases h
    | check e d => cases hd with
      | kind _ _ _ h => cases h
      | check _ _ h => simp [World.isPtr, h] at ht
    | _ => exact this
  cases hres : W.resolve b.ty with
  | ptr e =>
    rw [hres] at h4
    dsimp only at h4 ⊢
    by_cases h5 : b.str = true
    · rw [if_pos h5] at h4
      rw [h4.1, h4.2]
      simp only [h5, Bool.not_true, Bool.false_and, Bool.false_eq_true, if_false, if_true, runFieldEnc]
    · rw [if_neg h5] at h4
      obtain ⟨h6, h4⟩ := h4
      by_cases h7 : W.isStruct e = true
      · rw [if_pos h7] at h4
        obtain ⟨h8, d, h9, h10⟩ := h4
        rw [h8, h9]
        simp only [h5, h7, Bool.not_false, Bool.and_self, if_true, runFieldEnc]
        rw [hr d e h10]
      · rw [if_neg h7] at h4
        obtain ⟨h8, h9⟩ := h4
        rw [h8]
        simp only [h5, h7, Bool.and_false, Bool.false_eq_true, if_false]
        rw [plain _ _ h9 h6]
  | _ =>
    rw [hres] at h4
    dsimp only at h4 ⊢
    rw [h4.1]
    dsimp only
    have h4 := h4.2
    by_cases h5 : b.str = true
    · rw [if_pos h5] at h4
      rw [h4, if_pos h5, runFieldEnc]
    · rw [if_neg h5] at h4
      rw [if_neg h5, plain _ _ h4 (by simp [World.isPtr, hres])]

theorem runEFields_eq {W : World} {S : List Ty} {enc : EncField → Ctx → Bytes → GV → ER Bytes} {enc' : EField → Ctx → Bytes → GV → ER Bytes}
    (he : ∀ a b, EFieldMade W S a b → enc a = enc' b) (vs : List GV) : ∀ (as : List EncField) (bs : List EField) c sb n, EFieldsMade W S as bs →
    runEFields enc vs as c sb n = fieldsLoop enc' vs bs c sb n
  | [], [], c, sb, n, _ => rfl
  | [], _ :: _, _, _, _, h => h.elim
  | _ :: _, [], _, _, _, h => h.elim
  | a :: as, b :: bs, c, sb, n, ⟨h1, h2⟩ => by
    have ih := fun c sb n => runEFields_eq he vs as bs c sb n h2
    unfold runEFields fieldsLoop
    rw [he a b h1, h1.1, h1.2.1, h1.2.2.1]
    cases vs[b.idx]? with
    | none => rfl
    | some v => simp only [ih]

theorem encodeScalar_kind {W : World} {t : Ty} (h : scalarKind W t = true) (b : Bytes) (v : GV) : ∃ r, encodeScalar W t b v = some r := by
  unfold scalarKind at h
  unfold encodeScalar
  cases hr : W.resolve t <;> rw [hr] at h <;> first | exact ⟨_, rfl⟩ | cases h | skip
  case uint k => cases k <;> first | exact ⟨_, rfl⟩ | cases h

theorem encodeScalar_other {W : World} {t : Ty} (h : scalarKind W t = false) (b : Bytes) (v : GV) : encodeScalar W t b v = none := by
  unfold scalarKind at h
  unfold encodeScalar
  cases hr : W.resolve t <;> rw [hr] at h <;> first | rfl | cases h | skip
  case uint k => cases k <;> first | rfl | cases h

theorem runKind_eq {W : World} {h : Heap} {f : Nat} {r : ERec} {r' : Rec} {S : List Ty} {H : List (Option EncBody)} (hH : AllEMade W S H)
    (hc : ∀ p d t, EMade W S false d t → r.comp H p d = r'.comp p t) (hh : ∀ p t, r.held p t = r'.held p t) {d : Enc} {t : Ty} (hd : EMade W S true d t) (p : Path) :
    runKind W h H f r p d = encodeKind W h f r' p t := by
  funext c b v
  cases hd with
  | scalar h =>
    obtain ⟨x, hx⟩ := encodeScalar_kind h b v
    simp only [runKind, encodeKind, hx]
  | iface h =>
    unfold World.isIface at h
    unfold runKind encodeKind
    rw [encodeScalar_other (by unfold scalarKind; cases hr : W.resolve t <;> rw [hr] at h <;> first | rfl | cases h)]
    cases hr : W.resolve t <;> rw [hr] at h <;> first | exact congrFun (congrFun (congrFun (hh p t) c) b) v | cases h
  | array h1 h2 =>
    unfold runKind encodeKind
    rw [encodeScalar_other (by unfold scalarKind; rw [h1])]
    simp only [h1]
    cases v with
    | arr vs => simp only [fun i => hc (i :: p) _ _ h2]
    | _ => rfl
  | cell h1 h2 =>
    rename_i a
    unfold runKind encodeKind
    have hl : a < H.length := by rw [hH.1]; exact (List.getElem?_eq_some_iff.1 h1).1
    obtain ⟨body, h3, h4⟩ := hH.2 a H[a] t (List.getElem?_eq_getElem hl) h1
    have h5 : H[a]? = some (some body) := by rw [List.getElem?_eq_getElem hl, h3]
    simp only [h5]
    unfold cellKind at h2
    unfold BodyMade at h4
    rw [encodeScalar_other (by unfold scalarKind; cases hr : W.resolve t <;> rw [hr] at h2 <;> first | rfl | cases h2)]
    cases hr : W.resolve t <;> rw [hr] at h2 h4 <;> first | (cases h2; done) | skip
    case struct id =>
      obtain ⟨fls, rfl, h6⟩ := h4
      simp only [runBody]
      unfold encodeStruct
      cases v with
      | struct vs =>
        dsimp only
        rw [runEFields_eq (S := S) (W := W) (enc' := fun fl => encodeField W h f (r'.comp (fl.idx :: p)) fl)
          (fun a b hab => by rw [hab.1]; exact runEField_eq hab (hc _)) vs fls _ c [] 0 h6]
      | _ => rfl
    case slice e =>
      obtain ⟨d, rfl, h6⟩ := h4
      simp only [runBody]
      cases v with
      | slice a n => simp only [fun i => hc (i :: p) _ _ h6]
      | _ => rfl
    case map k e =>
      obtain ⟨d, rfl, h6⟩ := h4
      simp only [runBody]
      cases v with
      | map a => simp only [fun i => hc (i :: p) _ _ h6]
      | _ => rfl

/-- Compiling and calling. -/
theorem heldRun_eq {W : World} {cf : Nat} {r : ERec} {r' : Rec} (hc : ∀ S H p d t, AllEMade W S H → EMade W S false d t → r.comp H p d = r'.comp p t) (t : Ty)
    (c : Ctx) (k : (Path → Ctx → Bytes → GV → ER Bytes) → Ctx → ER Bytes) :
    heldRun r (getEncoder W cf t) c k = andThen (c, compileE W cf [] t) fun c _ => k (fun p => r'.comp p t) c := by
  unfold heldRun
  rcases getEncoder_spec W cf t with ⟨d, H, S, s, h1, h2, h3, h4⟩ | ⟨e, h1, h2⟩ | ⟨e, h1, h2⟩ | ⟨h1, h2⟩
  · rw [h1, h2]
    simp only [andThen]
    congr 1
    funext p
    exact hc S H p d t h3 h4
  all_goals rw [h1, h2]; rfl

theorem heldValue_eq {W : World} {h : Heap} {cf f : Nat} {r : ERec} {r' : Rec}
    (hc : ∀ S H p d t, AllEMade W S H → EMade W S false d t → r.comp H p d = r'.comp p t) (hh : ∀ p t, r.held p t = r'.held p t) (p : Path) (t : Ty) :
    heldValue W h cf f r p t = reflectValue W h cf f r' p t := by
  funext c b v
  unfold heldValue reflectValue
  congr 1
  funext c o
  cases o with
  | none => rfl
  | some q =>
    obtain ⟨t, v⟩ := q
    dsimp only
    cases encodeScalar W t b v with
    | some x => rfl
    | none =>
      dsimp only
      cases W.resolve t with
      | slice e =>
        dsimp only
        congr 1
        funext c b
        unfold heldSlice reflectSlice
        split
        · exact heldRun_eq hc t c _
        · cases v <;> first | rfl | simp only [hh]
      | map k e =>
        dsimp only
        congr 1
        funext c b
        unfold heldMap reflectMap
        split
        · rfl
        · cases v with
          | map a =>
            dsimp only
            split
            · rfl
            split
            · simp only [hh]
            · exact heldRun_eq hc e c _
          | _ => rfl
      | struct id => exact heldRun_eq hc t c _
      | _ => rfl

/-- Calling an object is encoding with the type it was made for. -/
theorem runEnc_eq (W : World) (h : Heap) (cf : Nat) : ∀ f,
    (∀ S H p d t, AllEMade W S H → EMade W S false d t → (runEnc W h cf f).comp H p d = (encF W h cf f).comp p t) ∧
    (∀ p t, (runEnc W h cf f).held p t = (encF W h cf f).held p t) := by
  intro f
  induction f with
  | zero => exact ⟨fun _ _ _ _ _ _ _ => rfl, fun _ _ => rfl⟩
  | succ f ih =>
    obtain ⟨ih1, ih2⟩ := ih
    refine ⟨fun S H p d t hH hd => ?_, fun p t => heldValue_eq ih1 ih2 p t⟩
    have kind : ∀ {d t}, EMade W S true d t → runKind W h H f (runEnc W h cf f) p d = encodeKind W h f (encF W h cf f) p t :=
      fun hd => runKind_eq hH (fun p d t => ih1 S H p d t hH) ih2 hd p
    funext c b v
    unfold runEnc encF
    dsimp only
    cases hd with
    | marshaler h1 => rw [if_pos h1]
    | bytes h1 h2 => rw [if_neg (by simp [h1]), if_pos h2]
    | kind h1 h2 h3 h4 =>
      rw [if_neg (by simp [h1]), if_neg h2]
      have hk := congrFun (congrFun (congrFun (kind h4) c) b) v
      have e1 : (match W.resolve t with
          | .ptr e => match W.resolve e with
            | .ptr _ => (c, .err (.unsupported "nested pointer"))
            | .any | .iface _ => (encF W h cf f).held p t c b v
            | .struct _ => checkStruct h e (encodeKind W h f (encF W h cf f) p e) c b v
            | .bool | .int _ | .f32 | .f64 | .str | .map _ _ => deRefNil h e (encodeKind W h f (encF W h cf f) p e) c b v
            | .uint .uptr => deRefNil h e ((encF W h cf f).comp p e) c b v
            | .uint _ => deRefNil h e (encodeKind W h f (encF W h cf f) p e) c b v
            | _ => deRefNil h e ((encF W h cf f).comp p e) c b v
          | _ => encodeKind W h f (encF W h cf f) p t c b v) = encodeKind W h f (encF W h cf f) p t c b v := by
        split
        · rename_i e he; exact absurd he (h3 e)
        · rfl
      refine Eq.trans ?_ e1.symm
      cases h4 <;> exact hk
    | derefKind h1 h2 h3 h4 h5 =>
      rw [if_neg (by simp [h1]), if_neg h2]
      simp only [h3]
      rw [kind h5]
      unfold scalarKind isMap at h4
      rename_i e d
      cases he : W.resolve e <;> rw [he] at h4 <;> first | rfl | cases h4 | skip
      case uint k => cases k <;> first | rfl | cases h4
    | check h1 h2 h3 h4 h5 =>
      rw [if_neg (by simp [h1]), if_neg h2]
      simp only [h3]
      rw [kind h5]
      unfold World.isStruct at h4
      rename_i e d
      cases he : W.resolve e <;> rw [he] at h4 <;> first | rfl | cases h4
    | ptrIface h1 h2 h3 h4 =>
      rw [if_neg (by simp [h1]), if_neg h2]
      simp only [h3]
      unfold World.isIface at h4
      rename_i e
      have := congrFun (congrFun (congrFun (ih2 p t) c) b) v
      cases he : W.resolve e <;> rw [he] at h4 <;> first | exact this | cases h4
    | deref h1 h2 h3 h4 h5 =>
      rw [if_neg (by simp [h1]), if_neg h2]
      simp only [h3]
      rw [ih1 S H p _ _ hH h5]
      unfold viaCompile at h4
      rename_i e d
      cases he : W.resolve e <;> rw [he] at h4 <;> first | rfl | cases h4 | skip
      case uint k => cases k <;> first | rfl | cases h4

/-- Calling the prepared object of a type. -/
theorem encodeWith_eq {W : World} {S : List Ty} {H : List (Option EncBody)} (hH : AllEMade W S H) {d : Enc} {t : Ty} (hd : EMade W S false d t) (h : Heap)
    (cf fuel : Nat) (c : Ctx) (v : GV) : encodeWith W h cf fuel d H c v = (encF W h cf fuel).comp [] t c [] v := by
  unfold encodeWith
  rw [(runEnc_eq W h cf fuel).1 S H [] d t hH hd]

end Verif

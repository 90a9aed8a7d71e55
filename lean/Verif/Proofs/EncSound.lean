import Verif.Proofs.EncBase
/-
Soundness of the encoder model: whatever it writes is what the specification says, and the context is restored.
-/
namespace Verif
open Spec

/-- Types accepted by the compiler with nesting bound `cf`. -/
def Accepted (W : World) (cf : Nat) (t : Ty) : Prop := ∃ seen, compileE W cf [] t = .ok seen

/-- The relation that the model implements exactly. -/
abbrev EncM (W : World) (h : Heap) (cf : Nat) := EncG W h (Accepted W cf) Fresh

theorem callMarshaler_sound {W : World} {h : Heap} {t : Ty} {b b' : Bytes} {v : GV} (he : callMarshaler W h t b v = .ok b') :
    ∃ raw, b' = b ++ raw ∧ Marshaled W h t v raw := by
  unfold callMarshaler at he
  simp only [] at he
  split at he
  · split at he
    · cases he
    · rename_i id hm
      rw [Res.bind_eq_ok] at he
      obtain ⟨raw, h1, h2⟩ := he
      cases h2
      exact ⟨raw, rfl, .value (by simp) (by simp) (fun id' e => by cases e; exact fun e => absurd e hm) h1⟩
  · cases he
  · rename_i dt dv _
    split at he
    · split at he
      · cases he
      · rename_i id hm
        rw [Res.bind_eq_ok] at he
        obtain ⟨raw, h1, h2⟩ := he
        cases h2
        exact ⟨raw, rfl, .iface (fun id' e => by cases e; exact fun e => absurd e hm) h1⟩
    · rename_i hn
      rw [Res.bind_eq_ok] at he
      obtain ⟨raw, h1, h2⟩ := he
      cases h2
      exact ⟨raw, rfl, .iface (fun id' e _ e' => hn id' e e') h1⟩
  · rename_i h2 h3 h1
    rw [Res.bind_eq_ok] at he
    obtain ⟨raw, g1, g2⟩ := he
    cases g2
    exact ⟨raw, rfl, .value (fun dt dv e => h3 dt dv e) h2 (fun id' e _ e' => h1 id' e e') g1⟩

/-- One level of recursion is sound. -/
structure RecSound (W : World) (h : Heap) (cf : Nat) (r : Rec) : Prop where
  comp : ∀ st p t b v, Out (ctxOf st) b (r.comp p t (ctxOf st) b v) (EncM W h cf .typed st p t v)
  held : ∀ st p t b v, Out (ctxOf st) b (r.held p t (ctxOf st) b v) (EncM W h cf .held st p t v)

theorem encodeField_sound {W : World} {h : Heap} {cf f : Nat} {r : Rec} (hr : RecSound W h cf r) {st : Stack} {p : Path} {fl : EField}
    {b : Bytes} {v : GV} :
    Out (ctxOf st) b (encodeField W h f (r.comp p) fl (ctxOf st) b v) (EncM W h cf (.field fl.str) st p fl.ty v) := by
  unfold encodeField
  split
  · rename_i e he
    split
    · rename_i hs
      simp only [Bool.and_eq_true, Bool.not_eq_true'] at hs
      rw [hs.1]
      apply Out.mono (checkStruct_out (P := fun w tx => ∃ a, v = .ptr a ∧ w = h.deref e a ∧ EncM W h cf .typed ((a, true) :: st) p e (h.deref e a) tx)
        (fun a ha hf => Out.mono (hr.comp ((a, true) :: st) p e b (h.deref e a)) (fun tx ht => ⟨a, ha, rfl, ht⟩)))
      rintro tx (⟨rfl, rfl⟩ | ⟨a, rfl, hf, a', ha, _, ht⟩)
      · exact .fieldPtrNil he
      · cases ha; exact .fieldPtrStruct he hs.2 hf ht
    · rename_i hs
      cases hstr : fl.str with
      | false =>
        have hns : W.isStruct e = false := by simpa [hstr] using hs
        simp only [Bool.false_eq_true, if_false]
        apply Out.mono (deRefNil_out (P := fun w tx => EncM W h cf .typed st p e w tx) (fun a _ => hr.comp st p e b (h.deref e a)))
        rintro tx (⟨rfl, rfl⟩ | ⟨a, rfl, ht⟩)
        · exact .fieldPtrNil he
        · exact .fieldPtr he hns ht
      | true =>
        simp only [if_true]
        apply Out.mono (deRefNil_out (P := fun w tx => ∃ d, StrFieldDoc W h e w d ∧ tx = d.text) (fun a _ => out_res (fun b' hb' => by
          obtain ⟨d, h1, h2⟩ := encodeAsString_sound hb'
          exact ⟨d.text, h2, d, h1, rfl⟩)))
        rintro tx (⟨rfl, rfl⟩ | ⟨a, rfl, d, ht, rfl⟩)
        · exact .fieldPtrNil he
        · exact .fieldStrPtr he ht
  · rename_i he
    have hp : W.isPtr fl.ty = false := by
      cases hip : W.isPtr fl.ty
      · rfl
      · obtain ⟨e, h1⟩ := isPtr_cases hip; exact absurd h1 (he e)
    cases hstr : fl.str with
    | false =>
      simp only [Bool.false_eq_true, if_false]
      exact Out.mono (hr.comp st p fl.ty b v) (fun tx ht => .fieldPlain hp ht)
    | true =>
      simp only [if_true]
      apply out_res
      intro b' hb'
      obtain ⟨d, h1, h2⟩ := encodeAsString_sound hb'
      exact ⟨d.text, h2, .fieldStr hp h1⟩

theorem encodeKind_sound {W : World} {h : Heap} {cf f : Nat} {r : Rec} (hr : RecSound W h cf r) {st : Stack} {p : Path} {t : Ty}
    {b : Bytes} {v : GV} : Out (ctxOf st) b (encodeKind W h f r p t (ctxOf st) b v) (EncM W h cf .kind st p t v) := by
  unfold encodeKind
  split
  · rename_i r0 hs
    apply out_res
    rintro b' rfl
    obtain ⟨d, h1, h2⟩ := encodeScalar_sound hs
    exact ⟨d.text, h2, .scalar h1⟩
  · rename_i hsc
    split <;> rename_i ht
    · apply Out.mono (encodeStruct_out (W := W) (P := fun str i t v tx => EncM W h cf (.field str) st (i :: p) t v tx)
        (fun fl v b => encodeField_sound hr))
      rintro tx ⟨vs, ws, g, rfl, hw, rfl, hp⟩
      exact .struct ht hw hp
    · split
      · rename_i vs
        split
        · rename_i hl
          apply Out.mono (encodeElems_out (P := fun i v tx => EncM W h cf .typed st (i :: p) _ v tx) (fun j v b _ => hr.comp st (j :: p) _ b v))
          rintro tx ⟨g, rfl, hp⟩
          exact .array ht hl hp
        · exact out_panic
      · exact out_panic
    · split
      · rw [appendNull_eq]; exact out_ok (.sliceNil ht)
      · rename_i a n
        apply Out.mono (checkRecursive_out (fun hf =>
          encodeElems_out (P := fun i v tx => EncM W h cf .typed ((a, true) :: st) (i :: p) _ v tx) (fun j v b _ => hr.comp ((a, true) :: st) (j :: p) _ b v)))
        rintro tx ⟨hf, g, rfl, hp⟩
        exact .slice ht hf rfl hp
      · exact out_panic
    · rename_i k e
      split
      · rw [appendNull_eq]; exact out_ok (.mapNil ht)
      · rename_i a
        apply Out.mono (checkRecursive_out (fun hf =>
          encodeEntries_out (K := KeyDoc W k) (P := fun i v tx => EncM W h cf .typed ((a, true) :: st) (i :: p) _ v tx)
            (fun _ _ _ hk => keyText_sound hk) (fun j x y b _ => hr.comp ((a, true) :: st) (j :: p) _ b y)))
        rintro tx ⟨hf, kd, g, rfl, hk, hp⟩
        exact .map ht hf rfl hk hp
      · exact out_panic
    · exact Out.mono (hr.held st p t b v) (fun tx hx => .iface (by simp [World.isIface, ht]) hx)
    · exact Out.mono (hr.held st p t b v) (fun tx hx => .iface (by simp [World.isIface, ht]) hx)
    · exact out_err

theorem emptyArray_eq (b : Bytes) (kd : Nat → Doc) (tx : Nat → Bytes) : appendEmptyArray b = b ++ arrText 0 kd tx := by
  rw [show arrText 0 kd tx = [97, 58, 48, 58, 123, 125] from rfl]
  rfl

theorem reflectValue_sound {W : World} {h : Heap} {cf f : Nat} {r : Rec} (hr : RecSound W h cf r) {st : Stack} {p : Path} {t : Ty}
    {b : Bytes} {v : GV} : Out (ctxOf st) b (reflectValue W h cf f r p t (ctxOf st) b v) (EncM W h cf .held st p t v) := by
  unfold reflectValue
  apply out_andThen
  intro o ho
  have hd := derefAll_sound ho
  cases o with
  | none => simp only []; rw [appendNull_eq]; exact out_ok (.heldNil hd)
  | some q =>
    obtain ⟨t', v'⟩ := q
    simp only []
    split
    · rename_i r0 hs
      apply out_res
      rintro b' rfl
      obtain ⟨d, h1, h2⟩ := encodeScalar_sound hs
      exact ⟨d.text, h2, .heldScalar hd h1⟩
    · split <;> rename_i ht
      · -- slice
        rename_i e
        have ha : v'.addr = addrOf v' := by cases v' <;> rfl
        rw [ha]
        unfold reflectSlice
        by_cases hi : W.isIface e = true
        · simp only [hi, Bool.not_true, Bool.false_eq_true, if_false]
          cases v' with
          | sliceNil =>
            apply Out.mono (reflectRecursive_out (P := fun tx => tx = Doc.null.text) (fun hf => by
              simp only []; rw [appendNull_eq]; exact out_ok rfl))
            rintro tx ⟨hf, rfl⟩
            exact .heldSliceNil hd ht hi hf
          | slice a n =>
            apply Out.mono (reflectRecursive_out (fun hf =>
              encodeElems_out (P := fun i v tx => EncM W h cf .held ((a, false) :: st) (i :: p) e v tx)
                (fun j v b _ => hr.held ((a, false) :: st) (j :: p) e b v)))
            rintro tx ⟨hf, g, rfl, hp⟩
            exact .heldSlice hd ht hi hf rfl hp
          | _ =>
            apply Out.mono (reflectRecursive_out (P := fun tx => False) (fun hf => out_panic))
            rintro tx ⟨_, hf⟩
            exact hf.elim
        · simp only [hi, Bool.not_false, if_true]
          apply Out.mono (reflectRecursive_out (P := fun tx => Accepted W cf t' ∧ EncM W h cf .typed ((addrOf v', false) :: st) p t' v' tx)
            (fun hf => out_andThen (fun s hs => Out.mono (hr.comp ((addrOf v', false) :: st) p t' b v') (fun tx hx => ⟨⟨s, hs⟩, hx⟩))))
          rintro tx ⟨hf, hok, hp⟩
          exact .heldConcreteSlice hd ht (by simpa using hi) hf hok hp
      · -- map
        rename_i k e
        have ha : v'.addr = addrOf v' := by cases v' <;> rfl
        rw [ha]
        unfold reflectMap
        by_cases hk : W.mapKeyOk k = true
        · simp only [hk, Bool.not_true, Bool.false_eq_true, if_false]
          cases v' with
          | mapNil =>
            apply Out.mono (reflectRecursive_out (P := fun tx => tx = Doc.null.text) (fun hf => by
              simp only []; rw [appendNull_eq]; exact out_ok rfl))
            rintro tx ⟨hf, rfl⟩
            exact .heldMapNil hd ht (mapKeyOk_iff.1 hk) hf
          | map a =>
            by_cases hes : (h.iter k e p a).isEmpty = true
            · have hnil : h.iter k e p a = [] := by simpa using hes
              simp only [hes, if_true]
              apply Out.mono (reflectRecursive_out (P := fun tx => tx = arrText 0 idxDoc (fun _ => [])) (fun hf => by
                rw [emptyArray_eq]; exact out_ok rfl))
              rintro tx ⟨hf, rfl⟩
              by_cases hi : W.isIface e = true
              · have := EncG.heldMap (ok := Accepted W cf) (G := Fresh) (kd := idxDoc) (tx := fun _ => []) (p := p) hd ht (mapKeyOk_iff.1 hk) hi hf hnil (by simp) (by simp)
                exact this
              · have := EncG.heldConcreteMap (ok := Accepted W cf) (G := Fresh) (kd := idxDoc) (tx := fun _ => []) (p := p) hd ht (mapKeyOk_iff.1 hk) (by simpa using hi) hf hnil (by simp) (by simp) (by simp)
                exact this
            · simp only [hes]
              by_cases hi : W.isIface e = true
              · simp only [hi, if_true]
                apply Out.mono (reflectRecursive_out (fun hf =>
                  encodeEntries_out (K := KeyDoc W k) (P := fun i v tx => EncM W h cf .held ((a, false) :: st) (i :: p) e v tx)
                    (fun _ _ _ hk => keyText_sound hk) (fun j x y b _ => hr.held ((a, false) :: st) (j :: p) e b y)))
                rintro tx ⟨hf, kd, g, rfl, hkd, hp⟩
                exact .heldMap hd ht (mapKeyOk_iff.1 hk) hi hf rfl hkd hp
              · simp only [hi]
                apply Out.mono (reflectRecursive_out (P := fun tx => Accepted W cf e ∧ _) (fun hf => out_andThen (fun s hs =>
                  Out.mono (encodeEntries_out (K := KeyDoc W k) (P := fun i v tx => EncM W h cf .typed ((a, false) :: st) (i :: p) e v tx)
                    (fun _ _ _ hk => keyText_sound hk) (fun j x y b _ => hr.comp ((a, false) :: st) (j :: p) e b y))
                    (fun tx hx => ⟨⟨s, hs⟩, hx⟩))))
                rintro tx ⟨hf, hok, kd, g, rfl, hkd, hp⟩
                exact .heldConcreteMap hd ht (mapKeyOk_iff.1 hk) (by simpa using hi) hf rfl (fun _ => hok) hkd hp
          | _ =>
            apply Out.mono (reflectRecursive_out (P := fun tx => False) (fun hf => out_panic))
            rintro tx ⟨_, hf⟩
            exact hf.elim
        · simp only [hk, Bool.not_false, if_true]
          apply Out.mono (reflectRecursive_out (P := fun tx => False) (fun hf => out_err))
          rintro tx ⟨_, hf⟩
          exact hf.elim
      · apply out_andThen
        intro s hs
        exact Out.mono (hr.comp st p t' b v') (fun tx hx => .heldStruct hd (by simp [World.isStruct, ht]) ⟨s, hs⟩ hx)
      · exact out_err

theorem encodeBytes_sound {h : Heap} {b b' : Bytes} {v : GV} (he : encodeBytes h b v = .ok b') :
    (v = .sliceNil ∧ b' = b ++ (strDoc []).text) ∨ ∃ a n s, v = .slice a n ∧ bytesOf (h.elems (.uint .u8) a n) = some s ∧ b' = b ++ (strDoc s).text := by
  unfold encodeBytes at he
  split at he
  · cases he; exact .inl ⟨rfl, appendString_eq _ _⟩
  · split at he
    · rename_i s hs; cases he; exact .inr ⟨_, _, s, rfl, hs, appendString_eq _ _⟩
    · cases he
  · cases he

/-- The model never writes anything but what the specification says, and it restores the context. -/
theorem encF_sound (W : World) (h : Heap) (cf : Nat) : ∀ f, RecSound W h cf (encF W h cf f)
  | 0 => ⟨fun _ _ _ _ _ => out_diverge, fun _ _ _ _ _ => out_diverge⟩
  | f + 1 => by
    have hr := encF_sound W h cf f
    refine ⟨fun st p t b v => ?_, fun st p t b v => reflectValue_sound hr⟩
    simp only [encF]
    split
    · rename_i hm
      apply out_res
      intro b' hb'
      obtain ⟨raw, h1, h2⟩ := callMarshaler_sound hb'
      exact ⟨raw, h1, .marshaler hm h2⟩
    · rename_i hm
      have hm : W.marOf t = false := by simpa using hm
      split
      · rename_i ht
        subst ht
        apply out_res
        intro b' hb'
        rcases encodeBytes_sound hb' with ⟨rfl, h1⟩ | ⟨a, n, s, rfl, h1, h2⟩
        · exact ⟨_, h1, .bytesNil⟩
        · exact ⟨_, h2, .bytes h1⟩
      · rename_i hb
        split
        · rename_i e ht
          split <;> rename_i he
          · exact out_err
          · exact Out.mono (hr.held st p t b v) (fun tx hx => .ptrIface hm ht (by simp [World.isIface, he]) hx)
          · exact Out.mono (hr.held st p t b v) (fun tx hx => .ptrIface hm ht (by simp [World.isIface, he]) hx)
          · apply Out.mono (checkStruct_out (P := fun w tx => ∃ a, v = .ptr a ∧ w = h.deref e a ∧ EncM W h cf .kind ((a, true) :: st) p e (h.deref e a) tx)
              (fun a ha hf => Out.mono (encodeKind_sound hr) (fun tx ht => ⟨a, ha, rfl, ht⟩)))
            rintro tx (⟨rfl, rfl⟩ | ⟨a, rfl, hf, a', ha, _, hx⟩)
            · exact .ptrNil hm ht (by simp [World.isPtr, he]) (by simp [World.isIface, he])
            · cases ha; exact .ptrStruct hm ht (by simp [World.isStruct, he]) hf hx
          all_goals first
          | (apply Out.mono (deRefNil_out (P := fun w tx => EncM W h cf .kind st p e w tx) (fun a _ => encodeKind_sound hr))
             rintro tx (⟨rfl, rfl⟩ | ⟨a, rfl, hx⟩)
             · exact .ptrNil hm ht (by simp [World.isPtr, he]) (by simp [World.isIface, he])
             · exact .ptrKind hm ht (by simp_all [directKind]) hx)
          | skip
          · apply Out.mono (deRefNil_out (P := fun w tx => EncM W h cf .typed st p e w tx) (fun a _ => hr.comp st p e b (h.deref e a)))
            rintro tx (⟨rfl, rfl⟩ | ⟨a, rfl, hx⟩)
            · exact .ptrNil hm ht (by simp [World.isPtr, he]) (by simp [World.isIface, he])
            · exact .ptrTyped hm ht (by simp [World.isPtr, he]) (by simp [World.isIface, he]) (by simp [World.isStruct, he]) (by simp [directKind, he]) hx
          · apply Out.mono (deRefNil_out (P := fun w tx => EncM W h cf .typed st p e w tx) (fun a _ => hr.comp st p e b (h.deref e a)))
            rintro tx (⟨rfl, rfl⟩ | ⟨a, rfl, hx⟩)
            · exact .ptrNil hm ht (by simp_all [World.isPtr]) (by simp_all [World.isIface])
            · exact .ptrTyped hm ht (by simp_all [World.isPtr]) (by simp_all [World.isIface]) (by simp_all [World.isStruct]) (by simp_all [directKind]) hx
        · rename_i hn
          apply Out.mono (encodeKind_sound hr)
          intro tx hx
          refine .plain hm hb ?_ hx
          unfold World.isPtr; split
          · rename_i e he; exact absurd he (hn e)
          · rfl

end Verif

import Verif.Proofs.RoundTree
import Verif.Proofs.RoundScalar
/-
Structs whose only field is a bool or integer with the option `string`.
-/
namespace Verif
open Spec

theorem optValue_fit {W : World} {h : Heap} {t : Ty} {v : GV} {y : Val} (ho : OptValue W t v y) : Fit W h t v := by
  cases ho with
  | bool => trivial
  | int hp hi => intro k hk; rw [hp.2] at hk; cases hk; exact hi
  | uint hp _ hi => intro k hk; rw [hp.2] at hk; cases hk; exact hi

theorem optValue_basic {W : World} {t : Ty} {v : GV} {y : Val} (ho : OptValue W t v y) :
    ∃ s, BasicText W (W.resolve t) v s ∧ s.length ≤ 21 := by
  cases ho with
  | @bool b hp => cases b <;> rw [hp.2] <;> exact ⟨_, by constructor, by simp⟩
  | int hp hi =>
    rw [hp.2]
    have := inRange_i64 hi
    exact ⟨_, .int, intText_length this.1 this.2⟩
  | @uint k n hp hk hi =>
    rw [hp.2]
    have := natText_length64 (uint_lt64 hi)
    exact ⟨_, .uint hk, by omega⟩


theorem optValue_scalar {W : World} {t : Ty} {v : GV} {y : Val} (ho : OptValue W t v y) : IsScalar W t := by
  cases ho with
  | bool hp => exact .inl hp
  | int hp => exact .inr (.inl ⟨_, hp⟩)
  | uint hp => exact .inr (.inr (.inl ⟨_, hp⟩))

theorem opt_supported {W : World} {t : Ty} {id : Nat} {f : Field} {x : GV} {y : Val} (ht : Plain W t (.struct id)) (hm : W.marOf t = false)
    (hfs : W.fields id = [f]) (hs : HasString W f) (ho : OptValue W f.ty x y) : Supported W t := by
  have hne : t ≠ .slice (.uint .u8) := by rintro rfl; cases ht.2
  rw [hasString_iff] at hs
  have h1 : asStringOk W (fieldElem W f.ty) = true ∧ W.isPtr f.ty = false ∧ W.isStruct f.ty = false := by
    cases ho with
    | bool hp => simp [asStringOk, fieldElem, hp.2, World.isPtr, World.isStruct]
    | int hp => simp [asStringOk, fieldElem, hp.2, World.isPtr, World.isStruct]
    | uint hp hk => simp [asStringOk, fieldElem, hp.2, hk, World.isPtr, World.isStruct]
  refine ⟨1, [t], ?_⟩
  simp only [compileE, hm, hne, ht.2, Bool.false_eq_true, if_false, compileEStruct, List.contains_nil, hfs, compileEFields, h1, hs, if_true, Bool.false_and,
    Bool.and_false]
  split <;> rfl

theorem opt_compileD {W : World} {t : Ty} {id : Nat} {f : Field} {x : GV} {y : Val} (ht : Plain W t (.struct id))
    (hfs : W.fields id = [f]) (ho : OptValue W f.ty x y) {fuel : Nat} (hf : 2 ≤ fuel) : compileD W fuel [] t = .ok () := by
  obtain ⟨g, rfl⟩ : ∃ g, fuel = g + 2 := ⟨fuel - 2, by omega⟩
  have h1 : compileD W (g + 1) [t] f.ty = .ok () := by
    cases ho <;> (have hp := ‹Plain W f.ty _›; simp [compileD, hp.1, hp.2])
  have h2 : canWrap W f.ty = true ∧ embedded W f = false := by
    cases ho <;> (have hp := ‹Plain W f.ty _›; simp [canWrap, wrappable, embedded, hp.1, hp.2])
  have h3 : (compileDFields W (compileD W (g + 1) [t]) [f]) = .ok () := by
    simp only [compileDFields, h1, h2]
    split
    · rfl
    · simp
  have h4 : noDupKeys ((fieldSets W 0 [f]).map (·.key)) = true := by
    simp only [fieldSets]
    split <;> simp [noDupKeys]
  unfold compileD
  simp [ht.1, ht.2, hfs, h3, h4]

theorem opt_enc {W : World} {h : Heap} {t : Ty} {id : Nat} {f : Field} {x : GV} {y : Val} {key : Bytes} (ht : Plain W t (.struct id)) (hm : W.marOf t = false)
    (hfs : W.fields id = [f]) (he : f.exported = true) (hs : HasString W f) (hk : HasKey W f key) (hkey : key ≠ [45]) (hkl : key.length < 2 ^ 61)
    (ho : OptValue W f.ty x y) :
    ∃ d, EncC W h .typed [] [] t (.struct [x]) d.text ∧ Lax 1 d ∧ d.depth ≤ 1 ∧ d.text.length < 2 ^ 63 := by
  obtain ⟨s, hb, hl⟩ := optValue_basic ho
  have hne : t ≠ .slice (.uint .u8) := by rintro rfl; cases ht.2
  have hp : W.isPtr t = false := by simp [World.isPtr, ht.2]
  have hpf : W.isPtr f.ty = false := by cases ho <;> (have hp := ‹Plain W f.ty _›; simp [World.isPtr, hp.2])
  have htag := structTag_meaning W f
  rw [hasKey_iff] at hk
  rw [hasString_iff] at hs
  rw [hk] at htag
  have h0 : (natText 0).length = 1 := rfl
  have h1 : (natText 1).length = 1 := rfl
  by_cases hz : (structTag W f).omitEmpty = true ∧ ZeroGV x
  · refine ⟨.arr (natText 0) [], ?_, .arr (natText_digits 0) (by simp) (by simp), by simp [Doc.depth, pairsDepth], by simp [Doc.text, pairsText, h0]⟩
    have := EncG.struct (W := W) (h := h) (ok := Supported W) (G := Fresh) (st := []) (p := []) (t := t) (id := id) (vs := [x]) (ws := []) (tx := fun _ => []) ht.2
      (by rw [hfs]; exact .omitted (by rw [hz.1] at htag; simpa using htag) hz.2 .nil) (by simp)
    refine .plain hm hne hp ?_
    simpa [arrText, bodyText, Doc.text, pairsText] using this
  · refine ⟨.arr (natText 1) [(strDoc key, strDoc s)], ?_, ?_, ?_, ?_⟩
    · have := EncG.struct (W := W) (h := h) (ok := Supported W) (G := Fresh) (st := []) (p := []) (t := t) (id := id) (vs := [x])
        (ws := [{ idx := 0, key, str := true, ty := f.ty, val := x }]) (tx := fun _ => (strDoc s).text) ht.2
        (by rw [hfs]; exact .keep he (by simpa [hs] using htag) hkey hz .nil)
        (fun j w hj => by
          rcases j with _ | j
          · cases hj; exact .fieldStr hpf (.basic hb)
          · simp at hj)
      refine .plain hm hne hp ?_
      simpa [arrText, bodyText, Doc.text, pairsText] using this
    · refine .arr (natText_digits 1) (fun a b hm => ?_) (fun a b hm => ?_) <;> simp at hm <;> obtain ⟨rfl, rfl⟩ := hm
      · exact .str (lenText_natText (by omega))
      · exact .str (lenText_natText (by omega))
    · simp [Doc.depth, pairsDepth, strDoc]
    · have a1 := natText_length64 (n := key.length) (by omega)
      have a2 := natText_length64 (n := s.length) (by omega)
      simp only [Doc.text, pairsText, strDoc, List.length_append, List.length_cons, List.length_nil, h1]
      omega

theorem opt_ordinary {W : World} {t t' : Ty} {id : Nat} {f : Field} {x : GV} {y : Val} (ht : Plain W t (.struct id)) (hm : W.marOf t = false)
    (hfs : W.fields id = [f]) (hmf : W.marOf f.ty = false) (ho : OptValue W f.ty x y) (hu : Uses W t t') : Ordinary W t' := by
  have : t' = t ∨ t' = f.ty := by
    induction hu with
    | refl => exact .inl rfl
    | step _ hn ih =>
      rcases ih with rfl | rfl
      · cases hn <;> (have hp := ‹Plain W _ _›.2; rw [ht.2] at hp; cases hp)
        have hf := ‹_ ∈ W.fields id›
        rw [hfs] at hf
        simp at hf
        exact .inr (by rw [hf])
      · exfalso
        cases hn <;> (have hp := ‹Plain W _ _›.2; cases ho <;> (have hp' := ‹Plain W f.ty _›.2; simp_all [Plain]))
  rcases this with rfl | rfl
  · exact ⟨ht.1, hm, by rw [ht.2]; trivial⟩
  · cases ho <;> (have hp := ‹Plain W f.ty _›; exact ⟨hp.1, hmf, by rw [hp.2]; trivial⟩)

theorem opt_fit {W : World} {h : Heap} {t t' : Ty} {id : Nat} {f : Field} {x v' : GV} {y : Val} (ht : Plain W t (.struct id)) 
    (hfs : W.fields id = [f]) (ho : OptValue W f.ty x y) (hw : Within W h t (.struct [x]) t' v') : Fit W h t' v' := by
  have leaf : ∀ {t v t' v'}, Within W h t v t' v' → OptValue W t v y → Fit W h t' v' := by
    intro t v t' v' hw ho
    cases hw with
    | refl => exact optValue_fit ho
    | step hp _ => cases ho <;> cases hp
  generalize hv : GV.struct [x] = v at hw
  cases hw with
  | refl => subst hv; trivial
  | step hp hw =>
    cases hp with
    | field hr hf hx =>
      cases hv
      rw [ht.2] at hr; cases hr
      rw [hfs] at hf
      rename_i i _ _
      rcases i with _ | i
      · cases hf; cases hx; exact leaf hw ho
      · simp at hf
    | _ => cases hv

end Verif

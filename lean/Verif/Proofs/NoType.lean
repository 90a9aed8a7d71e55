import Verif.Proofs.Errors
import Verif.Proofs.DecSound
import Verif.Spec.Names
/-
Reading the tokens of the format gives no type errors.
-/
namespace Verif
open Spec

variable {b : Bytes} {Q : Err → Prop} {c depth : Nat}

/-- `Q` holds of all errors but type errors. -/
def Untyped (Q : Err → Prop) : Prop := ∀ e, (∀ w o bl, e ≠ .typeError w o bl) → Q e

macro "no_type" : tactic => `(tactic| (intro _ _ _ h; cases h))

theorem skipLen_q (hQ : Untyped Q) : Tells Q (skipLengthWithBothColon b c) := by
  unfold skipLengthWithBothColon
  refine tells_ite (fun _ => tells_err (hQ _ (by no_type))) fun _ => tells_bind tells_idx fun x hx => ?_
  refine tells_ite (fun _ => tells_err (hQ _ (by no_type))) fun _ => ?_
  dsimp only
  refine tells_ite (fun _ => tells_err (hQ _ (by no_type))) fun _ => ?_
  refine tells_ite (fun _ => tells_err (hQ _ (by no_type))) fun _ => tells_bind tells_idx fun x hx => ?_
  exact tells_ite (fun _ => tells_err (hQ _ (by no_type))) fun _ => tells_ok

theorem readLength_q (hQ : Untyped Q) : Tells Q (readLength b c) := by
  unfold readLength
  refine tells_bind (skipLen_q hQ) fun e he => tells_bind tells_sub fun t _ => ?_
  cases parseInt64 t with
  | ok n => exact tells_ite (fun _ => tells_err (hQ _ (by no_type))) fun _ => tells_ok
  | err e => exact tells_err (hQ _ (by no_type))
  | panic p => exact tells_panic
  | diverge => exact tells_diverge

theorem skipClassName_q (hQ : Untyped Q) : Tells Q (skipClassName b c) := by
  unfold skipClassName
  refine tells_ite (fun _ => tells_err (hQ _ (by no_type))) fun _ => tells_bind tells_idx fun x hx => ?_
  refine tells_ite (fun _ => tells_err (hQ _ (by no_type))) fun _ => tells_bind (readLength_q hQ) fun x hx => ?_
  refine tells_ite (fun _ => tells_err (hQ _ (by no_type))) fun _ => tells_bind tells_idx fun x hx => ?_
  refine tells_ite (fun _ => tells_err (hQ _ (by no_type))) fun _ => ?_
  dsimp only
  refine tells_ite (fun _ => tells_err (hQ _ (by no_type))) fun _ => tells_bind tells_idx fun x hx => ?_
  refine tells_ite (fun _ => tells_err (hQ _ (by no_type))) fun _ => tells_bind tells_idx fun x hx => ?_
  exact tells_ite (fun _ => tells_err (hQ _ (by no_type))) fun _ => tells_ok

theorem readString_q (hQ : Untyped Q) : Tells Q (readString b c) := by
  unfold readString
  refine tells_bind (readLength_q hQ) fun x hx => ?_
  refine tells_ite (fun _ => tells_err (hQ _ (by no_type))) fun _ => tells_bind tells_idx fun x hx => ?_
  refine tells_ite (fun _ => tells_err (hQ _ (by no_type))) fun _ => ?_
  dsimp only
  refine tells_ite (fun _ => tells_err (hQ _ (by no_type))) fun _ => tells_bind tells_idx fun x hx => ?_
  refine tells_ite (fun _ => tells_err (hQ _ (by no_type))) fun _ => tells_bind tells_idx fun x hx => ?_
  exact tells_ite (fun _ => tells_err (hQ _ (by no_type))) fun _ => tells_bind tells_sub fun _ _ => tells_ok

theorem readIntegerBytes_q (hQ : Untyped Q) : Tells Q (readIntegerBytes b c) := by
  unfold readIntegerBytes
  refine tells_ite (fun _ => tells_err (hQ _ (by no_type))) fun _ => tells_bind tells_idx fun x hx => ?_
  refine tells_ite (fun _ => tells_err (hQ _ (by no_type))) fun _ => ?_
  refine tells_ite (fun _ => tells_err (hQ _ (by no_type))) fun _ => tells_bind tells_idx fun x hx => ?_
  refine tells_ite (fun _ => tells_err (hQ _ (by no_type))) fun _ => ?_
  dsimp only
  refine tells_bind tells_idx fun x hx => ?_
  refine tells_ite (fun _ => tells_err (hQ _ (by no_type))) fun _ => ?_
  refine tells_ite (fun _ => tells_err (hQ _ (by no_type))) fun _ => tells_bind tells_idx fun x hx => ?_
  exact tells_ite (fun _ => tells_err (hQ _ (by no_type))) fun _ => tells_bind tells_sub fun _ _ => tells_ok

theorem readFloatBytes_q (hQ : Untyped Q) : Tells Q (readFloatBytes b c) := by
  unfold readFloatBytes
  refine tells_ite (fun _ => tells_err (hQ _ (by no_type))) fun _ => tells_bind tells_idx fun x hx => ?_
  refine tells_ite (fun _ => tells_err (hQ _ (by no_type))) fun _ => ?_
  refine tells_ite (fun _ => tells_err (hQ _ (by no_type))) fun _ => tells_bind tells_idx fun x hx => ?_
  refine tells_ite (fun _ => tells_err (hQ _ (by no_type))) fun _ => ?_
  dsimp only
  refine tells_ite (fun _ => tells_err (hQ _ (by no_type))) fun _ => ?_
  exact tells_ite (fun _ => tells_err (hQ _ (by no_type))) fun _ => tells_bind tells_sub fun _ _ => tells_ok

theorem readBool_q (hQ : Untyped Q) : Tells Q (readBool b c) := by
  unfold readBool
  refine tells_ite (fun _ => tells_err (hQ _ (by no_type))) fun _ => tells_bind tells_idx fun x hx => ?_
  refine tells_ite (fun _ => tells_err (hQ _ (by no_type))) fun _ => tells_bind tells_idx fun x hx => ?_
  refine tells_ite (fun _ => tells_err (hQ _ (by no_type))) fun _ => tells_bind tells_idx fun x hx => ?_
  refine tells_ite (fun _ => tells_err (hQ _ (by no_type))) fun _ => tells_bind tells_idx fun x hx => ?_
  exact tells_ite (fun _ => tells_err (hQ _ (by no_type))) fun _ => tells_ok

theorem validateNull_q (hQ : Untyped Q) : Tells Q (validateNull b c) := by
  unfold validateNull
  refine tells_ite (fun _ => tells_err (hQ _ (by no_type))) fun _ => tells_bind tells_idx fun x hx => ?_
  exact tells_ite (fun _ => tells_err (hQ _ (by no_type))) fun _ => tells_ok

theorem validateEmptyArray_q (hQ : Untyped Q) : Tells Q (validateEmptyArray b c) := by
  unfold validateEmptyArray
  refine tells_ite (fun _ => tells_err (hQ _ (by no_type))) fun _ => tells_bind tells_idx fun x hx => ?_
  refine tells_ite (fun _ => tells_err (hQ _ (by no_type))) fun _ => tells_bind tells_idx fun x hx => ?_
  refine tells_ite (fun _ => tells_err (hQ _ (by no_type))) fun _ => tells_bind tells_idx fun x hx => ?_
  exact tells_ite (fun _ => tells_err (hQ _ (by no_type))) fun _ => tells_ok

theorem readInt_q (hQ : Untyped Q) : Tells Q (readInt b c) := by
  unfold readInt
  refine tells_bind (readIntegerBytes_q hQ) fun x hx => ?_
  dsimp only
  cases parseInt64 x.1 with
  | ok n => exact tells_ite (fun _ => tells_err (hQ _ (by no_type))) fun _ => tells_ok
  | err e => exact tells_err (hQ _ (by no_type))
  | panic p => exact tells_panic
  | diverge => exact tells_diverge

theorem skipString_q (hQ : Untyped Q) : Tells Q (skipString b c) := by
  unfold skipString
  refine tells_ite (fun _ => tells_err (hQ _ (by no_type))) fun _ => tells_bind tells_idx fun x hx => ?_
  exact tells_ite (fun _ => tells_err (hQ _ (by no_type))) fun _ => tells_bind (readString_q hQ) fun _ _ => tells_ok

theorem skipPairs_q {skip : Nat → Res Nat} (h : ∀ c, Tells Q (skip c)) : ∀ n c, Tells Q (skipPairs skip n c)
  | 0, _ => tells_ok
  | n + 1, _ => tells_bind (h _) fun _ _ => tells_bind (h _) fun _ _ => skipPairs_q h n _

theorem skipArray_q (hQ : Untyped Q) {skip : Nat → Res Nat} (h : ∀ c, Tells Q (skip c)) : Tells Q (skipArray skip b c depth) := by
  unfold skipArray
  refine tells_ite (fun _ => tells_err (hQ _ (by no_type))) fun _ => tells_bind (readLength_q hQ) fun x hx => ?_
  dsimp only
  refine tells_ite (fun _ => tells_err (hQ _ (by no_type))) fun _ => tells_bind tells_idx fun x hx => ?_
  refine tells_ite (fun _ => tells_err (hQ _ (by no_type))) fun _ => tells_bind (skipPairs_q h _ _) fun x hx => ?_
  refine tells_ite (fun _ => tells_err (hQ _ (by no_type))) fun _ => tells_bind tells_idx fun x hx => ?_
  exact tells_ite (fun _ => tells_err (hQ _ (by no_type))) fun _ => tells_ok

theorem skipValueF_q (hQ : Untyped Q) : ∀ f c depth, Tells Q (skipValueF f b c depth)
  | 0, c, depth => tells_diverge
  | f + 1, c, depth => by
    unfold skipValueF
    refine tells_ite (fun _ => tells_err (hQ _ (by no_type))) fun _ => tells_bind tells_idx fun x hx => ?_
    refine tells_ite (fun _ => tells_bind (skipClassName_q hQ) fun _ _ => skipArray_q hQ fun c => skipValueF_q hQ f c _) fun _ => ?_
    refine tells_ite (fun _ => skipArray_q hQ fun c => skipValueF_q hQ f c _) fun _ => ?_
    refine tells_ite (fun _ => skipString_q hQ) fun _ => ?_
    refine tells_ite (fun _ => tells_bind (readFloatBytes_q hQ) fun _ _ => tells_ok) fun _ => ?_
    refine tells_ite (fun _ => tells_bind (readIntegerBytes_q hQ) fun _ _ => tells_ok) fun _ => ?_
    refine tells_ite (fun _ => tells_bind (readBool_q hQ) fun _ _ => tells_ok) fun _ => ?_
    refine tells_ite (fun _ => tells_bind (validateNull_q hQ) fun _ _ => tells_ok) fun _ => ?_
    exact tells_err (hQ _ (by no_type))

theorem skipValue_q (hQ : Untyped Q) : Tells Q (skipValue b c depth) := skipValueF_q hQ _ _ _

theorem validateEndBuf_q (hQ : Untyped Q) : Tells Q (validateEndBuf b c) := by
  unfold validateEndBuf
  refine tells_ite (fun _ => tells_ok) fun _ => tells_bind tells_idx fun x hx => tells_err (hQ _ (by no_type))

/-! ### Scalars -/

theorem intBytes_q (hQ : Untyped Q) : Tells Q (intBytes b c) := by
  unfold intBytes
  refine tells_ite (fun _ => tells_err (hQ _ (by no_type))) fun _ => tells_bind tells_idx fun x hx => ?_
  refine tells_ite (fun _ => tells_bind (validateNull_q hQ) fun _ _ => tells_ok) fun _ => ?_
  exact tells_bind (readIntegerBytes_q hQ) fun _ _ => tells_ok

theorem floatBytes_q (hQ : Untyped Q) : Tells Q (floatBytes b c) := by
  unfold floatBytes
  refine tells_ite (fun _ => tells_err (hQ _ (by no_type))) fun _ => tells_bind tells_idx fun x hx => ?_
  refine tells_ite (fun _ => tells_bind (validateNull_q hQ) fun _ _ => tells_ok) fun _ => ?_
  refine tells_ite (fun _ => tells_bind (readFloatBytes_q hQ) fun _ _ => tells_ok) fun _ => ?_
  exact tells_err (hQ _ (by no_type))

theorem processFloat_q (hQ : Untyped Q) {W : World} {is32 : Bool} {txt : Bytes} {rv : Val} : Tells Q (processFloat W is32 txt c rv).2 := by
  unfold processFloat
  cases floatOfText W txt with
  | none => exact tells_err (hQ _ (by no_type))
  | some x =>
    refine tells_dite (fun _ => ?_) fun _ => tells_ok
    exact tells_dite (fun _ => tells_err (hQ _ (by no_type))) fun _ => tells_ok

theorem floatDecode_q (hQ : Untyped Q) {W : World} {is32 : Bool} {rv : Val} : Tells Q (floatDecode W is32 b c rv).2 := by
  unfold floatDecode
  refine tells_onOk (floatBytes_q hQ) ?_
  rintro ⟨ob, e⟩ -
  cases ob with
  | none => exact tells_ok
  | some t => exact processFloat_q hQ

theorem boolDecode_q (hQ : Untyped Q) {rv : Val} : Tells Q (boolDecode b c rv).2 := by
  unfold boolDecode
  refine tells_dite (fun _ => tells_err (hQ _ (by no_type))) fun _ => tells_onOk tells_idx fun x hx => ?_
  refine tells_dite (fun _ => tells_onOk (readBool_q hQ) fun _ _ => tells_ok) fun _ => ?_
  refine tells_dite (fun _ => tells_onOk (validateNull_q hQ) fun _ _ => tells_ok) fun _ => ?_
  exact tells_err (hQ _ (by no_type))

theorem processInt_q (hQ : Untyped Q) {k : IKind} {txt : Bytes} {rv : Val} (hn : Q (.typeError (.number txt) c)) : Tells Q (processInt k txt c rv).2 := by
  unfold processInt
  cases parseInt64 txt with
  | ok i => exact tells_dite (fun _ => tells_err (hQ _ (by no_type))) fun _ => tells_ok
  | err e => exact tells_err hn
  | panic p => exact tells_panic
  | diverge => exact tells_diverge

theorem processUint_q (hQ : Untyped Q) {k : UKind} {txt : Bytes} {rv : Val} (hn : Q (.typeError (.number txt) c)) : Tells Q (processUint k txt c rv).2 := by
  unfold processUint
  cases parseUint txt with
  | none => exact tells_err hn
  | some n => exact tells_dite (fun _ => tells_err (hQ _ (by no_type))) fun _ => tells_ok

theorem intBytes_value {txt : Bytes} {e : Nat} (h : intBytes b c = .ok (some txt, e)) : IntegerAt b c e := by
  rcases intBytes_iff.1 h with ⟨h, -⟩ | ⟨t, -, ⟨i, hi⟩, hat⟩
  · cases h
  · exact ⟨_, i, hi, hat⟩

theorem intDecode_q (hQ : Untyped Q) {k : IKind} {rv : Val} (hn : ∀ (e : Nat) (t : Bytes), IntegerAt b c e → Q (.typeError (.number t) e)) : Tells Q (intDecode k b c rv).2 := by
  unfold intDecode
  refine tells_onOk (intBytes_q hQ) ?_
  rintro ⟨ob, e⟩ h
  cases ob with
  | none => exact tells_ok
  | some t => exact processInt_q hQ (hn _ _ (intBytes_value h))

theorem uintDecode_q (hQ : Untyped Q) {k : UKind} {rv : Val} (hn : ∀ (e : Nat) (t : Bytes), IntegerAt b c e → Q (.typeError (.number t) e)) : Tells Q (uintDecode k b c rv).2 := by
  unfold uintDecode
  refine tells_onOk (intBytes_q hQ) ?_
  rintro ⟨ob, e⟩ h
  cases ob with
  | none => exact tells_ok
  | some t => exact processUint_q hQ (hn _ _ (intBytes_value h))

theorem stringBytes_q (hQ : Untyped Q) (hs : ∀ w, Q (.typeError w c)) : Tells Q (stringBytes b c) := by
  unfold stringBytes
  refine tells_ite (fun _ => tells_err (hQ _ (by no_type))) fun _ => tells_bind tells_idx fun x hx => ?_
  refine tells_ite (fun _ => tells_bind (validateNull_q hQ) fun _ _ => tells_ok) fun _ => ?_
  refine tells_ite (fun _ => tells_err (hs _)) fun _ => ?_
  refine tells_ite (fun _ => tells_err (hs _)) fun _ => ?_
  refine tells_ite (fun _ => tells_bind (readString_q hQ) fun _ _ => tells_ok) fun _ => ?_
  refine tells_ite (fun _ => tells_err (hs _)) fun _ => ?_
  exact tells_err (hQ _ (by no_type))

theorem stringDecode_q (hQ : Untyped Q) {rv : Val} (hs : ∀ w, Q (.typeError w c)) : Tells Q (stringDecode b c rv).2 := by
  unfold stringDecode
  refine tells_onOk (stringBytes_q hQ hs) ?_
  rintro ⟨ob, e⟩ -
  cases ob <;> exact tells_ok

/-! ### Containers -/

theorem at_value {c' : Nat} {d : Doc} {n : Nat} (h : At b c d c') (hl : Lax n d) : ValueAt b c c' := ⟨n, d, hl, h⟩

theorem readInt_value {i e : Nat} (h : readInt b c = .ok (i, e)) : ValueAt b c e := by
  obtain ⟨t, ht, -, hd, he⟩ := readInt_sound h
  exact ⟨0, .int t, .int ht, at_int_iff.2 ⟨hd, he⟩⟩

theorem sliceLoop_q (hQ : Untyped Q) {c0 : Nat} {dec : Nat → Val → DR} {z : Val} {es : Nat}
    (hd : ∀ c1 c2 v, EntryAt b c0 c1 → ValueAt b c1 c2 → Tells Q (dec c2 v).2) (hk : ∀ c v v' c', dec c v = (v', .ok c') → ValueAt b c c') :
    ∀ f c sl rv, EntryAt b c0 c → Tells Q (sliceLoop dec z es b f c sl rv).2 := by
  intro f
  induction f with
  | zero => intro c sl rv _; exact tells_diverge
  | succ f ih =>
    intro c sl rv hc
    unfold sliceLoop
    refine tells_dite (fun _ => tells_err (hQ _ (by no_type))) fun _ => tells_onOk (readInt_q hQ) ?_
    rintro ⟨i, c1⟩ h1
    have hv := readInt_value h1
    dsimp only
    refine tells_dite (fun _ => tells_err (hQ _ (by no_type))) fun _ => ?_
    refine tells_dite (fun _ => tells_panic) fun _ => ?_
    split
    · exact tells_panic
    · rename_i v0 _
      have hg := hd c c1 v0 hc hv
      generalize hx : dec c1 v0 = x at hg ⊢
      obtain ⟨v, r⟩ := x
      refine tells_onOk hg fun c2 h2 => ?_
      cases h2
      refine tells_dite (fun _ => tells_err (hQ _ (by no_type))) fun _ => tells_onOk tells_idx fun x _ => ?_
      exact tells_dite (fun _ => tells_ok) fun _ => ih _ _ _ (.next hc hv (hk _ _ _ _ hx))

theorem arr_head {c1 : Nat} {len : Int} (hx : idx b c = .ok ca) (hl : readLength b (c + 1) = .ok (len, c1)) (hb : idx b c1 = .ok cLBrace) :
    HeadAt b c (c1 + 1) := by
  obtain ⟨ds, m, hm, -, hd, he⟩ := readLength_sound hl
  refine .arr hm.1 ?_ (by omega)
  rw [drop_of_idx hx, hd, drop_of_idx hb]
  simp (decide := true)

theorem sliceDecode_q (hQ : Untyped Q) {dec : Nat → Nat → Val → DR} {z rv : Val} {es : Nat} (hn : Q (.typeError "number" c))
    (hd : depth + 1 ≤ maxDepth → ∀ c1 c2 v, EntryAt b c c1 → ValueAt b c1 c2 → Tells Q (dec c2 (depth + 1) v).2)
    (hk : depth + 1 ≤ maxDepth → ∀ c v v' c', dec c (depth + 1) v = (v', .ok c') → ValueAt b c c') :
    Tells Q (sliceDecode dec z es b c depth rv).2 := by
  unfold sliceDecode
  refine tells_dite (fun _ => tells_err (hQ _ (by no_type))) fun _ => ?_
  refine tells_dite (fun _ => tells_err (hQ _ (by no_type))) fun hdp => tells_onOk tells_idx fun x hx => ?_
  refine tells_dite (fun _ => tells_onOk (validateNull_q hQ) fun _ _ => tells_ok) fun _ => ?_
  refine tells_dite (fun hxa => ?_) fun _ => ?_
  · subst hxa
    dsimp only
    refine tells_dite (fun _ => tells_err (hQ _ (by no_type))) fun _ => tells_onOk tells_idx fun y hy => ?_
    refine tells_dite (fun _ => tells_err (hQ _ (by no_type))) fun _ => ?_
    refine tells_dite (fun _ => tells_err (hQ _ (by no_type))) fun _ => tells_onOk tells_idx fun z hz => ?_
    refine tells_dite (fun _ => tells_onOk (validateEmptyArray_q hQ) fun _ _ => tells_ok) fun _ => ?_
    refine tells_onOk (readLength_q hQ) ?_
    rintro ⟨len, c1⟩ hl
    dsimp only
    refine tells_dite (fun _ => tells_err (hQ _ (by no_type))) fun _ => tells_onOk tells_idx fun w hw => ?_
    refine tells_dite (fun _ => tells_err (hQ _ (by no_type))) fun hwb => ?_
    refine tells_dite (fun _ => tells_panic) fun _ => ?_
    have hdp : depth + 1 ≤ maxDepth := by omega
    have hwb : w = cLBrace := by simpa using hwb
    subst hwb
    exact sliceLoop_q hQ (hd hdp) (hk hdp) _ _ _ _ (.first (arr_head hx hl hw))
  · refine tells_dite (fun _ => tells_err hn) fun _ => tells_err (hQ _ (by no_type))

theorem arrayLoop_q (hQ : Untyped Q) {c0 : Nat} {dec : Nat → Val → DR} {skip : Nat → Res Nat}
    (hd : ∀ c1 c2 v, EntryAt b c0 c1 → ValueAt b c1 c2 → Tells Q (dec c2 v).2) (hk : ∀ c v v' c', dec c v = (v', .ok c') → ValueAt b c c')
    (hs : ∀ c, Tells Q (skip c)) (hsk : ∀ c c', skip c = .ok c' → ValueAt b c c') :
    ∀ f c vs, EntryAt b c0 c → Tells Q (arrayLoop dec skip b f c vs).2 := by
  intro f
  induction f with
  | zero => intro c vs _; exact tells_diverge
  | succ f ih =>
    intro c vs hc
    unfold arrayLoop
    refine tells_dite (fun _ => tells_err (hQ _ (by no_type))) fun _ => tells_onOk (readInt_q hQ) ?_
    rintro ⟨i, c1⟩ h1
    have hv := readInt_value h1
    dsimp only
    refine tells_dite (fun _ => tells_err (hQ _ (by no_type))) fun _ => ?_
    cases vs[i]? with
    | none =>
      dsimp only
      refine tells_onOk (hs _) fun c2 h2 => ?_
      refine tells_dite (fun _ => tells_err (hQ _ (by no_type))) fun _ => tells_onOk tells_idx fun x _ => ?_
      exact tells_dite (fun _ => tells_ok) fun _ => ih _ _ (.next hc hv (hsk _ _ h2))
    | some v0 =>
      have hg := hd c c1 v0 hc hv
      dsimp only
      generalize hx : dec c1 v0 = x at hg ⊢
      obtain ⟨v, r⟩ := x
      refine tells_onOk hg fun c2 h2 => ?_
      cases h2
      refine tells_dite (fun _ => tells_err (hQ _ (by no_type))) fun _ => tells_onOk tells_idx fun x _ => ?_
      exact tells_dite (fun _ => tells_ok) fun _ => ih _ _ (.next hc hv (hk _ _ _ _ hx))

theorem skip_value (hb : b.length < 2 ^ 63) (hd : depth ≤ maxDepth) {c' : Nat} (h : skipValue b c depth = .ok c') : ValueAt b c c' := by
  obtain ⟨d, hs, h⟩ := (skipValue_ok_iff hb hd).1 h
  exact ⟨_, d, lax_of_strict hs, h⟩

theorem arrayDecode_q (hQ : Untyped Q) (hb : b.length < 2 ^ 63) {dec : Nat → Nat → Val → DR} {z rv : Val} {l : Nat}
    (hd : depth + 1 ≤ maxDepth → ∀ c1 c2 v, EntryAt b c c1 → ValueAt b c1 c2 → Tells Q (dec c2 (depth + 1) v).2)
    (hk : depth + 1 ≤ maxDepth → ∀ c v v' c', dec c (depth + 1) v = (v', .ok c') → ValueAt b c c') :
    Tells Q (arrayDecode dec z l b c depth rv).2 := by
  unfold arrayDecode
  refine tells_dite (fun _ => tells_err (hQ _ (by no_type))) fun _ => ?_
  refine tells_dite (fun _ => tells_err (hQ _ (by no_type))) fun hdp => tells_onOk tells_idx fun x hx => ?_
  refine tells_dite (fun _ => tells_onOk (validateNull_q hQ) fun _ _ => tells_ok) fun _ => ?_
  refine tells_dite (fun hxa => ?_) fun _ => tells_err (hQ _ (by no_type))
  subst hxa
  dsimp only
  refine tells_dite (fun _ => tells_err (hQ _ (by no_type))) fun _ => tells_onOk tells_idx fun y hy => ?_
  refine tells_dite (fun _ => tells_err (hQ _ (by no_type))) fun _ => ?_
  refine tells_dite (fun _ => tells_err (hQ _ (by no_type))) fun _ => tells_onOk tells_idx fun z hz => ?_
  refine tells_dite (fun _ => tells_onOk (validateEmptyArray_q hQ) fun _ _ => tells_ok) fun _ => ?_
  refine tells_onOk (readLength_q hQ) ?_
  rintro ⟨len, c1⟩ hl
  dsimp only
  refine tells_dite (fun _ => tells_err (hQ _ (by no_type))) fun _ => tells_onOk tells_idx fun w hw => ?_
  refine tells_dite (fun _ => tells_err (hQ _ (by no_type))) fun hwb => ?_
  have hdp : depth + 1 ≤ maxDepth := by omega
  have hwb : w = cLBrace := by simpa using hwb
  subst hwb
  exact arrayLoop_q hQ (hd hdp) (hk hdp) (fun _ => skipValue_q hQ) (fun _ _ h => skip_value hb hdp h) _ _ _ (.first (arr_head hx hl hw))

theorem not_brace {x : Byte} (h : idx b c = .ok x) (hx : ¬ x = cRBrace) : b[c]? ≠ some 125 := by
  intro h'
  simp only [idx, h', Res.ok.injEq] at h
  exact hx h.symm

theorem mapLoop_q (hQ : Untyped Q) {c0 : Nat} {kd vd : Nat → DR}
    (hd : ∀ c1, KeyAt b c0 c1 → Tells Q (kd c1).2) (hdk : ∀ c v c', kd c = (v, .ok c') → ValueAt b c c')
    (hv : ∀ c1 c2, EntryAt b c0 c1 → ValueAt b c1 c2 → Tells Q (vd c2).2) (hvk : ∀ c v c', vd c = (v, .ok c') → ValueAt b c c') :
    ∀ f c es, KeyAt b c0 c → Tells Q (mapLoop kd vd b f c es).2 := by
  intro f
  induction f with
  | zero => intro c es _; exact tells_diverge
  | succ f ih =>
    intro c es hc
    unfold mapLoop
    refine tells_dite (fun _ => tells_err (hQ _ (by no_type))) fun _ => ?_
    have hg := hd c hc
    generalize hx : kd c = x at hg ⊢
    obtain ⟨k, r⟩ := x
    refine tells_onOk hg fun c1 h1 => ?_
    cases h1
    have hk1 := hdk _ _ _ hx
    refine tells_dite (fun _ => tells_err (hQ _ (by no_type))) fun _ => ?_
    have hg2 := hv c c1 hc.1 hk1
    generalize hy : vd c1 = y at hg2 ⊢
    obtain ⟨v, r⟩ := y
    refine tells_onOk hg2 fun c2 h2 => ?_
    cases h2
    refine tells_dite (fun _ => tells_panic) fun _ => ?_
    dsimp only
    refine tells_dite (fun _ => tells_err (hQ _ (by no_type))) fun _ => tells_onOk tells_idx fun x hx => ?_
    exact tells_dite (fun _ => tells_ok) fun hne => ih _ _ ⟨.next hc.1 hk1 (hvk _ _ _ hy), not_brace hx hne⟩

theorem head_of {x : Byte} {e : Err} {c1 c2 : Nat} {ds : Bytes} (hb : b.length < 2 ^ 63) (hx : idx b c = .ok x)
    (h : (if x = cO then skipClassName b c >>= fun e => .ok (e + 1) else if x = ca then .ok (c + 1) else .err e) = .ok c1)
    (hd : IsDigits ds) (hr : b.drop c1 = 58 :: (ds ++ 58 :: b.drop c2)) (hc2 : c2 = c1 + ds.length + 2) (hl : idx b c2 = .ok cLBrace) :
    HeadAt b c (c2 + 1) := by
  split at h
  · simp only [Res.bind_eq_ok, Res.ok.injEq] at h
    obtain ⟨e', he, rfl⟩ := h
    obtain ⟨cs, cls, hcl, hdrop, -, hee⟩ := skipClassName_sound hb he
    refine .obj hcl hd ?_ (by omega)
    rw [hdrop, hr, drop_of_idx hl]
    simp (decide := true)
  split at h
  · rename_i hxa; subst hxa
    simp only [Res.ok.injEq] at h; subst h
    refine .arr hd ?_ (by omega)
    rw [drop_of_idx hx, hr, drop_of_idx hl]
    simp (decide := true)
  · cases h

theorem header_q (hQ : Untyped Q) {x : Byte} {e : Err} (he : ∀ w o bl, e ≠ .typeError w o bl) :
    Tells Q (if x = cO then skipClassName b c >>= fun e => .ok (e + 1) else if x = ca then .ok (c + 1) else .err e : Res Nat) := by
  refine tells_ite (fun _ => tells_bind (skipClassName_q hQ) fun _ _ => tells_ok) fun _ => ?_
  exact tells_ite (fun _ => tells_ok) fun _ => tells_err (hQ _ he)

theorem mapDecode_q (hQ : Untyped Q) (hb : b.length < 2 ^ 63) {kd vd : Nat → Nat → DR} {rv : Val}
    (hd : depth + 1 ≤ maxDepth → ∀ c1, KeyAt b c c1 → Tells Q (kd c1 (depth + 1)).2)
    (hdk : depth + 1 ≤ maxDepth → ∀ c v c', kd c (depth + 1) = (v, .ok c') → ValueAt b c c')
    (hv : depth + 1 ≤ maxDepth → ∀ c1 c2, EntryAt b c c1 → ValueAt b c1 c2 → Tells Q (vd c2 (depth + 1)).2)
    (hvk : depth + 1 ≤ maxDepth → ∀ c v c', vd c (depth + 1) = (v, .ok c') → ValueAt b c c') :
    Tells Q (mapDecode kd vd b c depth rv).2 := by
  unfold mapDecode
  refine tells_dite (fun _ => tells_err (hQ _ (by no_type))) fun _ => ?_
  refine tells_dite (fun _ => tells_err (hQ _ (by no_type))) fun hdp => tells_onOk tells_idx fun x hx => ?_
  refine tells_dite (fun _ => tells_onOk (validateNull_q hQ) fun _ _ => tells_ok) fun _ => ?_
  refine tells_onOk (header_q hQ (by no_type)) fun c1 h1 => tells_onOk (readLength_q hQ) ?_
  rintro ⟨len, c2⟩ hl
  dsimp only
  refine tells_dite (fun _ => tells_err (hQ _ (by no_type))) fun _ => tells_onOk tells_idx fun y hy => ?_
  refine tells_dite (fun _ => tells_err (hQ _ (by no_type))) fun hyb => ?_
  have hyb : y = cLBrace := by simpa using hyb
  subst hyb
  have hdp : depth + 1 ≤ maxDepth := by omega
  obtain ⟨ds, m, hm, -, hdr, he⟩ := readLength_sound hl
  cases mapEntries rv with
  | none => exact tells_panic
  | some es =>
    dsimp only
    refine tells_dite (fun _ => tells_err (hQ _ (by no_type))) fun _ => tells_onOk tells_idx fun z hz => ?_
    refine tells_dite (fun _ => tells_ok) fun hne => ?_
    exact mapLoop_q hQ (hd hdp) (hdk hdp) (hv hdp) (hvk hdp) _ _ _ ⟨.first (head_of hb hx h1 hm.1 hdr he hy), not_brace hz hne⟩

theorem ptrDecode_q (hQ : Untyped Q) {inner : Nat → Nat → Val → DR} {z rv : Val} (hi : ∀ v, Tells Q (inner c depth v).2) :
    Tells Q (ptrDecode inner z b c depth rv).2 := by
  unfold ptrDecode
  refine tells_onOk tells_idx fun x hx => ?_
  refine tells_dite (fun _ => tells_onOk (validateNull_q hQ) fun _ _ => tells_ok) fun _ => ?_
  split
  · exact hi _
  · exact hi _
  · exact tells_panic

theorem ptrKeyDecode_q (hQ : Untyped Q) {x : DR} (hi : Tells Q x.2) : Tells Q (ptrKeyDecode x b c).2 := by
  unfold ptrKeyDecode
  refine tells_onOk tells_idx fun x hx => ?_
  refine tells_dite (fun _ => tells_onOk (validateNull_q hQ) fun _ _ => tells_ok) fun _ => ?_
  exact tells_onOk hi fun _ _ => tells_panic

end Verif

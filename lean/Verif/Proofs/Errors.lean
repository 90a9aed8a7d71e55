import Verif.Spec.Errors
import Verif.Model.ErrText
import Verif.Proofs.Alloc
/-
Where errors point. One predicate on errors is carried through every function of the decoder.
-/
namespace Verif
open Spec

variable {b : Bytes} {Q : Err → Prop} {c depth : Nat}

/-- Fixed words in a message: at most 40 printable ASCII characters. -/
def Phrase (w : String) : Prop := (lit w).length ≤ 40 ∧ ∀ c ∈ w.toList, 32 ≤ c.toNat ∧ c.toNat < 127

instance (w : String) : Decidable (Phrase w) := by unfold Phrase; infer_instance

/-- The contents of `e` are fixed words, numbers that fit into 64 bits, or parts of `b`. -/
def Worded (b : Bytes) : Err → Prop
  | .syntaxErr (.lit w) _ | .unexpectedStart w _ _ | .unexpectedEnd w _ | .unexpected w _ _ | .invalidChar _ w _ | .typeError (.lit w) _ _ => Phrase w
  | .syntaxErr (.strconv fn t) _ => Phrase fn ∧ t <:+: b
  | .typeError (.number t) _ _ => t <:+: b
  | .syntaxErr (.number _) _ | .typeError (.strconv _ _) _ _ => False
  | .overflow (.int i) _ => -2 ^ 63 ≤ i ∧ i < 2 ^ 63
  | .overflow (.uint n) _ => n < 2 ^ 64
  | _ => True

/-- `e` speaks of a position of `b` and shows the byte there, with three exceptions; its words are fixed or parts of `b`. -/
def Told (b : Bytes) (e : Err) : Prop :=
  (Located b e ∨ ∃ o, e = .unexpectedEnd "class name" o) ∧
  (Shows b e ∨ (∃ (x : Byte) (w : String) (n k : Nat), k ≤ 2 ∧ e = .invalidChar x w n ∧ b[n + k]? = some x) ∨ ∃ o, e = .maxDepth 97 o) ∧
  Worded b e

/-- Every error of the outcome meets `Q`. -/
def Tells (Q : Err → Prop) {α} (r : Res α) : Prop := ∀ e, r = .err e → Q e

theorem tells_bind {α β} {r : Res α} {f : α → Res β} (h : Tells Q r) (hf : ∀ a, r = .ok a → Tells Q (f a)) : Tells Q (r >>= f) := by
  intro e he
  cases r with
  | ok a => exact hf a rfl e he
  | err e' => cases he; exact h _ rfl
  | panic p => cases he
  | diverge => cases he

theorem tells_onOk {α} {r : Res α} {rv : Val} {f : α → DR} (h : Tells Q r) (hf : ∀ a, r = .ok a → Tells Q (f a).2) :
    Tells Q (onOk rv r f).2 := by
  intro e he
  cases r with
  | ok a => exact hf a rfl e he
  | err e' => cases he; exact h _ rfl
  | panic p => cases he
  | diverge => cases he

theorem tells_ok {α} {a : α} : Tells Q (Res.ok a) := by intro e he; cases he
theorem tells_panic {α} {p : Panic} : Tells Q (Res.panic p : Res α) := by intro e he; cases he
theorem tells_diverge {α} : Tells Q (Res.diverge : Res α) := by intro e he; cases he
theorem tells_err {α} {e : Err} (h : Q e) : Tells Q (Res.err e : Res α) := by intro e he; cases he; exact h

theorem tells_ite {α} {p : Prop} [Decidable p] {x y : Res α} (h1 : p → Tells Q x) (h2 : ¬ p → Tells Q y) : Tells Q (if p then x else y) := by
  split
  · exact h1 ‹_›
  · exact h2 ‹_›

theorem tells_dite {p : Prop} [Decidable p] {x y : DR} (h1 : p → Tells Q x.2) (h2 : ¬ p → Tells Q y.2) : Tells Q (if p then x else y).2 := by
  split
  · exact h1 ‹_›
  · exact h2 ‹_›

theorem tells_idx {i : Nat} : Tells Q (idx b i) := by
  intro e he; unfold idx at he; split at he <;> cases he

theorem tells_sub {i j : Nat} : Tells Q (sub b i j) := by
  intro e he; unfold sub at he; split at he <;> cases he

/-! ### The errors -/

theorem told_end {w : String} {o : Int} {n : Nat} (ho : o = n) (h : n ≤ b.length) (hw : Phrase w := by decide) : Told b (.unexpectedEnd w o) :=
  ⟨.inl (by intro o' h'; cases h'; omega), .inl (by intro x h'; cases h'), hw⟩
theorem told_class {o : Int} : Told b (.unexpectedEnd "class name" o) := ⟨.inr ⟨o, rfl⟩, .inl (by intro x h'; cases h'), show Phrase _ by decide⟩
theorem told_syntax {w : String} {o : Int} {n : Nat} (ho : o = n) (h : n ≤ b.length) (hw : Phrase w := by decide) : Told b (.syntaxErr w o) :=
  ⟨.inl (by intro o' h'; cases h'; omega), .inl (by intro x h'; cases h'), hw⟩
theorem told_strconv {w : String} {t : Bytes} {o : Int} {n : Nat} (ho : o = n) (h : n ≤ b.length) (ht : t <:+: b) (hw : Phrase w := by decide) :
    Told b (.syntaxErr (.strconv w t) o) :=
  ⟨.inl (by intro o' h'; cases h'; omega), .inl (by intro x h'; cases h'), hw, ht⟩
theorem told_array_depth {o : Int} {n : Nat} (ho : o = n) (h : n ≤ b.length) : Told b (.maxDepth 97 o) :=
  ⟨.inl (by intro o' h'; cases h'; omega), .inr (.inr ⟨o, rfl⟩), trivial⟩
theorem told_type {w : String} {o : Int} {n : Nat} (ho : o = n) (h : n ≤ b.length) (hw : Phrase w := by decide) : Told b (.typeError w o) :=
  ⟨.inl (by intro o' h'; cases h'; omega), .inl (by intro x h'; cases h'), hw⟩
theorem told_number {t : Bytes} {o : Int} {n : Nat} (ho : o = n) (h : n ≤ b.length) (ht : t <:+: b) : Told b (.typeError (.number t) o) :=
  ⟨.inl (by intro o' h'; cases h'; omega), .inl (by intro x h'; cases h'), ht⟩
theorem told_char {w : String} {x : Byte} {o : Int} {n : Nat} (k : Nat) (ho : o = n) (hk : k ≤ 2) (h : idx b (n + k) = .ok x) (hw : Phrase w := by decide) :
    Told b (.invalidChar x w o) := by
  have hx := idx_ok_iff.1 h
  have := (List.getElem?_eq_some_iff.1 hx).1
  exact ⟨.inl (by intro o' h'; cases h'; omega), .inr (.inl ⟨x, w, n, k, hk, by rw [ho], hx⟩), hw⟩
theorem told_overflow {v : Over} {t : Ty} (h : Worded b (.overflow v t)) : Told b (.overflow v t) :=
  ⟨.inl (by intro o h; cases h), .inl (by intro o h; cases h), h⟩
theorem told_unsupported {w : String} : Told b (.unsupported w) := ⟨.inl (by intro o h; cases h), .inl (by intro o h; cases h), trivial⟩
theorem told_unexpected {w : String} {x : Byte} {o : Int} {n : Nat} (ho : o = n) (h : idx b n = .ok x) (hw : Phrase w := by decide) :
    Told b (.unexpected w o x) := by
  have hx := idx_ok_iff.1 h
  have := (List.getElem?_eq_some_iff.1 hx).1
  exact ⟨.inl (by intro o' h'; cases h'; omega), .inl (by intro y h'; cases h'; exact ⟨n, by rw [ho]; rfl, hx⟩), hw⟩
theorem told_start {w : String} {x : Byte} {o : Int} {n : Nat} (ho : o = n) (h : idx b n = .ok x) (hw : Phrase w := by decide) :
    Told b (.unexpectedStart w o x) := by
  have hx := idx_ok_iff.1 h
  have := (List.getElem?_eq_some_iff.1 hx).1
  exact ⟨.inl (by intro o' h'; cases h'; omega), .inl (by intro y h'; cases h'; exact ⟨n, by rw [ho]; rfl, hx⟩), hw⟩
theorem told_depth {o : Int} {n : Nat} (ho : o = n) (h : ¬ (!hasByte b n) = true) : Told b (.maxDepth (byteAt b n) o) := by
  have hn : n < b.length := by simpa [hasByte] using h
  exact ⟨.inl (by intro o' h'; cases h'; omega),
    .inl (by intro y h'; cases h'; exact ⟨n, by rw [ho]; rfl, by simp [byteAt, List.getElem?_eq_getElem hn]⟩), trivial⟩
theorem told_value {x : Byte} {o : Int} {n : Nat} (ho : o = n) (h : idx b n = .ok x) : Told b (.beginValue x o) := by
  have hx := idx_ok_iff.1 h
  have := (List.getElem?_eq_some_iff.1 hx).1
  exact ⟨.inl (by intro o' h'; cases h'; omega), .inl (by intro y h'; cases h'; exact ⟨n, by rw [ho]; rfl, hx⟩), trivial⟩
theorem told_array {x : Byte} {o : Int} {n : Nat} (ho : o = n) (h : idx b n = .ok x) : Told b (.beginArray x o) := by
  have hx := idx_ok_iff.1 h
  have := (List.getElem?_eq_some_iff.1 hx).1
  exact ⟨.inl (by intro o' h'; cases h'; omega), .inl (by intro y h'; cases h'; exact ⟨n, by rw [ho]; rfl, hx⟩), trivial⟩

/-! ### Parts of the input -/

theorem at_infix {c' : Nat} {d : Doc} {t : Bytes} (h : At b c d c') (ht : t <:+: d.text) : t <:+: b :=
  ht.trans ((List.prefix_append _ _).isInfix.trans (h.1 ▸ (List.drop_suffix c b).isInfix))

theorem intBytes_infix {t : Bytes} {c' : Nat} (h : intBytes b c = .ok (some t, c')) : t <:+: b := by
  rcases intBytes_iff.1 h with ⟨h, -⟩ | ⟨_, h, -, ha⟩ <;> cases h
  exact at_infix ha ⟨[105, 58], [59], by simp [Doc.text]⟩

theorem floatBytes_infix {t : Bytes} {c' : Nat} (h : floatBytes b c = .ok (some t, c')) : t <:+: b := by
  rcases floatBytes_iff.1 h with ⟨h, -⟩ | ⟨_, h, -, -, ha⟩ <;> cases h
  exact at_infix ha ⟨[100, 58], [59], by simp [Doc.text]⟩

theorem stringBytes_infix (hb : b.length < 2 ^ 63) {t : Bytes} {c' : Nat} (h : stringBytes b c = .ok (some t, c')) : t <:+: b := by
  rcases (stringBytes_iff hb).1 h with ⟨h, -⟩ | ⟨l, _, h, -, ha⟩ <;> cases h
  exact at_infix ha ⟨115 :: 58 :: (l ++ [58, 34]), [34, 59], by simp [Doc.text]⟩

/-! ### Reading -/

theorem lt_of_idx {x : Byte} {n : Nat} (h : idx b n = .ok x) : n < b.length :=
  (List.getElem?_eq_some_iff.1 (idx_ok_iff.1 h)).1

theorem skipLen_tells (hQ : ∀ e, Told b e → Q e) (hc : c ≤ b.length) : Tells Q (skipLengthWithBothColon b c) := by
  unfold skipLengthWithBothColon
  refine tells_ite (fun _ => tells_err (hQ _ (told_end rfl hc))) fun _ => ?_
  refine tells_bind tells_idx fun x hx => ?_
  refine tells_ite (fun _ => tells_err (hQ _ (told_unexpected rfl hx))) fun _ => ?_
  have := lt_of_idx hx
  have hs := scanDigits_le (b := b) (c := c + 1) (by omega)
  dsimp only
  refine tells_ite (fun _ => tells_err (hQ _ (told_syntax rfl hs))) fun _ => ?_
  refine tells_ite (fun _ => tells_err (hQ _ (told_end rfl hs))) fun _ => ?_
  refine tells_bind tells_idx fun y hy => ?_
  refine tells_ite (fun _ => tells_err (hQ _ (told_unexpected rfl hy))) fun _ => tells_ok

theorem skipLen_le {c' : Nat} (h : skipLengthWithBothColon b c = .ok c') : c + 2 ≤ c' ∧ c' ≤ b.length := by
  obtain ⟨ds, h1, h2, h3⟩ := skipLen_sound h
  have := len_of_drop h2
  simp only [List.length_cons, List.length_append, List.length_drop] at this
  omega

theorem readLength_tells (hQ : ∀ e, Told b e → Q e) (hc : c ≤ b.length) : Tells Q (readLength b c) := by
  unfold readLength
  refine tells_bind (skipLen_tells hQ hc) fun e he => ?_
  have := skipLen_le he
  refine tells_bind tells_sub fun t _ => ?_
  cases parseInt64 t with
  | ok n => exact tells_ite (fun _ => tells_err (hQ _ (told_syntax (n := c + 1) rfl (by omega)))) fun _ => tells_ok
  | err e => exact tells_err (hQ _ (told_syntax (n := c + 1) rfl (by omega)))
  | panic p => exact tells_panic
  | diverge => exact tells_diverge

theorem readLength_le {n : Int} {c' : Nat} (h : readLength b c = .ok (n, c')) : c + 2 ≤ c' ∧ c' ≤ b.length := by
  obtain ⟨ds, m, -, -, h2, h3⟩ := readLength_sound h
  have := len_of_drop h2
  simp only [List.length_cons, List.length_append, List.length_drop] at this
  omega

theorem has_of_not {c n : Int} (h : ¬ ((!hasBytes b c n) = true)) : 0 ≤ c ∧ 0 ≤ n ∧ c ≤ (b.length : Int) - n := by
  simpa [hasBytes] using h

theorem skipClassName_tells (hQ : ∀ e, Told b e → Q e) (hc : c ≤ b.length) : Tells Q (skipClassName b c) := by
  unfold skipClassName
  refine tells_ite (fun _ => tells_err (hQ _ (told_end rfl hc))) fun _ => ?_
  refine tells_bind tells_idx fun x hx => ?_
  refine tells_ite (fun _ => tells_err (hQ _ (told_end rfl hc))) fun _ => ?_
  have := lt_of_idx hx
  refine tells_bind (readLength_tells hQ (by omega)) ?_
  rintro ⟨n, st⟩ hn
  dsimp only
  refine tells_ite (fun _ => tells_err (hQ _ told_class)) fun _ => ?_
  refine tells_bind tells_idx fun y hy => ?_
  refine tells_ite (fun _ => tells_err (hQ _ told_class)) fun _ => ?_
  generalize wrap64 (st + n + 1) = e
  refine tells_ite (fun _ => tells_err (hQ _ told_class)) fun hh => ?_
  have := has_of_not hh
  refine tells_bind tells_idx fun z hz => ?_
  refine tells_ite (fun _ => tells_err (hQ _ (told_unexpected (by omega) hz))) fun _ => ?_
  refine tells_bind tells_idx fun u hu => ?_
  exact tells_ite (fun _ => tells_err (hQ _ (told_unexpected (by omega) hu))) fun _ => tells_ok

theorem readString_tells (hQ : ∀ e, Told b e → Q e) (hc : c ≤ b.length) : Tells Q (readString b c) := by
  unfold readString
  refine tells_bind (readLength_tells hQ hc) ?_
  rintro ⟨n, e⟩ hn
  have := readLength_le hn
  dsimp only
  refine tells_ite (fun _ => tells_err (hQ _ (told_end rfl this.2))) fun _ => ?_
  refine tells_bind tells_idx fun x hx => ?_
  refine tells_ite (fun _ => tells_err (hQ _ (told_unexpected rfl hx))) fun _ => ?_
  have := lt_of_idx hx
  refine tells_ite (fun _ => tells_err (hQ _ (told_end (n := e + 1) rfl (by omega)))) fun _ => ?_
  refine tells_bind tells_idx fun y hy => ?_
  refine tells_ite (fun _ => tells_err (hQ _ (told_unexpected rfl hy))) fun _ => ?_
  refine tells_bind tells_idx fun z hz => ?_
  refine tells_ite (fun _ => tells_err (hQ _ (told_unexpected rfl hz))) fun _ => ?_
  exact tells_bind tells_sub fun _ _ => tells_ok

theorem readIntegerBytes_tells (hQ : ∀ e, Told b e → Q e) (hc : c ≤ b.length) : Tells Q (readIntegerBytes b c) := by
  unfold readIntegerBytes
  refine tells_ite (fun _ => tells_err (hQ _ (told_end rfl hc))) fun _ => ?_
  refine tells_bind tells_idx fun x hx => ?_
  refine tells_ite (fun _ => tells_err (hQ _ (told_unexpected rfl hx))) fun _ => ?_
  refine tells_ite (fun _ => tells_err (hQ _ (told_end rfl hc))) fun hh => ?_
  have := has_of_not hh
  refine tells_bind tells_idx fun y hy => ?_
  refine tells_ite (fun _ => tells_err (hQ _ (told_unexpected (by omega) hy))) fun _ => ?_
  dsimp only
  refine tells_bind tells_idx fun z hz => ?_
  have hs := scanDigits_le (b := b) (c := if z = cMinus then c + 2 + 1 else c + 2) (by split <;> omega)
  refine tells_ite (fun _ => tells_err (hQ _ (told_syntax rfl hs))) fun _ => ?_
  refine tells_ite (fun _ => tells_err (hQ _ (told_end rfl hs))) fun _ => ?_
  refine tells_bind tells_idx fun u hu => ?_
  refine tells_ite (fun _ => tells_err (hQ _ (told_unexpected rfl hu))) fun _ => ?_
  exact tells_bind tells_sub fun _ _ => tells_ok

theorem readIntegerBytes_le {t : Bytes} {c' : Nat} (h : readIntegerBytes b c = .ok (t, c')) : c + 3 ≤ c' ∧ c' ≤ b.length := by
  obtain ⟨-, h2, h3⟩ := readIntegerBytes_sound h
  have := len_of_drop h2
  simp only [List.length_cons, List.length_append, List.length_drop] at this
  omega

theorem readFloatBytes_tells (hQ : ∀ e, Told b e → Q e) (hc : c ≤ b.length) : Tells Q (readFloatBytes b c) := by
  unfold readFloatBytes
  refine tells_ite (fun _ => tells_err (hQ _ (told_end rfl hc))) fun _ => ?_
  refine tells_bind tells_idx fun x hx => ?_
  refine tells_ite (fun _ => tells_err (hQ _ (told_unexpected rfl hx))) fun _ => ?_
  refine tells_ite (fun _ => tells_err (hQ _ (told_end rfl hc))) fun hh => ?_
  have := has_of_not hh
  refine tells_bind tells_idx fun y hy => ?_
  refine tells_ite (fun _ => tells_err (hQ _ (told_unexpected (by omega) hy))) fun _ => ?_
  dsimp only
  have hs := scanToSemi_le (b := b) (c := c + 2) (by omega)
  refine tells_ite (fun _ => tells_err (hQ _ (told_syntax rfl hs))) fun _ => ?_
  refine tells_ite (fun _ => tells_err (hQ _ (told_end rfl hs))) fun _ => ?_
  exact tells_bind tells_sub fun _ _ => tells_ok

theorem readBool_tells (hQ : ∀ e, Told b e → Q e) (hc : c ≤ b.length) : Tells Q (readBool b c) := by
  unfold readBool
  refine tells_ite (fun _ => tells_err (hQ _ (told_end rfl hc))) fun hh => ?_
  have := has_of_not hh
  refine tells_bind tells_idx fun x hx => ?_
  refine tells_ite (fun _ => tells_err (hQ _ (told_char 0 rfl (by omega) hx))) fun _ => ?_
  refine tells_bind tells_idx fun x hx => ?_
  refine tells_ite (fun _ => tells_err (hQ _ (told_char 1 rfl (by omega) hx))) fun _ => ?_
  refine tells_bind tells_idx fun x hx => ?_
  refine tells_ite (fun _ => tells_err (hQ _ (told_char 2 rfl (by omega) hx))) fun _ => ?_
  dsimp only
  refine tells_bind tells_idx fun x hx => ?_
  exact tells_ite (fun _ => tells_err (hQ _ (told_char (n := c + 3) 0 rfl (by omega) hx))) fun _ => tells_ok

theorem validateNull_tells (hQ : ∀ e, Told b e → Q e) (hc : c ≤ b.length) : Tells Q (validateNull b c) := by
  unfold validateNull
  refine tells_ite (fun _ => tells_err (hQ _ (told_end rfl hc))) fun hh => ?_
  refine tells_bind tells_idx fun x hx => ?_
  exact tells_ite (fun _ => tells_err (hQ _ (told_char 1 rfl (by omega) hx))) fun _ => tells_ok

theorem validateEmptyArray_tells (hQ : ∀ e, Told b e → Q e) (hc : c ≤ b.length) : Tells Q (validateEmptyArray b c) := by
  unfold validateEmptyArray
  refine tells_ite (fun _ => tells_err (hQ _ (told_end rfl hc))) fun hh => ?_
  refine tells_bind tells_idx fun x hx => ?_
  refine tells_ite (fun _ => tells_err (hQ _ (told_unexpected rfl hx))) fun _ => ?_
  refine tells_bind tells_idx fun x hx => ?_
  refine tells_ite (fun _ => tells_err (hQ _ (told_array rfl hx))) fun _ => ?_
  refine tells_bind tells_idx fun x hx => ?_
  exact tells_ite (fun _ => tells_err (hQ _ (told_unexpected rfl hx))) fun _ => tells_ok

theorem readInt_tells (hQ : ∀ e, Told b e → Q e) (hc : c ≤ b.length) : Tells Q (readInt b c) := by
  unfold readInt
  refine tells_bind (readIntegerBytes_tells hQ hc) ?_
  rintro ⟨t, e⟩ he
  have := readIntegerBytes_le he
  dsimp only
  cases parseInt64 t with
  | ok n => exact tells_ite (fun _ => tells_err (hQ _ (told_syntax (n := c + 2) rfl (by omega)))) fun _ => tells_ok
  | err e => exact tells_err (hQ _ (told_syntax (n := c + 2) rfl (by omega)))
  | panic p => exact tells_panic
  | diverge => exact tells_diverge

/-! ### Skipping -/

theorem skipPairs_tells {skip : Nat → Res Nat} (hs : ∀ c, c ≤ b.length → Tells Q (skip c)) (hp : ∀ c c', skip c = .ok c' → c' ≤ b.length)
    {n c : Nat} (hc : c ≤ b.length) : Tells Q (skipPairs skip n c) := by
  induction n generalizing c with
  | zero => exact tells_ok
  | succ n ih =>
    unfold skipPairs
    exact tells_bind (hs c hc) fun c1 h1 => tells_bind (hs c1 (hp _ _ h1)) fun c2 h2 => ih (hp _ _ h2)

theorem skipPairs_le {skip : Nat → Res Nat} (hp : ∀ c c', skip c = .ok c' → c' ≤ b.length) {n c c' : Nat} (hc : c ≤ b.length)
    (h : skipPairs skip n c = .ok c') : c' ≤ b.length := by
  induction n generalizing c with
  | zero => unfold skipPairs at h; cases h; exact hc
  | succ n ih =>
    unfold skipPairs at h
    simp only [Res.bind_eq_ok] at h
    obtain ⟨c1, h1, c2, h2, h3⟩ := h
    exact ih (hp _ _ h2) h3

theorem skipArray_tells (hQ : ∀ e, Told b e → Q e) {skip : Nat → Res Nat} (hs : depth ≤ maxDepth → ∀ c, c ≤ b.length → Tells Q (skip c))
    (hp : depth ≤ maxDepth → ∀ c c', skip c = .ok c' → c' ≤ b.length) (hc : c ≤ b.length) : Tells Q (skipArray skip b c depth) := by
  unfold skipArray
  refine tells_ite (fun _ => tells_err (hQ _ (told_array_depth rfl hc))) fun hd => ?_
  have hd : depth ≤ maxDepth := by omega
  refine tells_bind (readLength_tells hQ hc) ?_
  rintro ⟨n, e⟩ hn
  have := readLength_le hn
  dsimp only
  refine tells_ite (fun _ => tells_err (hQ _ (told_end rfl this.2))) fun _ => ?_
  refine tells_bind tells_idx fun x hx => ?_
  refine tells_ite (fun _ => tells_err (hQ _ (told_array rfl hx))) fun _ => ?_
  have := lt_of_idx hx
  refine tells_bind (skipPairs_tells (hs hd) (hp hd) (by omega)) fun c1 h1 => ?_
  have := skipPairs_le (hp hd) (by omega) h1
  refine tells_ite (fun _ => tells_err (hQ _ (told_end rfl this))) fun _ => ?_
  refine tells_bind tells_idx fun y hy => ?_
  exact tells_ite (fun _ => tells_err (hQ _ (told_unexpected rfl hy))) fun _ => tells_ok

theorem skipValueF_tells (hQ : ∀ e, Told b e → Q e) (hb : b.length < 2 ^ 63) {f c depth : Nat} (hc : c ≤ b.length) (hd : depth ≤ maxDepth) :
    Tells Q (skipValueF f b c depth) := by
  induction f generalizing c depth with
  | zero => exact tells_diverge
  | succ f ih =>
    unfold skipValueF
    refine tells_ite (fun _ => tells_err (hQ _ (told_end rfl hc))) fun _ => ?_
    refine tells_bind tells_idx fun x hx => ?_
    have := lt_of_idx hx
    have hp : depth + 1 ≤ maxDepth → ∀ c c', skipValueF f b c (depth + 1) = .ok c' → c' ≤ b.length := by
      intro h c c' h1
      obtain ⟨doc, -, hat⟩ := skipValueF_sound hb h1
      have hat : At b c doc c' := hat
      exact hat.le
    refine tells_ite (fun _ => ?_) fun _ => ?_
    · refine tells_bind (skipClassName_tells hQ hc) fun e he => ?_
      obtain ⟨ds, cls, -, -, ⟨r, hr⟩, -⟩ := skipClassName_sound hb he
      have := lt_of_drop_cons hr
      exact skipArray_tells hQ (fun h c hc => ih hc h) hp (by omega)
    refine tells_ite (fun _ => skipArray_tells hQ (fun h c hc => ih hc h) hp (by omega)) fun _ => ?_
    refine tells_ite (fun _ => ?_) fun _ => ?_
    · unfold skipString
      refine tells_ite (fun _ => tells_err (hQ _ (told_end rfl hc))) fun _ => ?_
      refine tells_bind tells_idx fun y hy => ?_
      refine tells_ite (fun _ => tells_err (hQ _ (told_end rfl hc))) fun _ => ?_
      exact tells_bind (readString_tells hQ (by omega)) fun _ _ => tells_ok
    refine tells_ite (fun _ => tells_bind (readFloatBytes_tells hQ hc) fun _ _ => tells_ok) fun _ => ?_
    refine tells_ite (fun _ => tells_bind (readIntegerBytes_tells hQ hc) fun _ _ => tells_ok) fun _ => ?_
    refine tells_ite (fun _ => tells_bind (readBool_tells hQ hc) fun _ _ => tells_ok) fun _ => ?_
    refine tells_ite (fun _ => tells_bind (validateNull_tells hQ hc) fun _ _ => tells_ok) fun _ => ?_
    exact tells_err (hQ _ (told_value rfl hx))

theorem skipValue_tells (hQ : ∀ e, Told b e → Q e) (hb : b.length < 2 ^ 63) (hc : c ≤ b.length) (hd : depth ≤ maxDepth) :
    Tells Q (skipValue b c depth) := skipValueF_tells hQ hb hc hd

/-! ### Decoding -/

/-- Errors of the user's methods, given parts of `b` and after `annotateError`, meet `Q`. -/
structure UserTells (W : World) (b : Bytes) (Q : Err → Prop) : Prop where
  unm : ∀ id src e c, src.length ≤ b.length → c ≤ b.length → W.unmarshal id src = .err e → Q (annotate c e)
  dyn : ∀ t v src v' e, src.length ≤ b.length → W.unmarshalDyn t v src = (v', .err e) → Q e

theorem tells_wrap {x : DR} {rv : Val} (g : Val → Val) (h : Tells Q x.2) :
    Tells Q (match x with | (v, r) => onOk rv r fun c => (g v, .ok c)).2 := tells_onOk h fun _ _ => tells_ok

theorem intBytes_tells (hQ : ∀ e, Told b e → Q e) (hc : c ≤ b.length) : Tells Q (intBytes b c) := by
  unfold intBytes
  refine tells_ite (fun _ => tells_err (hQ _ (told_end rfl hc))) fun _ => ?_
  refine tells_bind tells_idx fun x hx => ?_
  refine tells_ite (fun _ => tells_bind (validateNull_tells hQ hc) fun _ _ => tells_ok) fun _ => ?_
  exact tells_bind (readIntegerBytes_tells hQ hc) fun _ _ => tells_ok

theorem intBytes_end {ob : Option Bytes} {c' : Nat} (h : intBytes b c = .ok (ob, c')) : c' ≤ b.length := by
  rcases intBytes_iff.1 h with ⟨-, h⟩ | ⟨_, -, -, h⟩ <;> exact h.le

theorem processInt_tells (hQ : ∀ e, Told b e → Q e) (hc : c ≤ b.length) {k : IKind} {t : Bytes} {rv : Val} (ht : t <:+: b) : Tells Q (processInt k t c rv).2 := by
  unfold processInt
  cases hp : parseInt64 t with
  | ok n => exact tells_dite (fun _ => tells_err (hQ _ (told_overflow (parseInt64_ok_iff.1 hp).2))) fun _ => tells_ok
  | err e => exact tells_err (hQ _ (told_number rfl hc ht))
  | panic p => exact tells_panic
  | diverge => exact tells_diverge

theorem processUint_tells (hQ : ∀ e, Told b e → Q e) (hc : c ≤ b.length) {k : UKind} {t : Bytes} {rv : Val} (ht : t <:+: b) : Tells Q (processUint k t c rv).2 := by
  unfold processUint
  cases hp : parseUint t with
  | some n => exact tells_dite (fun _ => tells_err (hQ _ (told_overflow (parseUint_iff.1 hp).2.2))) fun _ => tells_ok
  | none => exact tells_err (hQ _ (told_number rfl hc ht))

theorem processFloat_tells (hQ : ∀ e, Told b e → Q e) (hc : c ≤ b.length) {W : World} {k : Bool} {t : Bytes} {rv : Val} (ht : t <:+: b) :
    Tells Q (processFloat W k t c rv).2 := by
  unfold processFloat
  cases floatOfText W t with
  | some n => exact tells_dite (fun _ => tells_dite (fun _ => tells_err (hQ _ (told_overflow trivial))) fun _ => tells_ok) fun _ => tells_ok
  | none => exact tells_err (hQ _ (told_strconv rfl hc ht))

theorem intDecode_tells (hQ : ∀ e, Told b e → Q e) (hc : c ≤ b.length) {k : IKind} {rv : Val} : Tells Q (intDecode k b c rv).2 := by
  unfold intDecode
  refine tells_onOk (intBytes_tells hQ hc) ?_
  rintro ⟨ob, c'⟩ h
  cases ob with
  | none => exact tells_ok
  | some t => exact processInt_tells hQ (intBytes_end h) (intBytes_infix h)

theorem uintDecode_tells (hQ : ∀ e, Told b e → Q e) (hc : c ≤ b.length) {k : UKind} {rv : Val} : Tells Q (uintDecode k b c rv).2 := by
  unfold uintDecode
  refine tells_onOk (intBytes_tells hQ hc) ?_
  rintro ⟨ob, c'⟩ h
  cases ob with
  | none => exact tells_ok
  | some t => exact processUint_tells hQ (intBytes_end h) (intBytes_infix h)

theorem floatDecode_tells (hQ : ∀ e, Told b e → Q e) (hc : c ≤ b.length) {W : World} {k : Bool} {rv : Val} : Tells Q (floatDecode W k b c rv).2 := by
  unfold floatDecode
  refine tells_onOk ?_ ?_
  · unfold floatBytes
    refine tells_ite (fun _ => tells_err (hQ _ (told_end rfl hc))) fun _ => ?_
    refine tells_bind tells_idx fun x hx => ?_
    refine tells_ite (fun _ => tells_bind (validateNull_tells hQ hc) fun _ _ => tells_ok) fun _ => ?_
    refine tells_ite (fun _ => tells_bind (readFloatBytes_tells hQ hc) fun _ _ => tells_ok) fun _ => ?_
    exact tells_err (hQ _ (told_unexpected rfl hx))
  rintro ⟨ob, c'⟩ h
  cases ob with
  | none => exact tells_ok
  | some t =>
    refine processFloat_tells hQ ?_ (floatBytes_infix h)
    rcases floatBytes_iff.1 h with ⟨-, h⟩ | ⟨_, -, -, -, h⟩ <;> exact h.le

theorem boolDecode_tells (hQ : ∀ e, Told b e → Q e) (hc : c ≤ b.length) {rv : Val} : Tells Q (boolDecode b c rv).2 := by
  unfold boolDecode
  refine tells_dite (fun _ => tells_err (hQ _ (told_end rfl hc))) fun _ => ?_
  refine tells_onOk tells_idx fun x hx => ?_
  refine tells_dite (fun _ => tells_onOk (readBool_tells hQ hc) fun _ _ => tells_ok) fun _ => ?_
  refine tells_dite (fun _ => tells_onOk (validateNull_tells hQ hc) fun _ _ => tells_ok) fun _ => ?_
  exact tells_err (hQ _ (told_end rfl hc))

theorem stringBytes_tells (hQ : ∀ e, Told b e → Q e) (hc : c ≤ b.length) : Tells Q (stringBytes b c) := by
  unfold stringBytes
  refine tells_ite (fun _ => tells_err (hQ _ (told_end rfl hc))) fun _ => ?_
  refine tells_bind tells_idx fun x hx => ?_
  have := lt_of_idx hx
  refine tells_ite (fun _ => tells_bind (validateNull_tells hQ hc) fun _ _ => tells_ok) fun _ => ?_
  refine tells_ite (fun _ => tells_err (hQ _ (told_type rfl hc))) fun _ => ?_
  refine tells_ite (fun _ => tells_err (hQ _ (told_type rfl hc))) fun _ => ?_
  refine tells_ite (fun _ => tells_bind (readString_tells hQ (by omega)) fun _ _ => tells_ok) fun _ => ?_
  refine tells_ite (fun _ => tells_err (hQ _ (told_type rfl hc))) fun _ => ?_
  exact tells_err (hQ _ (told_value rfl hx))

theorem stringDecode_tells (hQ : ∀ e, Told b e → Q e) (hc : c ≤ b.length) {rv : Val} : Tells Q (stringDecode b c rv).2 := by
  unfold stringDecode
  refine tells_onOk (stringBytes_tells hQ hc) ?_
  rintro ⟨ob, c'⟩ h
  cases ob <;> exact tells_ok

theorem wrappedDecode_tells (hQ : ∀ e, Told b e → Q e) (hb : b.length < 2 ^ 63) (hc : c ≤ b.length) {W : World} {t : Ty} {rv : Val} :
    Tells Q (wrappedDecode W t b c rv).2 := by
  unfold wrappedDecode
  refine tells_onOk (stringBytes_tells hQ hc) ?_
  rintro ⟨ob, c'⟩ h
  cases ob with
  | none => exact tells_ok
  | some s =>
    have ht := stringBytes_infix hb h
    have : Tells Q (decodeString W t s c rv).2 := ?_
    · dsimp only
      generalize decodeString W t s c rv = x at this
      exact tells_onOk this fun _ _ => tells_ok
    unfold decodeString
    cases W.resolve t with
    | bool =>
      dsimp only
      cases parseBool s with
      | some v => exact tells_ok
      | none => exact tells_err (hQ _ (told_strconv rfl hc ht))
    | f32 => exact processFloat_tells hQ hc ht
    | f64 => exact processFloat_tells hQ hc ht
    | uint k => exact processUint_tells hQ hc ht
    | int k => exact processInt_tells hQ hc ht
    | _ => exact tells_err (hQ _ told_unsupported)

theorem wrappedDecode_le (hb : b.length < 2 ^ 63) {W : World} {t : Ty} {rv v : Val} {c' : Nat} (h : wrappedDecode W t b c rv = (v, .ok c')) :
    c' ≤ b.length := by
  simp only [wrappedDecode, onOk_ok] at h
  obtain ⟨⟨ob, e⟩, h1, h⟩ := h
  have := (stringBytes_progress hb h1).2
  cases ob with
  | none => cases h; exact this
  | some s =>
    simp only [onOk_ok] at h
    obtain ⟨_, _, h⟩ := h
    cases h; exact this

theorem ptrDecode_tells (hQ : ∀ e, Told b e → Q e) (hc : c ≤ b.length) {inner : Nat → Nat → Val → DR} {z rv : Val}
    (hi : c < b.length → ∀ v, Tells Q (inner c depth v).2) : Tells Q (ptrDecode inner z b c depth rv).2 := by
  unfold ptrDecode
  refine tells_onOk tells_idx fun x hx => ?_
  have := lt_of_idx hx
  refine tells_dite (fun _ => tells_onOk (validateNull_tells hQ hc) fun _ _ => tells_ok) fun _ => ?_
  cases rv with
  | ptrNil => exact hi this _
  | ptr v => exact hi this _
  | _ => exact tells_panic

theorem ptrDecode_le {inner : Nat → Nat → Val → DR} {z rv v : Val} {c' : Nat}
    (hi : ∀ rv v c', inner c depth rv = (v, .ok c') → c' ≤ b.length) (h : ptrDecode inner z b c depth rv = (v, .ok c')) : c' ≤ b.length := by
  simp only [ptrDecode, onOk_ok] at h
  obtain ⟨x, hx, h⟩ := h
  split at h
  · simp only [onOk_ok] at h
    obtain ⟨_, h1, h⟩ := h
    cases h
    simp only [validateNull, Res.bind_eq_ok, Res.ite_err_ok] at h1
    omega
  · cases rv with
    | ptrNil =>
      dsimp only at h
      generalize hx : inner c depth z = x at h
      obtain ⟨a, r⟩ := x
      simp only [Prod.mk.injEq] at h
      obtain ⟨-, rfl⟩ := h
      exact hi _ _ _ hx
    | ptr v =>
      dsimp only at h
      generalize hx : inner c depth v = x at h
      obtain ⟨a, r⟩ := x
      simp only [Prod.mk.injEq] at h
      obtain ⟨-, rfl⟩ := h
      exact hi _ _ _ hx
    | _ => cases h

theorem sliceLoop_tells (hQ : ∀ e, Told b e → Q e) {dec : Nat → Val → DR} {z : Val} {es : Nat}
    (hd : ∀ c v, c < b.length → Tells Q (dec c v).2) (hp : ∀ c v v' c', dec c v = (v', .ok c') → c' ≤ b.length)
    {f c : Nat} {slice : List Val} {rv : Val} (hc : c ≤ b.length) : Tells Q (sliceLoop dec z es b f c slice rv).2 := by
  induction f generalizing c slice rv with
  | zero => exact tells_diverge
  | succ f ih =>
    unfold sliceLoop
    refine tells_dite (fun _ => tells_err (hQ _ (told_end rfl hc))) fun _ => ?_
    refine tells_onOk (readInt_tells hQ hc) ?_
    rintro ⟨i, c1⟩ h1
    have hc1 : c1 ≤ b.length := by
      obtain ⟨t, -, -, h2, h3⟩ := readInt_sound h1
      have := len_of_drop h2
      simp only [List.length_cons, List.length_append, List.length_drop] at this
      omega
    dsimp only
    refine tells_dite (fun _ => tells_err (hQ _ (told_end rfl hc1))) fun hh => ?_
    have := lt_of_hasByte hh
    refine tells_dite (fun _ => tells_panic) fun _ => ?_
    generalize (if decide (i ≥ slice.length) then slice ++ List.replicate (i + 1 - slice.length) z else slice) = sl
    cases sl[i]? with
    | none => exact tells_panic
    | some v0 =>
      dsimp only
      have hg := hd c1 v0 this
      generalize hx : dec c1 v0 = x at hg ⊢
      obtain ⟨v, r⟩ := x
      refine tells_onOk hg fun c2 h2 => ?_
      dsimp only at h2
      subst h2
      have hc2 := hp _ _ _ _ hx
      refine tells_dite (fun _ => tells_err (hQ _ (told_end rfl hc2))) fun _ => ?_
      refine tells_onOk tells_idx fun y hy => ?_
      exact tells_dite (fun _ => tells_ok) fun _ => ih hc2

theorem sliceDecode_tells (hQ : ∀ e, Told b e → Q e) {dec : Nat → Nat → Val → DR} {z : Val} {es : Nat} {rv : Val}
    (hd : depth + 1 ≤ maxDepth → ∀ c v, c < b.length → Tells Q (dec c (depth + 1) v).2)
    (hp : depth + 1 ≤ maxDepth → ∀ c v v' c', dec c (depth + 1) v = (v', .ok c') → c' ≤ b.length) (hc : c ≤ b.length) :
    Tells Q (sliceDecode dec z es b c depth rv).2 := by
  unfold sliceDecode
  refine tells_dite (fun _ => tells_err (hQ _ (told_end rfl hc))) fun hh => ?_
  refine tells_dite (fun _ => tells_err (hQ _ (told_depth rfl hh))) fun hdp => ?_
  have hdp : depth + 1 ≤ maxDepth := by omega
  refine tells_onOk tells_idx fun x hx => ?_
  have := lt_of_idx hx
  refine tells_dite (fun _ => tells_onOk (validateNull_tells hQ hc) fun _ _ => tells_ok) fun _ => ?_
  refine tells_dite (fun _ => ?_) fun _ => ?_
  · refine tells_dite (fun _ => tells_err (hQ _ (told_end rfl (by omega)))) fun _ => ?_
    refine tells_onOk tells_idx fun y hy => ?_
    have := lt_of_idx hy
    refine tells_dite (fun _ => tells_err (hQ _ (told_unexpected rfl hy))) fun _ => ?_
    refine tells_dite (fun _ => tells_err (hQ _ (told_end rfl (by omega)))) fun _ => ?_
    refine tells_onOk tells_idx fun u hu => ?_
    refine tells_dite (fun _ => tells_onOk (validateEmptyArray_tells hQ (by omega)) fun _ _ => tells_ok) fun _ => ?_
    refine tells_onOk (readLength_tells hQ (by omega)) ?_
    rintro ⟨n, c1⟩ h1
    have := readLength_le h1
    dsimp only
    refine tells_dite (fun _ => tells_err (hQ _ (told_end rfl this.2))) fun _ => ?_
    refine tells_onOk tells_idx fun w hw => ?_
    have := lt_of_idx hw
    refine tells_dite (fun _ => tells_err (hQ _ (told_array rfl hw))) fun _ => ?_
    refine tells_dite (fun _ => tells_panic) fun _ => ?_
    exact sliceLoop_tells hQ (hd hdp) (hp hdp) (by omega)
  refine tells_dite (fun _ => tells_err (hQ _ (told_type rfl hc))) fun _ => ?_
  exact tells_err (hQ _ (told_end rfl hc))

theorem bytesDecode_tells (hQ : ∀ e, Told b e → Q e) {dec : Nat → Nat → Val → DR} {z : Val} {rv : Val}
    (hd : depth + 1 ≤ maxDepth → ∀ c v, c < b.length → Tells Q (dec c (depth + 1) v).2)
    (hp : depth + 1 ≤ maxDepth → ∀ c v v' c', dec c (depth + 1) v = (v', .ok c') → c' ≤ b.length) (hc : c ≤ b.length) :
    Tells Q (bytesDecode dec z b c depth rv).2 := by
  unfold bytesDecode
  refine tells_onOk tells_idx fun x hx => ?_
  refine tells_dite (fun _ => sliceDecode_tells hQ hd hp hc) fun _ => ?_
  refine tells_onOk (stringBytes_tells hQ hc) ?_
  rintro ⟨ob, c'⟩ h
  cases ob <;> exact tells_ok

theorem arrayLoop_tells (hQ : ∀ e, Told b e → Q e) {dec : Nat → Val → DR} {skip : Nat → Res Nat}
    (hd : ∀ c v, c < b.length → Tells Q (dec c v).2) (hp : ∀ c v v' c', dec c v = (v', .ok c') → c' ≤ b.length)
    (hs : ∀ c, c ≤ b.length → Tells Q (skip c)) (hsp : ∀ c c', skip c = .ok c' → c' ≤ b.length)
    {f c : Nat} {vs : List Val} (hc : c ≤ b.length) : Tells Q (arrayLoop dec skip b f c vs).2 := by
  induction f generalizing c vs with
  | zero => exact tells_diverge
  | succ f ih =>
    unfold arrayLoop
    refine tells_dite (fun _ => tells_err (hQ _ (told_end rfl hc))) fun _ => ?_
    refine tells_onOk (readInt_tells hQ hc) ?_
    rintro ⟨i, c1⟩ h1
    have hc1 : c1 ≤ b.length := by
      obtain ⟨t, -, -, h2, h3⟩ := readInt_sound h1
      have := len_of_drop h2
      simp only [List.length_cons, List.length_append, List.length_drop] at this
      omega
    dsimp only
    refine tells_dite (fun _ => tells_err (hQ _ (told_end rfl hc1))) fun hh => ?_
    have := lt_of_hasByte hh
    have key : ∀ (vs : List Val) (r : Res Nat), Tells Q r → (∀ c', r = .ok c' → c' ≤ b.length) →
        Tells Q (onOk (.arr vs) r fun c =>
          if !hasByte b c then (.arr vs, .err (.unexpectedEnd "array" c)) else
          onOk (.arr vs) (idx b c) fun x => if x = cRBrace then (.arr vs, .ok (c + 1)) else arrayLoop dec skip b f c vs).2 := by
      intro vs r hr hle
      refine tells_onOk hr fun c2 h2 => ?_
      have hc2 := hle _ h2
      refine tells_dite (fun _ => tells_err (hQ _ (told_end rfl hc2))) fun _ => ?_
      refine tells_onOk tells_idx fun y hy => ?_
      exact tells_dite (fun _ => tells_ok) fun _ => ih hc2
    cases vs[i]? with
    | none => exact key _ _ (hs _ hc1) fun c' h => hsp _ _ h
    | some v0 =>
      dsimp only
      have hg := hd c1 v0 this
      generalize hx : dec c1 v0 = x at hg ⊢
      obtain ⟨v, r⟩ := x
      exact key _ _ hg fun c' h => hp _ _ _ _ (by rw [hx]; dsimp only at h; rw [h])

theorem skip_le (hb : b.length < 2 ^ 63) {c' : Nat} (hd : depth ≤ maxDepth) (h : skipValue b c depth = .ok c') : c' ≤ b.length :=
  (skip_progress hb hd h).2

theorem arrayDecode_tells (hQ : ∀ e, Told b e → Q e) (hb : b.length < 2 ^ 63) {dec : Nat → Nat → Val → DR} {z : Val} {n : Nat} {rv : Val}
    (hd : depth + 1 ≤ maxDepth → ∀ c v, c < b.length → Tells Q (dec c (depth + 1) v).2)
    (hp : depth + 1 ≤ maxDepth → ∀ c v v' c', dec c (depth + 1) v = (v', .ok c') → c' ≤ b.length) (hc : c ≤ b.length) :
    Tells Q (arrayDecode dec z n b c depth rv).2 := by
  unfold arrayDecode
  refine tells_dite (fun _ => tells_err (hQ _ (told_end rfl hc))) fun hh => ?_
  refine tells_dite (fun _ => tells_err (hQ _ (told_depth rfl hh))) fun hdp => ?_
  have hdp : depth + 1 ≤ maxDepth := by omega
  refine tells_onOk tells_idx fun x hx => ?_
  have := lt_of_idx hx
  refine tells_dite (fun _ => tells_onOk (validateNull_tells hQ hc) fun _ _ => tells_ok) fun _ => ?_
  refine tells_dite (fun _ => ?_) fun _ => ?_
  · refine tells_dite (fun _ => tells_err (hQ _ (told_end rfl (by omega)))) fun _ => ?_
    refine tells_onOk tells_idx fun y hy => ?_
    have := lt_of_idx hy
    refine tells_dite (fun _ => tells_err (hQ _ (told_unexpected rfl hy))) fun _ => ?_
    refine tells_dite (fun _ => tells_err (hQ _ (told_end rfl (by omega)))) fun _ => ?_
    refine tells_onOk tells_idx fun u hu => ?_
    refine tells_dite (fun _ => tells_onOk (validateEmptyArray_tells hQ (by omega)) fun _ _ => tells_ok) fun _ => ?_
    refine tells_onOk (readLength_tells hQ (by omega)) ?_
    rintro ⟨n, c1⟩ h1
    have := readLength_le h1
    dsimp only
    refine tells_dite (fun _ => tells_err (hQ _ (told_end rfl this.2))) fun _ => ?_
    refine tells_onOk tells_idx fun w hw => ?_
    have := lt_of_idx hw
    refine tells_dite (fun _ => tells_err (hQ _ (told_array rfl hw))) fun _ => ?_
    exact arrayLoop_tells hQ (hd hdp) (hp hdp) (fun c hc => skipValue_tells hQ hb hc hdp) (fun c c' h => skip_le hb hdp h) (by omega)
  exact tells_err (hQ _ (told_end rfl hc))

theorem mapLoop_tells (hQ : ∀ e, Told b e → Q e) {kd vd : Nat → DR}
    (hk : ∀ c, c < b.length → Tells Q (kd c).2) (hkp : ∀ c v c', kd c = (v, .ok c') → c' ≤ b.length)
    (hv : ∀ c, c < b.length → Tells Q (vd c).2) (hvp : ∀ c v c', vd c = (v, .ok c') → c' ≤ b.length)
    {f c : Nat} {es : List (Val × Val)} (hc : c ≤ b.length) : Tells Q (mapLoop kd vd b f c es).2 := by
  induction f generalizing c es with
  | zero => exact tells_diverge
  | succ f ih =>
    unfold mapLoop
    refine tells_dite (fun _ => tells_err (hQ _ (told_end rfl hc))) fun hh => ?_
    have hg := hk c (lt_of_hasByte hh)
    generalize hx : kd c = x at hg ⊢
    obtain ⟨k, r⟩ := x
    refine tells_onOk hg fun c1 h1 => ?_
    subst h1
    have hc1 := hkp _ _ _ hx
    refine tells_dite (fun _ => tells_err (hQ _ (told_end rfl hc1))) fun hh => ?_
    have hg2 := hv c1 (lt_of_hasByte hh)
    generalize hy : vd c1 = y at hg2 ⊢
    obtain ⟨v, r⟩ := y
    refine tells_onOk hg2 fun c2 h2 => ?_
    subst h2
    have hc2 := hvp _ _ _ hy
    refine tells_dite (fun _ => tells_panic) fun _ => ?_
    refine tells_dite (fun _ => tells_err (hQ _ (told_end rfl hc2))) fun _ => ?_
    refine tells_onOk tells_idx fun y hy => ?_
    exact tells_dite (fun _ => tells_ok) fun _ => ih hc2

theorem header_tells (hQ : ∀ e, Told b e → Q e) (hc : c ≤ b.length) {x : Byte} {e : Err} (he : Told b e) :
    Tells Q (if x = cO then skipClassName b c >>= fun e => .ok (e + 1) else if x = ca then .ok (c + 1) else .err e : Res Nat) := by
  refine tells_ite (fun _ => tells_bind (skipClassName_tells hQ hc) fun _ _ => tells_ok) fun _ => ?_
  exact tells_ite (fun _ => tells_ok) fun _ => tells_err (hQ _ he)

theorem header_le (hb : b.length < 2 ^ 63) (hc : c < b.length) {x : Byte} {e : Err} {c' : Nat}
    (h : (if x = cO then skipClassName b c >>= fun e => .ok (e + 1) else if x = ca then .ok (c + 1) else .err e) = .ok c') : c' ≤ b.length := by
  split at h
  · simp only [Res.bind_eq_ok] at h
    obtain ⟨e', h1, h2⟩ := h
    cases h2
    obtain ⟨ds, cls, -, -, ⟨r, hr⟩, -⟩ := skipClassName_sound hb h1
    have := lt_of_drop_cons hr
    omega
  · split at h
    · cases h; omega
    · cases h

theorem mapDecode_tells (hQ : ∀ e, Told b e → Q e) (hb : b.length < 2 ^ 63) {kd vd : Nat → Nat → DR} {rv : Val}
    (hk : depth + 1 ≤ maxDepth → ∀ c, c < b.length → Tells Q (kd c (depth + 1)).2)
    (hkp : depth + 1 ≤ maxDepth → ∀ c v c', kd c (depth + 1) = (v, .ok c') → c' ≤ b.length)
    (hv : depth + 1 ≤ maxDepth → ∀ c, c < b.length → Tells Q (vd c (depth + 1)).2)
    (hvp : depth + 1 ≤ maxDepth → ∀ c v c', vd c (depth + 1) = (v, .ok c') → c' ≤ b.length) (hc : c ≤ b.length) :
    Tells Q (mapDecode kd vd b c depth rv).2 := by
  unfold mapDecode
  refine tells_dite (fun _ => tells_err (hQ _ (told_end rfl hc))) fun hh => ?_
  refine tells_dite (fun _ => tells_err (hQ _ (told_depth rfl hh))) fun hdp => ?_
  have hdp : depth + 1 ≤ maxDepth := by omega
  refine tells_onOk tells_idx fun x hx => ?_
  have := lt_of_idx hx
  refine tells_dite (fun _ => tells_onOk (validateNull_tells hQ hc) fun _ _ => tells_ok) fun _ => ?_
  refine tells_onOk (header_tells hQ hc (told_start rfl hx)) fun c1 h1 => ?_
  have := header_le hb this h1
  refine tells_onOk (readLength_tells hQ this) ?_
  rintro ⟨n, c2⟩ h2
  have := readLength_le h2
  dsimp only
  refine tells_dite (fun _ => tells_err (hQ _ (told_end rfl this.2))) fun _ => ?_
  refine tells_onOk tells_idx fun y hy => ?_
  have := lt_of_idx hy
  refine tells_dite (fun _ => tells_err (hQ _ (told_unexpected rfl hy))) fun _ => ?_
  cases mapEntries rv with
  | none => exact tells_panic
  | some es =>
    dsimp only
    refine tells_dite (fun _ => tells_err (hQ _ (told_end rfl (by omega)))) fun _ => ?_
    refine tells_onOk tells_idx fun y hy => ?_
    exact tells_dite (fun _ => tells_ok) fun _ => mapLoop_tells hQ (hk hdp) (hkp hdp) (hv hdp) (hvp hdp) (by omega)

theorem anyKey_tells (hQ : ∀ e, Told b e → Q e) (hc : c ≤ b.length) : Tells Q (anyKeyDecode b c).2 := by
  unfold anyKeyDecode
  refine tells_onOk tells_idx fun x hx => ?_
  refine tells_dite (fun _ => tells_wrap (fun v => .iface .str v) (stringDecode_tells hQ hc)) fun _ => ?_
  refine tells_dite (fun _ => tells_wrap (fun v => .iface (.int .i64) v) (intDecode_tells hQ hc)) fun _ => ?_
  exact tells_err (hQ _ (told_unexpected rfl hx))

theorem anyDecode_tells (hQ : ∀ e, Told b e → Q e) (hb : b.length < 2 ^ 63) {W : World} {ad : Nat → Nat → DR} {rv : Val}
    (hv : depth + 1 ≤ maxDepth → ∀ c, c < b.length → Tells Q (ad c (depth + 1)).2)
    (hvp : depth + 1 ≤ maxDepth → ∀ c v c', ad c (depth + 1) = (v, .ok c') → c' ≤ b.length) (hc : c ≤ b.length) :
    Tells Q (anyDecode W ad b c depth rv).2 := by
  unfold anyDecode
  refine tells_onOk tells_idx fun x hx => ?_
  have := lt_of_idx hx
  have m1 : Tells Q (mapDecode (fun c _ => stringDecode b c (.str [])) ad b c depth .mapNil).2 := by
    refine mapDecode_tells hQ hb (fun _ c hc => stringDecode_tells hQ (by omega)) ?_ hv hvp hc
    intro _ c v c' h
    rcases (stringDecode_iff hb).1 h with ⟨-, h⟩ | ⟨_, _, h, -⟩ <;> exact h.le
  have m2 : Tells Q (mapDecode (fun c _ => anyKeyDecode b c) ad b c depth .mapNil).2 := by
    refine mapDecode_tells hQ hb (fun _ c hc => anyKey_tells hQ (by omega)) ?_ hv hvp hc
    intro _ c v c' h
    obtain ⟨d, h, -⟩ := anyKeyDecode_sound hb h
    exact h.le
  refine tells_dite (fun _ => tells_wrap (fun v => .iface (.map .str .any) v) m1) fun _ => ?_
  refine tells_dite (fun _ => tells_wrap (fun v => .iface (.map .any .any) v) m2) fun _ => ?_
  refine tells_dite (fun _ => tells_wrap (fun v => .iface .f64 v) (floatDecode_tells hQ hc)) fun _ => ?_
  refine tells_dite (fun _ => tells_onOk (readString_tells hQ (by omega)) fun _ _ => tells_ok) fun _ => ?_
  refine tells_dite (fun _ => tells_wrap (fun v => .iface (.int .i64) v) (intDecode_tells hQ hc)) fun _ => ?_
  refine tells_dite (fun _ => tells_onOk (readBool_tells hQ hc) fun _ _ => tells_ok) fun _ => ?_
  refine tells_dite (fun _ => tells_onOk (validateNull_tells hQ hc) fun _ _ => tells_ok) fun _ => ?_
  exact tells_err (hQ _ (told_value rfl hx))

theorem text_le {d : Doc} {c' : Nat} (h : At b c d c') : d.text.length ≤ b.length := by
  have := h.le
  have h2 : c' = c + d.text.length := h.2
  omega

theorem unmarshalDecode_tells (hQ : ∀ e, Told b e → Q e) (hb : b.length < 2 ^ 63) {W : World} (hU : UserTells W b Q) {id : Nat} {rv : Val}
    (hd : depth ≤ maxDepth) (hc : c ≤ b.length) : Tells Q (unmarshalDecode W id b c depth rv).2 := by
  rw [unmarshalDecode_eq]
  refine tells_onOk (skipValue_tells hQ hb hc hd) fun e he => ?_
  refine tells_onOk tells_sub fun src hs => ?_
  obtain ⟨d, hat, -, rfl⟩ := skip_sub hb hd he hs
  refine tells_dite (fun _ => tells_err (hQ _ (told_type rfl hc))) fun _ => ?_
  refine tells_dite (fun _ => tells_err (hQ _ (told_type rfl hc))) fun _ => ?_
  refine tells_dite (fun _ => tells_err (hQ _ (told_type rfl hc))) fun _ => ?_
  refine tells_dite (fun _ => tells_ok) fun _ => ?_
  simp only [unquote_text]
  refine tells_onOk ?_ fun _ _ => tells_ok
  intro e he
  cases hr : W.unmarshal id d.text with
  | err e' =>
    rw [hr] at he
    cases he
    exact hU.unm _ _ _ _ (text_le hat) hc hr
  | _ => rw [hr] at he; cases he

theorem ifaceDecode_tells (hQ : ∀ e, Told b e → Q e) (hb : b.length < 2 ^ 63) {W : World} (hU : UserTells W b Q) {rv : Val}
    (hd : depth ≤ maxDepth) (hc : c ≤ b.length) : Tells Q (ifaceDecode W b c depth rv).2 := by
  unfold ifaceDecode
  split
  · rename_i t v _
    rw [dynDecode_eq]
    refine tells_onOk (skipValue_tells hQ hb hc hd) fun e he => ?_
    refine tells_onOk tells_sub fun src hs => ?_
    obtain ⟨d, hat, -, rfl⟩ := skip_sub hb hd he hs
    refine tells_dite (fun _ => tells_ok) fun _ => ?_
    simp only [unquote_text]
    refine tells_onOk ?_ fun _ _ => tells_ok
    intro e he
    exact hU.dyn t v d.text _ e (text_le hat) (by rw [← he])
  · refine tells_onOk tells_idx fun x hx => ?_
    refine tells_dite (fun _ => tells_onOk (validateNull_tells hQ hc) fun _ _ => tells_ok) fun _ => ?_
    exact tells_err (hQ _ (told_type rfl hc))

theorem structLoop_tells (hQ : ∀ e, Told b e → Q e) (hb : b.length < 2 ^ 63) {sets : List FieldSet} {dec : FieldSet → Nat → Val → DR} {skip : Nat → Res Nat}
    (hd : ∀ s c v, c < b.length → Tells Q (dec s c v).2) (hp : ∀ s c v v' c', dec s c v = (v', .ok c') → c' ≤ b.length)
    (hs : ∀ c, c ≤ b.length → Tells Q (skip c)) (hsp : ∀ c c', skip c = .ok c' → c' ≤ b.length)
    {f c : Nat} {vs : List Val} (hc : c ≤ b.length) : Tells Q (structLoop sets dec skip b f c vs).2 := by
  induction f generalizing c vs with
  | zero => exact tells_diverge
  | succ f ih =>
    unfold structLoop
    refine tells_dite (fun _ => tells_err (hQ _ (told_end rfl hc))) fun _ => ?_
    refine tells_onOk (tells_bind (stringBytes_tells hQ hc) fun _ _ => tells_ok) ?_
    rintro ⟨fld, c1⟩ h1
    have hc1 : c1 ≤ b.length := by
      simp only [decodeKey, Res.bind_eq_ok] at h1
      obtain ⟨⟨ob, cn⟩, hs, hk⟩ := h1
      cases hk
      exact (stringBytes_progress hb hs).2
    dsimp only
    refine tells_dite (fun _ => tells_err (hQ _ (told_end rfl hc1))) fun hh => ?_
    have := lt_of_hasByte hh
    have key : ∀ (vs : List Val) (r : Res Nat), Tells Q r → (∀ c', r = .ok c' → c' ≤ b.length) →
        Tells Q (onOk (.struct vs) r fun c =>
          if !hasByte b c then (.struct vs, .err (.unexpectedEnd "object" c)) else
          onOk (.struct vs) (idx b c) fun x => if x = cRBrace then (.struct vs, .ok (c + 1)) else structLoop sets dec skip b f c vs).2 := by
      intro vs r hr hle
      refine tells_onOk hr fun c2 h2 => ?_
      have hc2 := hle _ h2
      refine tells_dite (fun _ => tells_err (hQ _ (told_end rfl hc2))) fun _ => ?_
      refine tells_onOk tells_idx fun y hy => ?_
      exact tells_dite (fun _ => tells_ok) fun _ => ih hc2
    cases fld with
    | none => exact key _ _ (hs _ hc1) fun c' h => hsp _ _ h
    | some s =>
      dsimp only
      cases vs[s.idx]? with
      | none => exact key _ _ tells_panic fun c' h => by cases h
      | some v0 =>
        dsimp only
        have hg := hd s c1 v0 this
        generalize hx : dec s c1 v0 = x at hg ⊢
        obtain ⟨v, r⟩ := x
        exact key _ _ hg fun c' h => hp _ _ _ _ _ (by rw [hx]; dsimp only at h; rw [h])

theorem structDecode_tells (hQ : ∀ e, Told b e → Q e) (hb : b.length < 2 ^ 63) {sets : List FieldSet} {dec : FieldSet → Nat → Nat → Val → DR} {rv : Val}
    (hd : depth + 1 ≤ maxDepth → ∀ s c v, c < b.length → Tells Q (dec s c (depth + 1) v).2)
    (hp : depth + 1 ≤ maxDepth → ∀ s c v v' c', dec s c (depth + 1) v = (v', .ok c') → c' ≤ b.length) (hc : c ≤ b.length) :
    Tells Q (structDecode sets dec b c depth rv).2 := by
  unfold structDecode
  refine tells_dite (fun _ => tells_err (hQ _ (told_end rfl hc))) fun hh => ?_
  refine tells_dite (fun _ => tells_err (hQ _ (told_depth rfl hh))) fun hdp => ?_
  have hdp : depth + 1 ≤ maxDepth := by omega
  refine tells_onOk tells_idx fun x hx => ?_
  have := lt_of_idx hx
  refine tells_dite (fun _ => tells_onOk (validateNull_tells hQ hc) fun _ _ => tells_ok) fun _ => ?_
  refine tells_onOk (header_tells hQ hc (told_value rfl hx)) fun c1 h1 => ?_
  have := header_le hb this h1
  refine tells_dite (fun _ => tells_err (hQ _ (told_end rfl this))) fun _ => ?_
  refine tells_onOk tells_idx fun u hu => ?_
  refine tells_dite (fun _ => tells_err (hQ _ (told_value rfl hu))) fun _ => ?_
  refine tells_onOk (skipLen_tells hQ this) fun c2 h2 => ?_
  have := skipLen_le h2
  refine tells_dite (fun _ => tells_err (hQ _ (told_end rfl this.2))) fun _ => ?_
  refine tells_onOk tells_idx fun y hy => ?_
  have := lt_of_idx hy
  refine tells_dite (fun _ => tells_err (hQ _ (told_array rfl hy))) fun _ => ?_
  refine tells_dite (fun _ => tells_err (hQ _ (told_end rfl (by omega)))) fun _ => ?_
  refine tells_onOk tells_idx fun y hy => ?_
  refine tells_dite (fun _ => tells_ok) fun _ => ?_
  cases rv with
  | struct vs =>
    exact structLoop_tells hQ hb (hd hdp) (hp hdp) (fun c hc => skipValue_tells hQ hb hc hdp) (fun c c' h => skip_le hb hdp h) (by omega)
  | _ => exact tells_panic

theorem invalidDecode_tells (hQ : ∀ e, Told b e → Q e) (hc : c ≤ b.length) {rv : Val} : Tells Q (invalidDecode c rv).2 :=
  tells_err (hQ _ (told_type rfl hc))

theorem ptrKey_tells (hQ : ∀ e, Told b e → Q e) (hc : c ≤ b.length) {scratch : DR} (h : Tells Q scratch.2) : Tells Q (ptrKeyDecode scratch b c).2 := by
  unfold ptrKeyDecode
  refine tells_onOk tells_idx fun x hx => ?_
  refine tells_dite (fun _ => tells_onOk (validateNull_tells hQ hc) fun _ _ => tells_ok) fun _ => ?_
  exact tells_onOk h fun _ _ => tells_panic

theorem keyDecode_tells (hQ : ∀ e, Told b e → Q e) (hb : b.length < 2 ^ 63) {W : World} (hU : UserTells W b Q) {ad : Nat → Nat → DR} {k : Ty}
    (hv : depth + 1 ≤ maxDepth → ∀ c, c < b.length → Tells Q (ad c (depth + 1)).2)
    (hvp : depth + 1 ≤ maxDepth → ∀ c v c', ad c (depth + 1) = (v, .ok c') → c' ≤ b.length) (hd : depth ≤ maxDepth) (hc : c ≤ b.length) :
    Tells Q (keyDecode W ad b k c depth).2 := by
  unfold keyDecode
  cases W.unmOf k with
  | some id => exact unmarshalDecode_tells hQ hb hU hd hc
  | none =>
    dsimp only
    cases W.resolve k with
    | str => exact stringDecode_tells hQ hc
    | bool => exact boolDecode_tells hQ hc
    | int kd => exact intDecode_tells hQ hc
    | uint kd => exact uintDecode_tells hQ hc
    | any => exact anyDecode_tells hQ hb hv hvp hc
    | iface i => exact ifaceDecode_tells hQ hb hU hd hc
    | ptr e =>
      dsimp only
      cases W.unmOf e with
      | some _ => exact invalidDecode_tells hQ hc
      | none =>
        dsimp only
        cases W.resolve e with
        | str => exact ptrKey_tells hQ hc (stringDecode_tells hQ hc)
        | bool => exact ptrKey_tells hQ hc (boolDecode_tells hQ hc)
        | int kd => exact ptrKey_tells hQ hc (intDecode_tells hQ hc)
        | uint kd => exact ptrKey_tells hQ hc (uintDecode_tells hQ hc)
        | any => exact ptrKey_tells hQ hc (anyDecode_tells hQ hb hv hvp hc)
        | iface i => exact ptrKey_tells hQ hc (anyDecode_tells hQ hb hv hvp hc)
        | _ => exact invalidDecode_tells hQ hc
    | _ => exact invalidDecode_tells hQ hc

theorem fieldDecode_tells (hQ : ∀ e, Told b e → Q e) (hb : b.length < 2 ^ 63) {W : World} {rec : Ty → Nat → Nat → Val → DR} {s : FieldSet} {rv : Val}
    (hr : ∀ t c v, c < b.length → Tells Q (rec t c depth v).2) (hc : c < b.length) : Tells Q (fieldDecode W rec b s c depth rv).2 := by
  have hc' := Nat.le_of_lt hc
  unfold fieldDecode
  refine tells_dite (fun _ => ?_) fun _ => hr _ _ _ hc
  cases W.resolve s.ty with
  | ptr e =>
    exact tells_dite (fun _ => ptrDecode_tells hQ hc' fun _ v => wrappedDecode_tells hQ hb hc') fun _ => tells_err (hQ _ told_unsupported)
  | _ => exact tells_dite (fun _ => wrappedDecode_tells hQ hb hc') fun _ => tells_err (hQ _ told_unsupported)

theorem fieldDecode_le (hb : b.length < 2 ^ 63) {W : World} {rec : Ty → Nat → Nat → Val → DR} {s : FieldSet} {rv v : Val} {c' : Nat}
    (hr : ∀ t c v v' c', rec t c depth v = (v', .ok c') → c' ≤ b.length) (h : fieldDecode W rec b s c depth rv = (v, .ok c')) : c' ≤ b.length := by
  unfold fieldDecode at h
  split at h
  · cases hr : W.resolve s.ty with
    | ptr e =>
      rw [hr] at h
      dsimp only at h
      split at h
      · exact ptrDecode_le (fun rv v c' h => wrappedDecode_le hb h) h
      · cases h
    | _ =>
      rw [hr] at h
      dsimp only at h
      split at h
      · exact wrappedDecode_le hb h
      · cases h
  · exact hr _ _ _ _ _ h

theorem decodeNonPtr_tells (hQ : ∀ e, Told b e → Q e) (hb : b.length < 2 ^ 63) {W : World} (hU : UserTells W b Q)
    {rec : Ty → Nat → Nat → Val → DR}
    (hsound : ∀ t c depth rv v c', depth ≤ maxDepth → rec t c depth rv = (v, .ok c') → ∃ d, At b c d c' ∧ DecDoc W t (maxDepth - depth) d rv v)
    (hrec : ∀ t c depth rv, depth ≤ maxDepth → c ≤ b.length → Tells Q (rec t c depth rv).2)
    {t : Ty} {rv : Val} (hd : depth ≤ maxDepth) (hc : c ≤ b.length) : Tells Q (decodeNonPtr W rec b t c depth rv).2 := by
  have hp : ∀ t c depth rv v c', depth ≤ maxDepth → rec t c depth rv = (v, .ok c') → c' ≤ b.length := by
    intro t c depth rv v c' h1 h2
    obtain ⟨_, h, _⟩ := hsound t c depth rv v c' h1 h2
    exact h.le
  unfold decodeNonPtr
  cases W.unmOf t with
  | some id => exact unmarshalDecode_tells hQ hb hU hd hc
  | none =>
    dsimp only
    cases W.resolve t with
    | str => exact stringDecode_tells hQ hc
    | bool => exact boolDecode_tells hQ hc
    | int kd => exact intDecode_tells hQ hc
    | uint kd => exact uintDecode_tells hQ hc
    | f32 => exact floatDecode_tells hQ hc
    | f64 => exact floatDecode_tells hQ hc
    | slice e =>
      exact tells_dite
        (fun _ => bytesDecode_tells hQ (fun h1 c v hc => hrec _ _ _ _ h1 (by omega)) (fun h1 c v v' c' h => hp _ _ _ _ _ _ h1 h) hc)
        fun _ => sliceDecode_tells hQ (fun h1 c v hc => hrec _ _ _ _ h1 (by omega)) (fun h1 c v v' c' h => hp _ _ _ _ _ _ h1 h) hc
    | array n e =>
      exact arrayDecode_tells hQ hb (fun h1 c v hc => hrec _ _ _ _ h1 (by omega)) (fun h1 c v v' c' h => hp _ _ _ _ _ _ h1 h) hc
    | map k v =>
      refine mapDecode_tells hQ hb (fun h1 c hc => ?_) (fun h1 c v c' h => ?_) (fun h1 c hc => hrec _ _ _ _ h1 (by omega))
        (fun h1 c v' c' h => hp _ _ _ _ _ _ h1 h) hc
      · exact keyDecode_tells hQ hb hU (fun h2 c hc => hrec _ _ _ _ h2 (by omega)) (fun h2 c v' c' h => hp _ _ _ _ _ _ h2 h) h1 (by omega)
      · obtain ⟨d, hat, -⟩ := keyDecode_sound hb h1 (fun h1 c v c' h => hsound .any c _ _ v c' h1 h) h
        exact hat.le
    | struct id =>
      exact structDecode_tells hQ hb (fun h1 s c v hc => fieldDecode_tells hQ hb (fun t c v hc => hrec _ _ _ _ h1 (by omega)) hc)
        (fun h1 s c v v' c' h => fieldDecode_le hb (fun t c v v' c' h => hp _ _ _ _ _ _ h1 h) h) hc
    | any => exact anyDecode_tells hQ hb (fun h2 c hc => hrec _ _ _ _ h2 (by omega)) (fun h2 c v' c' h => hp _ _ _ _ _ _ h2 h) hc
    | iface i => exact ifaceDecode_tells hQ hb hU hd hc
    | other => exact invalidDecode_tells hQ hc
    | _ => exact tells_err (hQ _ told_unsupported)

theorem decodeF_tells (hQ : ∀ e, Told b e → Q e) (hb : b.length < 2 ^ 63) {W : World} (hU : UserTells W b Q) {f : Nat} {t : Ty}
    {c depth : Nat} {rv : Val} (hd : depth ≤ maxDepth) (hc : c ≤ b.length) : Tells Q (decodeF W b f t c depth rv).2 := by
  induction f generalizing t c depth rv with
  | zero => exact tells_diverge
  | succ f ih =>
    have hn : ∀ t rv, Tells Q (decodeNonPtr W (decodeF W b f) b t c depth rv).2 := fun t rv =>
      decodeNonPtr_tells hQ hb hU (fun t c depth rv v c' h1 h => decodeF_sound hb h1 h) (fun t c depth rv h1 h2 => ih h1 h2) hd hc
    unfold decodeF
    split
    · exact tells_dite (fun _ => tells_err (hQ _ told_unsupported)) fun _ => ptrDecode_tells hQ hc fun _ v => hn _ v
    · exact hn t rv


/-! ### Compilation and `Unmarshal` -/

/-- Compilation fails only with errors that have no position. -/
theorem compileDFields_tells (hQ : ∀ e, Told b e → Q e) {W : World} {rec : Ty → Res Unit} (hr : ∀ t, Tells Q (rec t)) {fs : List Field} :
    Tells Q (compileDFields W rec fs) := by
  induction fs with
  | nil => exact tells_ok
  | cons f fs ih =>
    unfold compileDFields
    refine tells_ite (fun _ => ih) fun _ => ?_
    refine tells_ite (fun _ => tells_err (hQ _ told_unsupported)) fun _ => ?_
    exact tells_bind (hr _) fun _ _ => tells_ite (fun _ => tells_err (hQ _ told_unsupported)) fun _ => ih

theorem compileD_tells (hQ : ∀ e, Told b e → Q e) {W : World} {f : Nat} {busy : List Ty} {t : Ty} : Tells Q (compileD W f busy t) := by
  induction f generalizing busy t with
  | zero => exact tells_diverge
  | succ f ih =>
    unfold compileD
    cases W.unmOf t with
    | some id => exact tells_ok
    | none =>
      cases W.resolve t with
      | ptr e => exact tells_bind ih fun _ _ => tells_ite (fun _ => tells_err (hQ _ told_unsupported)) fun _ => tells_ok
      | struct id =>
        refine tells_ite (fun _ => tells_ok) fun _ => ?_
        exact tells_bind (compileDFields_tells hQ fun _ => ih) fun _ _ => tells_ite (fun _ => tells_ok) fun _ => tells_err (hQ _ told_unsupported)
      | slice e => exact tells_ite (fun _ => tells_ok) fun _ => ih
      | array n e => exact ih
      | map k v =>
        refine tells_bind ?_ fun _ _ => ih
        split
        · exact tells_ok
        · exact tells_ok
        · exact ih
      | _ => exact tells_ok

theorem told_empty : Told b .emptyInput := ⟨.inl (by intro o h; cases h), .inl (by intro o h; cases h), trivial⟩
theorem told_invalid : Told b .invalidUnmarshal := ⟨.inl (by intro o h; cases h), .inl (by intro o h; cases h), trivial⟩

/-- The errors of `Unmarshal`: those of the decoders, and the one for trailing bytes. -/
theorem unmarshal_tells {data : Bytes} (hb : data.length < 2 ^ 63) {W : World} (hQ : ∀ e, Told data e → Q e) (hU : UserTells W data Q) {fuel : Nat}
    {dst : Dst} {o : Option Val} {e : Err} (h : unmarshal W fuel data dst = (o, .err e)) :
    Q e ∨ ∃ (x : Byte) (n : Nat), e = .trailing x (n + 1) ∧ data[n]? = some x := by
  unfold unmarshal at h
  by_cases hl : data.length = 0
  · simp only [hl, if_true, Prod.mk.injEq, Res.err.injEq] at h
    rw [← h.2]
    exact .inl (hQ _ told_empty)
  simp only [hl, if_false] at h
  cases dst with
  | nilIface => cases h
  | nonPtr => cases h; exact .inl (hQ _ told_invalid)
  | nilPtr => cases h; exact .inl (hQ _ told_invalid)
  | ptr t v =>
    dsimp only at h
    generalize hx : unmarshalInto W fuel data t v = x at h
    obtain ⟨v', r⟩ := x
    simp only [Prod.mk.injEq] at h
    obtain ⟨-, rfl⟩ := h
    unfold unmarshalInto at hx
    cases hc : compileD W fuel [] t with
    | ok a =>
      rw [hc] at hx
      have hg := decodeF_tells hQ hb hU (f := data.length + 1) (t := t) (c := 0) (depth := 0) (rv := v) (Nat.zero_le _) (Nat.zero_le _)
      simp only [onOk] at hx
      generalize decodeF W data (data.length + 1) t 0 0 v = y at hg hx
      obtain ⟨v2, r⟩ := y
      cases r with
      | ok c =>
        simp only [Prod.mk.injEq] at hx
        obtain ⟨-, hx⟩ := hx
        unfold validateEndBuf at hx
        split at hx
        · cases hx
        cases hi : idx data c with
        | ok x =>
          rw [hi] at hx
          cases hx
          exact .inr ⟨x, c, rfl, idx_ok_iff.1 hi⟩
        | err e => exact absurd hi (by unfold idx; split <;> simp)
        | panic p => rw [hi] at hx; cases hx
        | diverge => rw [hi] at hx; cases hx
      | err e' => cases hx; exact .inl (hg _ rfl)
      | panic p => cases hx
      | diverge => cases hx
    | err e' => rw [hc] at hx; cases hx; exact .inl (compileD_tells hQ _ hc)
    | panic p => rw [hc] at hx; cases hx
    | diverge => rw [hc] at hx; cases hx

end Verif

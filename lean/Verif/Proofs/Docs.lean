import Verif.Proofs.DecComplete
/-
Facts about documents: a text can be read in only one way, accepted documents are well-formed, canonical numerals.
-/
set_option linter.unusedSimpArgs false
namespace Verif
open Spec

/-! ### Well-formedness -/

theorem lax_of_strict {n : Nat} {d : Doc} (h : Strict n d) : Lax n d := by
  induction h with
  | null => exact .null
  | bool => exact .bool
  | int h => exact .int h
  | float h1 h2 => exact .float h1 h2
  | str h => exact .str h
  | arr h _ _ ih1 ih2 => exact .arr h.1 ih1 ih2
  | obj h1 h2 _ _ ih1 ih2 => exact .obj h1 h2.1 ih1 ih2

theorem Lax.mono {n m : Nat} {d : Doc} (h : Lax n d) (hm : n ≤ m) : Lax m d := by
  induction h generalizing m with
  | null => exact .null
  | bool => exact .bool
  | int h => exact .int h
  | float h1 h2 => exact .float h1 h2
  | str h => exact .str h
  | arr h _ _ ih1 ih2 =>
    obtain ⟨m, rfl⟩ : ∃ k, m = k + 1 := ⟨m - 1, by omega⟩
    exact .arr h (fun k v hkv => ih1 k v hkv (by omega)) (fun k v hkv => ih2 k v hkv (by omega))
  | obj h h' _ _ ih1 ih2 =>
    obtain ⟨m, rfl⟩ : ∃ k, m = k + 1 := ⟨m - 1, by omega⟩
    exact .obj h h' (fun k v hkv => ih1 k v hkv (by omega)) (fun k v hkv => ih2 k v hkv (by omega))

theorem Strict.mono {n m : Nat} {d : Doc} (h : Strict n d) (hm : n ≤ m) : Strict m d := by
  induction h generalizing m with
  | null => exact .null
  | bool => exact .bool
  | int h => exact .int h
  | float h1 h2 => exact .float h1 h2
  | str h => exact .str h
  | arr h _ _ ih1 ih2 =>
    obtain ⟨m, rfl⟩ : ∃ k, m = k + 1 := ⟨m - 1, by omega⟩
    exact .arr h (fun k v hkv => ih1 k v hkv (by omega)) (fun k v hkv => ih2 k v hkv (by omega))
  | obj h h' _ _ ih1 ih2 =>
    obtain ⟨m, rfl⟩ : ∃ k, m = k + 1 := ⟨m - 1, by omega⟩
    exact .obj h h' (fun k v hkv => ih1 k v hkv (by omega)) (fun k v hkv => ih2 k v hkv (by omega))

/-- All keys and values of the entries are well-formed. -/
def LaxPairs (n : Nat) (es : List (Doc × Doc)) : Prop := ∀ k v, (k, v) ∈ es → Lax n k ∧ Lax n v

theorem LaxPairs.cons {n : Nat} {k v : Doc} {es : List (Doc × Doc)} (hk : Lax n k) (hv : Lax n v) (h : LaxPairs n es) :
    LaxPairs n ((k, v) :: es) := by
  intro a b hab
  rcases List.mem_cons.1 hab with hab | hab
  · cases hab; exact ⟨hk, hv⟩
  · exact h a b hab

theorem lax_container {n : Nat} {d : Doc} {cnt : Bytes} {es : List (Doc × Doc)} (h : Container d cnt es) (hc : IsDigits cnt)
    (hes : LaxPairs n es) : Lax (n + 1) d := by
  cases h with
  | arr => exact .arr hc (fun k v h => (hes k v h).1) (fun k v h => (hes k v h).2)
  | obj h => exact .obj h hc (fun k v h => (hes k v h).1) (fun k v h => (hes k v h).2)

theorem lax_fieldKey {n : Nat} {d : Doc} {s : Bytes} (h : FieldKey d s) : Lax n d := by
  cases h with
  | str h => exact .str h
  | null => exact .null

theorem lax_wrapped {W : World} {t : Ty} {n : Nat} {d : Doc} {rv v : Val} (h : Wrapped W t d rv v) : Lax n d := by
  cases h with
  | null => exact .null
  | str h => exact .str h

theorem zeroText : IsDigits [48] := ⟨by simp, by simp; decide⟩

theorem LenText.isDigits {t : Bytes} {n : Nat} (h : LenText t n) : IsDigits t := h.1

theorem laxPairs_nil {n : Nat} : LaxPairs n [] := by intro _ _ h; cases h

/-- Whatever can be stored is well-formed, up to declared counts, and not nested too deeply. -/
theorem decDoc_lax {W : World} {t : Ty} {n : Nat} {d : Doc} {rv v : Val} (h : DecDoc W t n d rv v) : Lax n d := by
  refine DecDoc.rec (motive_1 := fun _ n d _ _ _ => Lax n d) (motive_2 := fun _ n es _ _ _ => LaxPairs n es)
    (motive_3 := fun _ n es _ _ _ => LaxPairs n es) (motive_4 := fun _ _ n es _ _ _ => LaxPairs n es)
    (motive_5 := fun _ n es _ _ _ => LaxPairs n es)
    ?_ ?_ ?_ ?_ ?_ ?_ ?_ ?_ ?_ ?_ ?_ ?_ ?_ ?_ ?_ ?_ ?_ ?_ ?_ ?_ ?_ ?_ ?_ ?_ ?_ ?_ ?_ ?_ ?_ ?_ ?_ ?_ ?_ ?_ ?_ ?_ ?_ ?_ ?_ ?_ ?_ ?_ ?_ ?_ ?_ ?_ ?_ ?_ ?_ ?_ ?_ ?_ ?_ ?_ ?_ h
  all_goals intros
  all_goals first
    | exact .null
    | exact .bool
    | assumption
    | exact laxPairs_nil
    | (apply lax_of_strict; assumption)
    | (apply Lax.int; assumption)
    | (apply Lax.int; apply IntText.pos; assumption)
    | (apply Lax.float <;> assumption)
    | (apply Lax.str; assumption)
    | skip
  case refine_21 => exact .arr zeroText (by simp) (by simp)
  case refine_24 => exact .arr zeroText (by simp) (by simp)
  all_goals first
    | (apply lax_container (by assumption) (by assumption); first | assumption | exact laxPairs_nil)
    | (apply lax_container (by assumption) (LenText.isDigits (by assumption)) (by assumption))
    | (apply lax_container .arr (LenText.isDigits (by assumption)) (by assumption))
    | (apply lax_container (.obj (by assumption)) (LenText.isDigits (by assumption)) (by assumption))
    | (refine LaxPairs.cons ?_ ?_ (by assumption) <;> first
        | assumption
        | exact .null
        | (apply lax_fieldKey; assumption)
        | (apply lax_of_strict; assumption)
        | (apply lax_wrapped; assumption)
        | (apply Lax.int; assumption)
        | (apply Lax.str; assumption))

/-! ### Unique readability -/

theorem run_unique {p : Byte → Prop} {a b : Bytes} {x y : Byte} {r s : Bytes} (ha : ∀ c ∈ a, p c) (hb : ∀ c ∈ b, p c) (hx : ¬ p x)
    (hy : ¬ p y) (h : a ++ x :: r = b ++ y :: s) : a = b ∧ x = y ∧ r = s := by
  induction a generalizing b with
  | nil =>
    cases b with
    | nil => simp at h; exact ⟨rfl, h.1, h.2⟩
    | cons c cs => simp at h; exact absurd (h.1 ▸ hb c (by simp)) hx
  | cons c cs ih =>
    cases b with
    | nil => simp at h; exact absurd (h.1 ▸ ha c (by simp)) hy
    | cons d ds =>
      simp at h
      obtain ⟨h1, h2, h3⟩ := ih (fun c hc => ha c (by simp [hc])) (fun c hc => hb c (by simp [hc])) h.2
      exact ⟨by rw [h.1, h1], h2, h3⟩

theorem not_digit_58 : ¬ IsDigit 58 := by decide
theorem not_digit_59 : ¬ IsDigit 59 := by decide

theorem intText_no59 {t : Bytes} {i : Int} (h : IntText t i) : ∀ c ∈ t, c ≠ 59 := by
  cases h with
  | pos h => intro c hc h59; subst h59; exact not_digit_59 (h.2 _ hc)
  | neg h =>
    intro c hc h59; subst h59
    simp at hc
    exact not_digit_59 (h.2 _ hc)

theorem append_unique {a b : Bytes} {r s : Bytes} (hl : a.length = b.length) (h : a ++ r = b ++ s) : a = b ∧ r = s :=
  List.append_inj h hl

theorem text_head_125 (d : Doc) : ∀ r s, d.text ++ r ≠ 125 :: s := by
  intro r s
  cases d <;> simp [Doc.text]

/-- A text has at most one reading as a document followed by something. -/
theorem lax_unique {n m : Nat} {d1 d2 : Doc} (h1 : Lax n d1) (h2 : Lax m d2) {r1 r2 : Bytes} (h : d1.text ++ r1 = d2.text ++ r2) :
    d1 = d2 ∧ r1 = r2 := by
  have pairs : ∀ {n m : Nat} {es1 es2 : List (Doc × Doc)} {r1 r2 : Bytes},
      (∀ k v, (k, v) ∈ es1 → ∀ {m d2}, Lax m d2 → ∀ {r1 r2}, k.text ++ r1 = d2.text ++ r2 → k = d2 ∧ r1 = r2) →
      (∀ k v, (k, v) ∈ es1 → ∀ {m d2}, Lax m d2 → ∀ {r1 r2}, v.text ++ r1 = d2.text ++ r2 → v = d2 ∧ r1 = r2) →
      (∀ k v, (k, v) ∈ es2 → Lax m k) → (∀ k v, (k, v) ∈ es2 → Lax m v) →
      pairsText es1 ++ 125 :: r1 = pairsText es2 ++ 125 :: r2 → es1 = es2 ∧ r1 = r2 := by
    intro n m es1 es2 r1 r2 ik iv lk lv h
    induction es1 generalizing es2 with
    | nil =>
      cases es2 with
      | nil => simp [pairsText] at h; exact ⟨rfl, h⟩
      | cons e es2 =>
        obtain ⟨k, v⟩ := e
        simp [pairsText] at h
        exact absurd h.symm (text_head_125 k _ _)
    | cons e es1 ih =>
      obtain ⟨k, v⟩ := e
      cases es2 with
      | nil =>
        simp [pairsText] at h
        exact absurd h (text_head_125 k _ _)
      | cons e' es2 =>
        obtain ⟨k', v'⟩ := e'
        simp only [pairsText, List.append_assoc] at h
        obtain ⟨e1, h⟩ := ik k v (by simp) (lk k' v' (by simp)) h
        obtain ⟨e2, h⟩ := iv k v (by simp) (lv k' v' (by simp)) h
        obtain ⟨e3, h⟩ := ih (fun k v hkv => ik k v (by simp [hkv])) (fun k v hkv => iv k v (by simp [hkv]))
          (fun k v hkv => lk k v (by simp [hkv])) (fun k v hkv => lv k v (by simp [hkv])) h
        exact ⟨by rw [e1, e2, e3], h⟩
  induction h1 generalizing m d2 r1 r2 with
  | null => cases h2 <;> simp [Doc.text] at h; exact ⟨rfl, h⟩
  | @bool _ b =>
    cases h2 <;> simp [Doc.text] at h
    rename_i b'
    refine ⟨?_, h.2⟩
    cases b <;> cases b' <;> simp at h ⊢
  | int ht =>
    cases h2 <;> simp [Doc.text] at h
    rename_i ht'
    obtain ⟨e, -, h⟩ := run_unique (p := (· ≠ 59)) (intText_no59 ht) (intText_no59 ht') (by simp) (by simp) h
    exact ⟨by rw [e], h⟩
  | float _ ht =>
    cases h2 <;> simp [Doc.text] at h
    rename_i _ ht'
    obtain ⟨e, -, h⟩ := run_unique (p := (· ≠ 59)) (fun c hc h => ht (h ▸ hc)) (fun c hc h => ht' (h ▸ hc)) (by simp) (by simp) h
    exact ⟨by rw [e], h⟩
  | str ht =>
    cases h2 <;> simp [Doc.text] at h
    rename_i ht'
    obtain ⟨e, -, h⟩ := run_unique ht.1.2 ht'.1.2 not_digit_58 not_digit_58 h
    subst e
    simp at h
    obtain ⟨e, h⟩ := append_unique (ht.2.1.symm.trans ht'.2.1) h
    simp at h
    exact ⟨by rw [e], h⟩
  | arr hc _ _ ik iv =>
    cases h2 <;> simp [Doc.text] at h
    rename_i hc' lk lv
    obtain ⟨e, -, h⟩ := run_unique hc.2 hc'.2 not_digit_58 not_digit_58 h
    simp at h
    obtain ⟨e', h⟩ := pairs (n := 0) (fun k v hkv => ik k v hkv) (fun k v hkv => iv k v hkv) lk lv h
    exact ⟨by rw [e, e'], h⟩
  | obj hn hc _ _ ik iv =>
    cases h2 <;> simp [Doc.text] at h
    rename_i hn' hc' lk lv
    obtain ⟨e, -, h⟩ := run_unique hn.1.2 hn'.1.2 not_digit_58 not_digit_58 h
    subst e
    simp at h
    obtain ⟨e1, h⟩ := append_unique (hn.2.1.symm.trans hn'.2.1) h
    simp at h
    obtain ⟨e, -, h⟩ := run_unique hc.2 hc'.2 not_digit_58 not_digit_58 h
    simp at h
    obtain ⟨e', h⟩ := pairs (n := 0) (fun k v hkv => ik k v hkv) (fun k v hkv => iv k v hkv) lk lv h
    exact ⟨by rw [e, e', e1], h⟩

/-! ### Canonical numerals -/

theorem ofNat_digit {k : Nat} (h : k < 10) : (UInt8.ofNat (48 + k)).toNat = 48 + k := by
  simp [UInt8.toNat_ofNat']; omega

theorem isDigit_ofNat {k : Nat} (h : k < 10) : IsDigit (UInt8.ofNat (48 + k)) := by
  unfold IsDigit; rw [ofNat_digit h]; omega

theorem natTextF_spec {f n : Nat} (h : n ≤ f) : IsDigits (natTextF f n) ∧ digitsVal (natTextF f n) = n := by
  induction f generalizing n with
  | zero =>
    have : n = 0 := by omega
    subst this
    refine ⟨⟨by simp [natTextF], ?_⟩, ?_⟩
    · intro c hc; simp [natTextF] at hc; subst hc; decide
    · simp [natTextF, digitsVal]
  | succ f ih =>
    unfold natTextF
    split
    · rename_i hn
      refine ⟨⟨by simp, ?_⟩, ?_⟩
      · intro c hc; simp only [List.mem_singleton] at hc; subst hc; exact isDigit_ofNat hn
      · simp only [digitsVal, List.foldl]; rw [ofNat_digit hn]; omega
    · rename_i hn
      obtain ⟨⟨h1, h2⟩, h3⟩ := ih (n := n / 10) (by omega)
      refine ⟨⟨by simp, ?_⟩, ?_⟩
      · intro c hc
        rcases List.mem_append.1 hc with hc | hc
        · exact h2 c hc
        · simp only [List.mem_singleton] at hc; subst hc; exact isDigit_ofNat (by omega)
      · rw [digitsVal_append, h3]
        have : digitsVal [UInt8.ofNat (48 + n % 10)] = n % 10 := by
          simp only [digitsVal, List.foldl]; rw [ofNat_digit (by omega)]; omega
        rw [this]; simp; omega

theorem natText_digits (n : Nat) : IsDigits (natText n) := (natTextF_spec (Nat.le_refl n)).1
theorem natText_val (n : Nat) : digitsVal (natText n) = n := (natTextF_spec (Nat.le_refl n)).2

theorem lenText_natText {n : Nat} (h : n < 2 ^ 63) : LenText (natText n) n := ⟨natText_digits n, natText_val n, h⟩

theorem intText_spec (i : Int) : IntText (intText i) i := by
  cases i with
  | ofNat n =>
    have := IntText.pos (natText_digits n)
    rwa [natText_val] at this
  | negSucc n =>
    have := IntText.neg (natText_digits (n + 1))
    rw [natText_val] at this
    exact this

/-- A canonical numeral does not start with zero, unless it is the numeral of zero. -/
theorem natText_head {n : Nat} (h : n ≠ 0) : (natText n).head? ≠ some 48 := by
  have key : ∀ f n : Nat, n ≤ f → n ≠ 0 → (natTextF f n).head? ≠ some 48 := by
    intro f
    induction f with
    | zero => omega
    | succ f ih =>
      intro n hf hn
      unfold natTextF
      split
      · rename_i h10
        intro hc
        simp only [List.head?_cons, Option.some.injEq] at hc
        have := congrArg UInt8.toNat hc
        rw [ofNat_digit h10] at this
        have h48 : (48 : UInt8).toNat = 48 := rfl
        omega
      · have h1 := ih (n / 10) (by omega) (by omega)
        have h2 := (natTextF_spec (f := f) (n := n / 10) (by omega)).1.1
        cases hd : natTextF f (n / 10) with
        | nil => exact absurd hd h2
        | cons x xs => rw [hd] at h1; simpa using h1
  exact key n n (Nat.le_refl n) h

theorem natText_zero : natText 0 = [48] := rfl

end Verif

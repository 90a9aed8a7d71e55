import Verif.Spec.ErrText
import Verif.Proofs.Errors
import Verif.Proofs.EncText
import Verif.Proofs.StringOpt
/-
Texts of errors, piece by piece.
-/
namespace Verif
open Spec

/-! ### Texts without control characters -/

theorem clean_append {s t : Bytes} (hs : Clean s) (ht : Clean t) : Clean (s ++ t) := by
  obtain ⟨cs, rfl, h1⟩ := hs
  obtain ⟨ct, rfl, h2⟩ := ht
  refine ⟨cs ++ ct, by simp, fun c hc => ?_⟩
  rcases List.mem_append.1 hc with h | h
  · exact h1 c h
  · exact h2 c h

theorem clean_phrase {w : String} (h : Phrase w) : Clean (lit w) :=
  ⟨w.toList, rfl, fun c hc => by have := h.2 c hc; unfold Showable; omega⟩

theorem clean_char {c : Byte} (h : Showable (Char.ofNat c.toNat)) : Clean (charText c) :=
  ⟨[Char.ofNat c.toNat], by simp [charText], fun c' hc => by rw [List.mem_singleton.1 hc]; exact h⟩

theorem ascii_char (n : Fin 128) : String.utf8EncodeChar (Char.ofNat n.val) = [UInt8.ofNat n.val] := by
  revert n; decide

theorem clean_ascii {t : Bytes} (h : ∀ x ∈ t, 32 ≤ x.toNat ∧ x.toNat < 127) : Clean t := by
  refine ⟨t.map fun x => Char.ofNat x.toNat, ?_, ?_⟩
  · induction t with
    | nil => rfl
    | cons x t ih =>
      have hx := h x (by simp)
      simp only [List.map_cons, List.flatMap_cons]
      rw [← ih fun y hy => h y (by simp [hy]), ascii_char ⟨x.toNat, by omega⟩]
      simp
  · intro c hc
    obtain ⟨x, hx, rfl⟩ := List.mem_map.1 hc
    have hx := h x hx
    have : (Char.ofNat x.toNat).toNat = x.toNat := by
      have hv : x.toNat.isValidChar := by unfold Nat.isValidChar; omega
      unfold Char.ofNat
      rw [dif_pos hv]
      show (Char.ofNatAux x.toNat hv).val.toNat = _
      simp [Char.ofNatAux, UInt32.toNat]
    unfold Showable
    omega

theorem clean_nat (n : Nat) : Clean (natText n) :=
  clean_ascii fun x hx => by
    obtain ⟨h1, h2⟩ := (natText_digits n).2 x hx
    omega

theorem clean_dec (i : Int) : Clean (decText i) := by
  unfold decText
  rw [appendInt_eq]
  cases i with
  | ofNat n => exact clean_nat n
  | negSucc n =>
    have : Clean [45] := clean_ascii fun x hx => by simp at hx; subst hx; decide
    exact clean_append (s := [45]) this (clean_nat (n + 1))

theorem dec_length {i : Int} (h1 : -2 ^ 63 ≤ i) (h2 : i ≤ 2 ^ 63) : (decText i).length ≤ 21 := by
  unfold decText
  rw [appendInt_eq]
  cases i with
  | ofNat n =>
    have := natText_length64 (n := n) (by simp at h2; omega)
    show (natText n).length ≤ 21
    omega
  | negSucc n =>
    have := natText_length64 (n := n + 1) (by omega)
    show (natText (n + 1)).length + 1 ≤ 21
    omega

/-! ### Pieces of texts -/

/-- A piece of a text: clean if `P`, and of at most `n` bytes. -/
structure Piece (P : Prop) (n : Nat) (t : Bytes) : Prop where
  clean : P → Clean t
  short : t.length ≤ n

theorem Piece.append {P : Prop} {m n : Nat} {s t : Bytes} (hs : Piece P m s) (ht : Piece P n t) : Piece P (m + n) (s ++ t) :=
  ⟨fun h => clean_append (hs.clean h) (ht.clean h), by have := hs.short; have := ht.short; simp only [List.length_append]; omega⟩

theorem Piece.le {P : Prop} {m n : Nat} {t : Bytes} (h : Piece P m t) (hn : m ≤ n) : Piece P n t := ⟨h.clean, Nat.le_trans h.short hn⟩

local notation:65 a:65 " +> " b:66 => Piece.append a b

theorem piece_lit {P : Prop} {w : String} (h : Phrase w := by decide) : Piece P 40 (lit w) := ⟨fun _ => clean_phrase h, h.1⟩

theorem piece_dec {P : Prop} {i : Int} (h1 : -2 ^ 63 ≤ i) (h2 : i ≤ 2 ^ 63) : Piece P 21 (decText i) := ⟨fun _ => clean_dec i, dec_length h1 h2⟩

theorem char_length (c : Byte) : (charText c).length ≤ 4 := by
  unfold charText
  rw [String.length_utf8EncodeChar]
  exact Char.utf8Size_le_four _

/-! ### Whole texts -/

/-- What makes the text of an error clean. -/
def Shown (F : Fmt) (e : Err) : Prop :=
  (∀ c, charIn e = some c → Showable (Char.ofNat c.toNat)) ∧ (∀ t, rawIn e = some t → Clean t) ∧ ∀ t ∈ namesIn F e, Clean t

/-- The number of bytes that the text of an error has of the input and of names. -/
def partsLength (F : Fmt) (e : Err) : Nat := ((rawIn e).getD []).length + 4 * ((quotedIn e).getD []).length + namesLength F e

theorem piece_char {F : Fmt} {e : Err} {c : Byte} (h : charIn e = some c) : Piece (Shown F e) 4 (charText c) :=
  ⟨fun hs => clean_char (hs.1 c h), char_length c⟩

theorem errText_piece {F : Fmt} (hF : Spec.Fmt.Doc F) {b : Bytes} (hb : b.length < 2 ^ 63) {e : Err} (hw : Worded b e)
    (hl : Located b e ∨ (∃ o, e = .unexpectedEnd "class name" o) ∨ ∃ x o, e = .trailing x o) :
    OtherErr e ∨ Piece (Shown F e) (320 + partsLength F e) (errText F e) := by
  have hloc : ∀ o, offsetOf e = some o → (∀ o', e ≠ .unexpectedEnd "class name" o') → (∀ x o', e ≠ .trailing x o') → -2 ^ 63 ≤ o ∧ o ≤ 2 ^ 63 := by
    intro o ho h1 h2
    rcases hl with h | ⟨o', h⟩ | ⟨x, o', h⟩
    · have := h o ho; omega
    · exact absurd h (h1 o')
    · exact absurd h (h2 x o')
  cases e with
  | syntaxErr w o =>
    right
    cases w with
    | lit w => exact (piece_lit +> piece_lit hw).le (by omega)
    | number t => exact hw.elim
    | strconv fn t =>
      obtain ⟨h1, h2⟩ := hw
      have hq := hF.quote t
      have hr : Piece (Shown F (.syntaxErr (.strconv fn t) o)) 40 (F.reason fn t) := by
        rcases hF.reason fn t with h | h <;> rw [h] <;> exact piece_lit
      have hp : partsLength F (.syntaxErr (.strconv fn t) o) = 4 * t.length := by simp [partsLength, rawIn, quotedIn, namesLength, namesIn]
      rw [hp]
      have hq' : Piece (Shown F (.syntaxErr (.strconv fn t) o)) (4 * t.length + 2) (F.quote t) := ⟨fun _ => hq.1, hq.2⟩
      exact (piece_lit +> piece_lit h1 +> piece_lit +> hq' +> piece_lit +> hr).le (by omega)
  | maxDepth c o => exact .inr ((piece_lit +> piece_char rfl +> piece_lit).le (by omega))
  | unexpectedStart w o c => exact .inr ((piece_lit +> piece_char rfl +> piece_lit +> piece_lit hw).le (by omega))
  | unexpectedEnd w o => exact .inr ((piece_lit +> piece_lit hw +> piece_lit).le (by omega))
  | unexpected w o c =>
    obtain ⟨h1, h2⟩ := hloc o rfl (by simp) (by simp)
    exact .inr ((piece_lit +> piece_lit hw +> piece_lit +> piece_char rfl +> piece_lit +> piece_dec h1 h2).le (by omega))
  | invalidChar c w o =>
    right
    show Piece _ _ (if c = 0 then _ else _)
    by_cases hc : c = 0
    · rw [if_pos hc]; exact (piece_lit +> piece_lit hw).le (by omega)
    · rw [if_neg hc]; exact (piece_lit +> piece_char (by simp [charIn, hc]) +> piece_lit +> piece_lit hw).le (by omega)
  | beginValue c o => exact .inr ((piece_lit +> piece_char rfl +> piece_lit).le (by omega))
  | beginArray c o => exact .inr ((piece_lit +> piece_char rfl +> piece_lit).le (by omega))
  | trailing c o => exact .inr ((piece_lit +> piece_char rfl +> piece_lit).le (by omega))
  | overflow v t =>
    right
    have hk : Piece (Shown F (.overflow v t)) 14 (F.kind t) := ⟨fun _ => (hF.kind t).1, (hF.kind t).2⟩
    have hv : Piece (Shown F (.overflow v t)) 24 (v.text F) := by
      cases v with
      | int i => exact ⟨fun _ => clean_dec i, Nat.le_trans (dec_length hw.1 (Int.le_of_lt hw.2)) (by omega)⟩
      | uint n =>
        have := natText_length64 hw
        show Piece _ 24 (appendUint [] n)
        rw [appendUint_eq]
        exact ⟨fun _ => clean_nat n, by show (natText n).length ≤ 24; omega⟩
      | float x => exact ⟨fun _ => (hF.float x).1, (hF.float x).2⟩
    exact (piece_lit +> hv +> piece_lit +> hk).le (by omega)
  | typeError w o x =>
    right
    obtain ⟨h1, h2⟩ := hloc o rfl (by simp) (by simp)
    rcases hx : x.getD ⟨⟨[], []⟩, none⟩ with ⟨⟨s, f⟩, t⟩
    have hn : namesIn F (.typeError w o x) = [s, f, F.typ t] := by simp [namesIn, hx]
    have hs : Piece (Shown F (.typeError w o x)) s.length s := ⟨fun h => h.2.2 s (by rw [hn]; simp), Nat.le_refl _⟩
    have hf : Piece (Shown F (.typeError w o x)) f.length f := ⟨fun h => h.2.2 f (by rw [hn]; simp), Nat.le_refl _⟩
    have ht : Piece (Shown F (.typeError w o x)) (F.typ t).length (F.typ t) := ⟨fun h => h.2.2 _ (by rw [hn]; simp), Nat.le_refl _⟩
    have hl : namesLength F (.typeError w o x) = s.length + f.length + (F.typ t).length := by simp [namesLength, hn]; omega
    have hp : Piece (Shown F (.typeError w o x)) (40 + ((rawIn (.typeError w o x)).getD []).length) (w.text F) := by
      cases w with
      | lit w => exact ⟨fun _ => clean_phrase hw, Nat.le_trans hw.1 (by omega)⟩
      | number t => exact piece_lit +> ⟨fun h => h.2.1 t rfl, Nat.le_refl _⟩
      | strconv fn t => exact hw.elim
    unfold partsLength
    rw [hl]
    show Piece _ _ (typeErrorText F w o (x.getD ⟨⟨[], []⟩, none⟩))
    rw [hx]
    unfold typeErrorText
    dsimp only
    split
    · exact (piece_lit +> hp +> piece_lit +> hs +> piece_lit +> hf +> piece_lit +> ht +> piece_lit +> piece_dec h1 h2 +> piece_lit).le (by omega)
    · exact (piece_lit +> hp +> piece_lit +> ht +> piece_lit +> piece_dec h1 h2 +> piece_lit).le (by omega)
  | invalidUnmarshal => exact .inl trivial
  | unsupported w => exact .inl trivial
  | emptyInput => exact .inr ⟨fun _ => (piece_lit (P := True)).clean trivial, by show 11 ≤ _; omega⟩
  | recursive => exact .inl trivial
  | user n => exact .inl trivial

/-! ### What is not in a clean text -/

theorem utf8_byte {c : Char} {x : Byte} (h : x ∈ String.utf8EncodeChar c) : (x.toNat = c.toNat ∧ c.toNat < 128) ∨ 128 ≤ x.toNat ∧ x.toNat < 248 := by
  unfold String.utf8EncodeChar at h
  dsimp only at h
  have hc : c.val.toNat = c.toNat := rfl
  rw [hc] at h
  generalize c.toNat = v at h
  have hn : ∀ n, n < 256 → (UInt8.ofNat n).toNat = n := fun n hn => by simp [UInt8.toNat_ofNat']; omega
  split at h
  · rw [List.mem_singleton] at h
    subst h
    rw [hn v (by omega)]
    omega
  · right
    split at h
    · simp only [List.mem_cons, List.not_mem_nil, or_false] at h
      rcases h with h | h <;> subst h <;> rw [hn _ (by omega)] <;> omega
    · split at h
      · simp only [List.mem_cons, List.not_mem_nil, or_false] at h
        rcases h with h | h | h <;> subst h <;> rw [hn _ (by omega)] <;> omega
      · simp only [List.mem_cons, List.not_mem_nil, or_false] at h
        rcases h with h | h | h | h <;> subst h <;> rw [hn _ (by omega)] <;> omega

theorem clean_bytes {t : Bytes} (h : Clean t) {x : Byte} (hx : x ∈ t) : 32 ≤ x.toNat ∧ x.toNat < 248 := by
  obtain ⟨cs, rfl, hs⟩ := h
  obtain ⟨c, hc, hm⟩ := List.mem_flatMap.1 hx
  have := hs c hc
  unfold Showable at this
  have := utf8_byte hm
  omega

/-! ### A number that is too large -/

theorem nines_val (n : Nat) : digitsVal (List.replicate n 57) + 1 = 10 ^ n := by
  induction n with
  | zero => rfl
  | succ n ih =>
    rw [List.replicate_succ, digitsVal_cons, List.length_replicate, Nat.pow_succ]
    have : (57 : Byte).toNat - 48 = 9 := by decide
    rw [this]
    omega

theorem nines_digits (n : Nat) : IsDigits (List.replicate (n + 1) 57) :=
  ⟨by simp, fun c hc => by rw [(List.mem_replicate.1 hc).2]; decide⟩

theorem nines_decode (n : Nat) (rv : Val) : intDecode .i64 ([105, 58] ++ List.replicate (n + 20) 57 ++ [59]) 0 rv =
    (rv, .err (.typeError (.number (List.replicate (n + 20) 57)) ((n + 23 : Nat) : Int))) := by
  have hi := IntText.pos (nines_digits (n + 19))
  have hv := nines_val (n + 20)
  generalize ht : List.replicate (n + 20) (57 : Byte) = t at hi hv
  have hl : t.length = n + 20 := by rw [← ht]; simp
  have hr := readIntegerBytes_complete (b := [105, 58] ++ t ++ [59]) (c := 0) (r := []) hi (by simp)
  have hp : ∃ e, parseInt64 t = .err e := by
    have h1 := parseInt64_returns t
    cases h : parseInt64 t with
    | ok v =>
      obtain ⟨h2, -, h3⟩ := parseInt64_ok_iff.1 h
      have h4 : v = digitsVal t := intText_unique h2 hi
      have : 10 ^ 20 ≤ 10 ^ (n + 20) := Nat.pow_le_pow_right (by decide) (by omega)
      omega
    | err e => exact ⟨e, rfl⟩
    | panic p => rw [h] at h1; exact h1.elim
    | diverge => rw [h] at h1; exact h1.elim
  obtain ⟨e, hp⟩ := hp
  unfold intDecode intBytes
  have hh : hasByte ([105, 58] ++ t ++ [59]) 0 = true := rfl
  have hx : idx ([105, 58] ++ t ++ [59]) 0 = .ok 105 := rfl
  rw [hh, hx, Res.bind_ok, hr, Res.bind_ok]
  show (processInt .i64 t (0 + t.length + 3) rv) = _
  unfold processInt
  rw [hp]
  simp only [hl]
  congr 3
  omega

/-! ### The errors of `Unmarshal` -/

theorem unmarshal_texts {W : World} {fuel : Nat} {data : Bytes} (hb : data.length < 2 ^ 63) {dst : Dst}
    (hu : ∀ id src e, W.unmarshal id src = .err e → OtherErr e) (hdyn : ∀ t v src v' e, W.unmarshalDyn t v src = (v', .err e) → OtherErr e)
    {o : Option Val} {e : Err} (h : unmarshal W fuel data dst = (o, .err e)) : OtherErr e ∨ Worded data e ∧
      (Located data e ∨ (∃ o, e = .unexpectedEnd "class name" o) ∨ ∃ x o, e = .trailing x o) ∧ ∀ x, charIn e = some x → x ∈ data ∨ ∃ o, e = .maxDepth 97 o := by
  have hU : UserTells W data fun e => OtherErr e ∨ Told data e := by
    refine ⟨fun id src e c _ _ h => .inl ?_, fun t v src v' e _ h => .inl (hdyn t v src v' e h)⟩
    have := hu id src e h
    cases e <;> first | exact this | exact this.elim
  rcases unmarshal_tells hb (fun e h => .inr h) hU h with (h | h) | ⟨x, n, rfl, hx⟩
  · exact .inl h
  · refine .inr ⟨h.2.2, h.1.imp id .inl, fun x hx => ?_⟩
    have hm : ∀ {n : Nat} {x : Byte}, data[n]? = some x → x ∈ data := fun h => List.mem_of_getElem? h
    rcases h.2.1 with h | ⟨y, w, n, k, -, rfl, hy⟩ | h
    · left
      have hsh : shownByte e = some x := by
        cases e <;> first | (cases hx; done) | exact hx | skip
        rename_i c w o
        simp only [charIn] at hx
        split at hx
        · cases hx
        · exact hx
      obtain ⟨n, -, h⟩ := h x hsh
      exact hm h
    · simp only [charIn] at hx
      split at hx
      · cases hx
      · cases hx; exact .inl (hm hy)
    · exact .inr h
  · exact .inr ⟨trivial, .inr (.inr ⟨_, _, rfl⟩), fun y hy => .inl (by cases hy; exact List.mem_of_getElem? hx)⟩

/-- The pieces of the text of an error, whatever names it has. -/
theorem named_piece {F : Fmt} (hF : Spec.Fmt.Doc F) {data : Bytes} (hb : data.length < 2 ^ 63) {e e' : Err} (he : plainErr e' = plainErr e) (hw : Worded data e)
    (hl : Located data e ∨ (∃ o, e = .unexpectedEnd "class name" o) ∨ ∃ x o, e = .trailing x o) :
    OtherErr e' ∨ Piece (Shown F e') (320 + partsLength F e') (errText F e') := by
  have same : (∃ w o x y, e = .typeError w o x ∧ e' = .typeError w o y) ∨ e' = e := by
    cases e <;> cases e' <;> simp_all [plainErr]
  rcases same with ⟨w, o, x, y, rfl, rfl⟩ | rfl
  · refine errText_piece hF hb (by cases w <;> exact hw) ?_
    rcases hl with h | ⟨_, h⟩ | ⟨_, _, h⟩
    · exact .inl fun o' ho => h o' ho
    · cases h
    · cases h
  · exact errText_piece hF hb hw hl

theorem other_plain {e e' : Err} (he : plainErr e' = plainErr e) : OtherErr e' ↔ OtherErr e := by
  cases e <;> cases e' <;> simp_all [plainErr, OtherErr]

theorem char_plain {e e' : Err} (he : plainErr e' = plainErr e) : charIn e' = charIn e := by
  cases e <;> cases e' <;> simp_all [plainErr, charIn]

theorem raw_plain {e e' : Err} (he : plainErr e' = plainErr e) : rawIn e' = rawIn e ∧ quotedIn e' = quotedIn e := by
  have same : (∃ w o x y, e = .typeError w o x ∧ e' = .typeError w o y) ∨ e' = e := by
    cases e <;> cases e' <;> simp_all [plainErr]
  rcases same with ⟨w, o, x, y, rfl, rfl⟩ | rfl
  · cases w <;> exact ⟨rfl, rfl⟩
  · exact ⟨rfl, rfl⟩

theorem raw_infix {F : Fmt} {e : Err} {t : Bytes} (h : rawIn e = some t) : t <:+: errText F e := by
  cases e with
  | typeError w o x =>
    cases w with
    | number t' =>
      cases h
      show t <:+: typeErrorText F (.number t) o _
      unfold typeErrorText
      split
      · exact ⟨lit "php-serialize: cannot unmarshal " ++ lit "number ", _, by simp only [What.text, List.append_assoc]; rfl⟩
      · exact ⟨lit "php-serialize: cannot unmarshal " ++ lit "number ", _, by simp only [What.text, List.append_assoc]; rfl⟩
    | _ => cases h
  | _ => cases h

end Verif

import Verif.Model.Unquote
import Verif.Spec.Unquote
namespace Verif

theorem char_valid (c : Char) : c.toNat < 0xD800 ∨ (0xDFFF < c.toNat ∧ c.toNat < 0x110000) := c.valid

theorem char_of {n : Nat} (h : n < 0xD800 ∨ (0xDFFF < n ∧ n < 0x110000)) : ∃ c : Char, c.toNat = n := by
  have hv : n.isValidChar := h
  refine ⟨Char.ofNat n, ?_⟩
  simp [Char.ofNat, hv, Char.toNat, Char.ofNatAux]

theorem utf8_def (c : Char) : utf8 c =
    if c.toNat ≤ 0x7F then [UInt8.ofNat c.toNat]
    else if c.toNat ≤ 0x7FF then [UInt8.ofNat (c.toNat / 64 % 32 + 0xC0), UInt8.ofNat (c.toNat % 64 + 0x80)]
    else if c.toNat ≤ 0xFFFF then [UInt8.ofNat (c.toNat / 4096 % 16 + 0xE0), UInt8.ofNat (c.toNat / 64 % 64 + 0x80), UInt8.ofNat (c.toNat % 64 + 0x80)]
    else [UInt8.ofNat (c.toNat / 262144 % 8 + 0xF0), UInt8.ofNat (c.toNat / 4096 % 64 + 0x80), UInt8.ofNat (c.toNat / 64 % 64 + 0x80), UInt8.ofNat (c.toNat % 64 + 0x80)] := rfl

theorem ofNat_congr {a b : Nat} (h : a = b) : UInt8.ofNat a = UInt8.ofNat b := by rw [h]

theorem runeBytes_char (c : Char) : runeBytes c.toNat = utf8 c := by
  rw [utf8_def]
  have := char_valid c
  generalize c.toNat = n at *
  unfold runeBytes
  by_cases h1 : n ≤ 0x7F
  · have h1' : n < 0x80 := by omega
    rw [if_pos h1', if_pos h1]
  have h1' : ¬ n < 0x80 := by omega
  rw [if_neg h1', if_neg h1]
  by_cases h2 : n ≤ 0x7FF
  · have h2' : n < 0x800 := by omega
    rw [if_pos h2', if_pos h2, ofNat_congr (show 0xC0 + n / 64 = n / 64 % 32 + 0xC0 by omega), Nat.add_comm 0x80]
  have h2' : ¬ n < 0x800 := by omega
  have h4 : ¬ (0x10FFFF < n ∨ (0xD800 ≤ n ∧ n < 0xE000)) := by omega
  rw [if_neg h2', if_neg h2, if_neg h4]
  by_cases h3 : n ≤ 0xFFFF
  · have h3' : n < 0x10000 := by omega
    rw [if_pos h3', if_pos h3, ofNat_congr (show 0xE0 + n / 4096 = n / 4096 % 16 + 0xE0 by omega), Nat.add_comm 0x80, Nat.add_comm 0x80]
  have h3' : ¬ n < 0x10000 := by omega
  rw [if_neg h3', if_neg h3, ofNat_congr (show 0xF0 + n / 262144 = n / 262144 % 8 + 0xF0 by omega), Nat.add_comm 0x80, Nat.add_comm 0x80,
    Nat.add_comm 0x80]

theorem inRange8_iff {c lo hi : Byte} : inRange8 c lo hi = true ↔ lo.toNat ≤ c.toNat ∧ c.toNat ≤ hi.toNat := by
  simp [inRange8, UInt8.le_iff_toNat_le]

theorem byte_of {n : Nat} {c : Byte} (h : n = c.toNat) : UInt8.ofNat n = c := by
  subst h; simp

theorem decodeRune_ok {c : Byte} {p : Bytes} (hne : ¬ ((decodeRune (c :: p)).1 = 0xFFFD ∧ (decodeRune (c :: p)).2 = 1)) :
    ∃ ch : Char, ch.toNat = (decodeRune (c :: p)).1 ∧ (c :: p).take (decodeRune (c :: p)).2 = utf8 ch := by
  revert hne
  have hc := c.toNat_lt
  unfold decodeRune
  dsimp only
  split
  · rename_i h1
    intro _
    simp only [UInt8.lt_iff_toNat_lt] at h1
    obtain ⟨ch, hch⟩ := @char_of c.toNat (.inl (by simp at h1; omega))
    refine ⟨ch, hch, ?_⟩
    rw [utf8_def, hch, if_pos (by simp at h1; omega)]
    simp
  split
  · intro h; exact absurd ⟨rfl, rfl⟩ h
  split
  · rename_i h1 h2 h3
    simp only [UInt8.lt_iff_toNat_lt] at h1 h2 h3
    simp at h1 h2 h3
    split
    · rename_i c1 r
      split
      · rename_i g1
        rw [inRange8_iff] at g1
        simp at g1
        intro _
        obtain ⟨ch, hch⟩ := @char_of (c.toNat % 32 * 64 + c1.toNat % 64) (.inl (by omega))
        refine ⟨ch, hch, ?_⟩
        rw [utf8_def, hch, if_neg (by omega), if_pos (by omega)]
        simp only [List.take_succ_cons, List.take_zero]
        congr 1
        · exact (byte_of (by omega)).symm
        congr 1
        exact (byte_of (by omega)).symm
      · intro h; exact absurd ⟨rfl, rfl⟩ h
    · intro h; exact absurd ⟨rfl, rfl⟩ h
  split
  · rename_i h1 h2 h3 h4
    simp only [UInt8.lt_iff_toNat_lt] at h1 h2 h3 h4
    simp at h1 h2 h3 h4
    split
    · rename_i c1 c2 r
      by_cases g1 : (inRange8 c1 (if c = 0xE0 then 0xA0 else 0x80) (if c = 0xED then 0x9F else 0xBF) && inRange8 c2 0x80 0xBF) = true
      · rw [if_pos g1]
        rw [Bool.and_eq_true, inRange8_iff, inRange8_iff] at g1
        obtain ⟨⟨g1, g2⟩, g3, g4⟩ := g1
        have e1 : c = 0xE0 ↔ c.toNat = 0xE0 := by rw [← UInt8.toNat_inj]; rfl
        have e2 : c = 0xED ↔ c.toNat = 0xED := by rw [← UInt8.toNat_inj]; rfl
        have g1' : (if c.toNat = 0xE0 then 0xA0 else 0x80) ≤ c1.toNat := by
          revert g1; simp only [e1]; split <;> simp
        have g2' : c1.toNat ≤ (if c.toNat = 0xED then 0x9F else 0xBF) := by
          revert g2; simp only [e2]; split <;> simp
        simp at g3 g4
        intro _
        obtain ⟨ch, hch⟩ := @char_of (c.toNat % 16 * 4096 + c1.toNat % 64 * 64 + c2.toNat % 64) (by split at g1' <;> split at g2' <;> omega)
        refine ⟨ch, hch, ?_⟩
        have hl : 0x800 ≤ ch.toNat := by rw [hch]; split at g1' <;> split at g2' <;> omega
        have hb : c1.toNat ≤ 0xBF := by split at g2' <;> omega
        have ha : 0x80 ≤ c1.toNat := by split at g1' <;> omega
        rw [utf8_def, if_neg (by omega), if_neg (by omega), hch, if_pos (by omega)]
        simp only [List.take_succ_cons, List.take_zero]
        congr 1
        · exact (byte_of (by omega)).symm
        congr 1
        · exact (byte_of (by omega)).symm
        congr 1
        exact (byte_of (by omega)).symm
      · rw [if_neg g1]; intro h; exact absurd ⟨rfl, rfl⟩ h
    · intro h; exact absurd ⟨rfl, rfl⟩ h
  split
  · rename_i h1 h2 h3 h4 h5
    simp only [UInt8.lt_iff_toNat_lt] at h1 h2 h3 h4 h5
    simp at h1 h2 h3 h4 h5
    split
    · rename_i c1 c2 c3 r
      by_cases g1 : (inRange8 c1 (if c = 0xF0 then 0x90 else 0x80) (if c = 0xF4 then 0x8F else 0xBF) && inRange8 c2 0x80 0xBF && inRange8 c3 0x80 0xBF) = true
      · rw [if_pos g1]
        rw [Bool.and_eq_true, Bool.and_eq_true, inRange8_iff, inRange8_iff, inRange8_iff] at g1
        obtain ⟨⟨⟨g1, g2⟩, g3, g4⟩, g5, g6⟩ := g1
        have e1 : c = 0xF0 ↔ c.toNat = 0xF0 := by rw [← UInt8.toNat_inj]; rfl
        have e2 : c = 0xF4 ↔ c.toNat = 0xF4 := by rw [← UInt8.toNat_inj]; rfl
        have g1' : (if c.toNat = 0xF0 then 0x90 else 0x80) ≤ c1.toNat := by
          revert g1; simp only [e1]; split <;> simp
        have g2' : c1.toNat ≤ (if c.toNat = 0xF4 then 0x8F else 0xBF) := by
          revert g2; simp only [e2]; split <;> simp
        simp at g3 g4 g5 g6
        intro _
        obtain ⟨ch, hch⟩ := @char_of (c.toNat % 8 * 262144 + c1.toNat % 64 * 4096 + c2.toNat % 64 * 64 + c3.toNat % 64) (by split at g1' <;> split at g2' <;> omega)
        refine ⟨ch, hch, ?_⟩
        have hl : 0x10000 ≤ ch.toNat := by rw [hch]; split at g1' <;> split at g2' <;> omega
        have hb : c1.toNat ≤ 0xBF := by split at g2' <;> omega
        have ha : 0x80 ≤ c1.toNat := by split at g1' <;> omega
        rw [utf8_def, if_neg (by omega), if_neg (by omega), if_neg (by omega), hch]
        simp only [List.take_succ_cons, List.take_zero]
        congr 1
        · exact (byte_of (by omega)).symm
        congr 1
        · exact (byte_of (by omega)).symm
        congr 1
        · exact (byte_of (by omega)).symm
        congr 1
        exact (byte_of (by omega)).symm
      · rw [if_neg g1]; intro h; exact absurd ⟨rfl, rfl⟩ h
    · intro h; exact absurd ⟨rfl, rfl⟩ h
  · intro h; exact absurd ⟨rfl, rfl⟩ h

theorem ofNat_lt {n m : Nat} (h : n < 256) (hm : m < 256) : UInt8.ofNat n < UInt8.ofNat m ↔ n < m := by
  rw [UInt8.lt_iff_toNat_lt, UInt8.toNat_ofNat', UInt8.toNat_ofNat', Nat.mod_eq_of_lt h, Nat.mod_eq_of_lt hm]

theorem ofNat_toNat {n : Nat} (h : n < 256) : (UInt8.ofNat n).toNat = n := by
  rw [UInt8.toNat_ofNat', Nat.mod_eq_of_lt h]

theorem decodeRune_utf8 (ch : Char) (u : Bytes) : decodeRune (utf8 ch ++ u) = (ch.toNat, (utf8 ch).length) := by
  rw [utf8_def]
  have hv := char_valid ch
  generalize ch.toNat = n at *
  by_cases h1 : n ≤ 0x7F
  · rw [if_pos h1]
    have : UInt8.ofNat n < 0x80 := (ofNat_lt (m := 0x80) (by omega) (by omega)).2 (by omega)
    simp only [List.cons_append, List.nil_append, decodeRune, if_pos this, ofNat_toNat (show n < 256 by omega)]
    rfl
  rw [if_neg h1]
  have hlt : ∀ {k m : Nat}, k < 256 → m < 256 → k < m → UInt8.ofNat k < UInt8.ofNat m := fun a b c => (ofNat_lt a b).2 c
  have hge : ∀ {k m : Nat}, k < 256 → m < 256 → m ≤ k → ¬ UInt8.ofNat k < UInt8.ofNat m := fun a b c h => absurd ((ofNat_lt a b).1 h) (by omega)
  have hin : ∀ {k a b : Nat}, k < 256 → a < 256 → b < 256 → a ≤ k → k ≤ b → inRange8 (UInt8.ofNat k) (UInt8.ofNat a) (UInt8.ofNat b) = true := by
    intro k a b h1 h2 h3 h4 h5
    rw [inRange8_iff, ofNat_toNat h1, ofNat_toNat h2, ofNat_toNat h3]; exact ⟨h4, h5⟩
  by_cases h2 : n ≤ 0x7FF
  · rw [if_pos h2]
    have g1 : ¬ UInt8.ofNat (n / 64 % 32 + 0xC0) < 0x80 := hge (m := 0x80) (by omega) (by omega) (by omega)
    have g2 : ¬ UInt8.ofNat (n / 64 % 32 + 0xC0) < 0xC2 := hge (m := 0xC2) (by omega) (by omega) (by omega)
    have g3 : UInt8.ofNat (n / 64 % 32 + 0xC0) < 0xE0 := hlt (m := 0xE0) (by omega) (by omega) (by omega)
    have g4 : inRange8 (UInt8.ofNat (n % 64 + 0x80)) 0x80 0xBF = true := hin (a := 0x80) (b := 0xBF) (by omega) (by omega) (by omega) (by omega) (by omega)
    simp only [List.cons_append, List.nil_append, decodeRune, if_neg g1, if_neg g2, if_pos g3, if_pos g4]
    rw [ofNat_toNat (by omega), ofNat_toNat (by omega)]
    congr 1
    omega
  rw [if_neg h2]
  by_cases h3 : n ≤ 0xFFFF
  · rw [if_pos h3]
    have g1 : ¬ UInt8.ofNat (n / 4096 % 16 + 0xE0) < 0x80 := hge (m := 0x80) (by omega) (by omega) (by omega)
    have g2 : ¬ UInt8.ofNat (n / 4096 % 16 + 0xE0) < 0xC2 := hge (m := 0xC2) (by omega) (by omega) (by omega)
    have g3 : ¬ UInt8.ofNat (n / 4096 % 16 + 0xE0) < 0xE0 := hge (m := 0xE0) (by omega) (by omega) (by omega)
    have g4 : UInt8.ofNat (n / 4096 % 16 + 0xE0) < 0xF0 := hlt (m := 0xF0) (by omega) (by omega) (by omega)
    have e1 : UInt8.ofNat (n / 4096 % 16 + 0xE0) = 0xE0 ↔ n / 4096 = 0 := by
      rw [← UInt8.toNat_inj, ofNat_toNat (by omega)]; simp; omega
    have e2 : UInt8.ofNat (n / 4096 % 16 + 0xE0) = 0xED ↔ n / 4096 = 13 := by
      rw [← UInt8.toNat_inj, ofNat_toNat (by omega)]; simp; omega
    have g5 : inRange8 (UInt8.ofNat (n / 64 % 64 + 0x80)) (if UInt8.ofNat (n / 4096 % 16 + 0xE0) = 0xE0 then 0xA0 else 0x80)
        (if UInt8.ofNat (n / 4096 % 16 + 0xE0) = 0xED then 0x9F else 0xBF) = true := by
      simp only [e1, e2]
      rw [inRange8_iff, ofNat_toNat (by omega)]
      constructor
      · split <;> simp <;> omega
      · split <;> simp <;> omega
    have g6 : inRange8 (UInt8.ofNat (n % 64 + 0x80)) 0x80 0xBF = true := hin (a := 0x80) (b := 0xBF) (by omega) (by omega) (by omega) (by omega) (by omega)
    simp only [List.cons_append, List.nil_append, decodeRune, if_neg g1, if_neg g2, if_neg g3, if_pos g4, g5, g6, Bool.and_self, if_true]
    rw [ofNat_toNat (by omega), ofNat_toNat (by omega), ofNat_toNat (by omega)]
    congr 1
    omega
  rw [if_neg h3]
  · have g1 : ¬ UInt8.ofNat (n / 262144 % 8 + 0xF0) < 0x80 := hge (m := 0x80) (by omega) (by omega) (by omega)
    have g2 : ¬ UInt8.ofNat (n / 262144 % 8 + 0xF0) < 0xC2 := hge (m := 0xC2) (by omega) (by omega) (by omega)
    have g3 : ¬ UInt8.ofNat (n / 262144 % 8 + 0xF0) < 0xE0 := hge (m := 0xE0) (by omega) (by omega) (by omega)
    have g4 : ¬ UInt8.ofNat (n / 262144 % 8 + 0xF0) < 0xF0 := hge (m := 0xF0) (by omega) (by omega) (by omega)
    have g4' : UInt8.ofNat (n / 262144 % 8 + 0xF0) < 0xF5 := hlt (m := 0xF5) (by omega) (by omega) (by omega)
    have e1 : UInt8.ofNat (n / 262144 % 8 + 0xF0) = 0xF0 ↔ n / 262144 = 0 := by
      rw [← UInt8.toNat_inj, ofNat_toNat (by omega)]; simp; omega
    have e2 : UInt8.ofNat (n / 262144 % 8 + 0xF0) = 0xF4 ↔ n / 262144 = 4 := by
      rw [← UInt8.toNat_inj, ofNat_toNat (by omega)]; simp; omega
    have g5 : inRange8 (UInt8.ofNat (n / 4096 % 64 + 0x80)) (if UInt8.ofNat (n / 262144 % 8 + 0xF0) = 0xF0 then 0x90 else 0x80)
        (if UInt8.ofNat (n / 262144 % 8 + 0xF0) = 0xF4 then 0x8F else 0xBF) = true := by
      simp only [e1, e2]
      rw [inRange8_iff, ofNat_toNat (by omega)]
      constructor
      · split <;> simp <;> omega
      · split <;> simp <;> omega
    have g6 : inRange8 (UInt8.ofNat (n % 64 + 0x80)) 0x80 0xBF = true := hin (a := 0x80) (b := 0xBF) (by omega) (by omega) (by omega) (by omega) (by omega)
    have g7 : inRange8 (UInt8.ofNat (n / 64 % 64 + 0x80)) 0x80 0xBF = true := hin (a := 0x80) (b := 0xBF) (by omega) (by omega) (by omega) (by omega) (by omega)
    simp only [List.cons_append, List.nil_append, decodeRune, if_neg g1, if_neg g2, if_neg g3, if_neg g4, if_pos g4', g5, g6, g7, Bool.and_self, if_true]
    rw [ofNat_toNat (by omega), ofNat_toNat (by omega), ofNat_toNat (by omega), ofNat_toNat (by omega)]
    congr 1
    omega

end Verif

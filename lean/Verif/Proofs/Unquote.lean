import Verif.Model.Unquote
import Verif.Proofs.Utf8
/-
Helper lemmas about `unquoteBytes`: it always ends, without a panic, and computes what `Unesc` says.
-/
namespace Verif

theorem hexDigit_lt {c : Byte} {d : Nat} (h : hexDigit c = some d) : d < 16 := by
  have := c.toNat_lt
  simp only [hexDigit, UInt8.le_iff_toNat_le] at h
  split at h
  · rename_i hh; cases h; have := hh.2; simp at this; omega
  · split at h
    · rename_i hh; cases h; have := hh.2; simp at this; omega
    · split at h
      · rename_i hh; cases h; have := hh.2; simp at this; omega
      · cases h

theorem getu4_some {s : Bytes} {r : Nat} (h : getu4 s = some r) :
    ∃ a b c d x y z w s', s = 92 :: 117 :: a :: b :: c :: d :: s' ∧ hexDigit a = some x ∧ hexDigit b = some y ∧ hexDigit c = some z ∧
      hexDigit d = some w ∧ r = ((x * 16 + y) * 16 + z) * 16 + w := by
  unfold getu4 at h
  split at h
  · rename_i a b c d s'
    simp only [hexLoop] at h
    cases ha : hexDigit a with
    | none => simp [ha] at h
    | some x => cases hb : hexDigit b with
      | none => simp [ha, hb] at h
      | some y => cases hc : hexDigit c with
        | none => simp [ha, hb, hc] at h
        | some z => cases hd : hexDigit d with
          | none => simp [ha, hb, hc, hd] at h
          | some w =>
            simp [ha, hb, hc, hd] at h
            exact ⟨a, b, c, d, x, y, z, w, s', rfl, ha, hb, hc, hd, h.symm⟩
  · cases h

theorem getu4_lt {s : Bytes} {r : Nat} (h : getu4 s = some r) : r < 65536 := by
  obtain ⟨a, b, c, d, x, y, z, w, s', -, ha, hb, hc, hd, rfl⟩ := getu4_some h
  have := hexDigit_lt ha; have := hexDigit_lt hb; have := hexDigit_lt hc; have := hexDigit_lt hd
  omega

theorem getu4_len {s : Bytes} {r : Nat} (h : getu4 s = some r) : 6 ≤ s.length := by
  obtain ⟨a, b, c, d, x, y, z, w, s', rfl, -⟩ := getu4_some h
  simp

theorem runeBytes_len (r : Nat) : 1 ≤ (runeBytes r).length ∧ (runeBytes r).length ≤ 4 := by
  unfold runeBytes
  repeat' split
  all_goals simp

theorem decodeRune_len {c : Byte} {p : Bytes} : 1 ≤ (decodeRune (c :: p)).2 ∧ (decodeRune (c :: p)).2 ≤ p.length + 1 := by
  unfold decodeRune
  dsimp only
  repeat' split
  all_goals simp

theorem decodeRune_drop {s : Bytes} {r : Nat} (h : r < s.length) :
    1 ≤ (decodeRune (s.drop r)).2 ∧ r + (decodeRune (s.drop r)).2 ≤ s.length := by
  rw [List.drop_eq_getElem_cons h]
  have := @decodeRune_len s[r] (s.drop (r + 1))
  simp only [List.length_drop] at this
  omega

theorem idx_lt {s : Bytes} {r : Nat} (h : r < s.length) : idx s r = .ok s[r] := by simp [idx, h]

theorem plainLoop_total {s : Bytes} : ∀ {f r : Nat}, r ≤ s.length → s.length - r < f →
    ∃ r', plainLoop s f r = .ok r' ∧ r ≤ r' ∧ r' ≤ s.length := by
  intro f
  induction f with
  | zero => intro r _ h; omega
  | succ f ih =>
    intro r hr hf
    unfold plainLoop
    split
    · rename_i hlt
      simp only [idx_lt hlt, Res.bind_ok]
      split
      · exact ⟨r, rfl, by omega, hr⟩
      split
      · obtain ⟨r', h, h1, h2⟩ := @ih (r + 1) (by omega) (by omega)
        exact ⟨r', h, by omega, h2⟩
      · have := decodeRune_drop hlt
        generalize decodeRune (s.drop r) = q at *
        obtain ⟨rr, size⟩ := q
        dsimp only at *
        split
        · exact ⟨r, rfl, by omega, hr⟩
        · obtain ⟨r', h, h1, h2⟩ := @ih (r + size) (by omega) (by omega)
          exact ⟨r', h, by omega, h2⟩
    · exact ⟨r, rfl, by omega, hr⟩

theorem moreRoom_len {b : Bytes} {w : Nat} (hw : w < b.length) : w + 4 < (moreRoom b w).length := by
  unfold moreRoom
  split
  · simp only [List.length_append, List.length_take, List.length_replicate]; omega
  · omega

theorem moreRoom_take {b : Bytes} {w : Nat} (hw : w < b.length) : (moreRoom b w).take w = b.take w := by
  unfold moreRoom
  split
  · rw [List.take_append_of_le_length (by simp; omega), List.take_take, Nat.min_self]
  · rfl

theorem putByte_ok {b : Bytes} {w : Nat} {x : Byte} (h : w < b.length) :
    ∃ b', putByte b w x = .ok b' ∧ b'.length = b.length ∧ b'.take (w + 1) = b.take w ++ [x] := by
  refine ⟨b.set w x, by simp [putByte, h], by simp, ?_⟩
  rw [List.take_add_one, List.take_set_of_le (Nat.le_refl _)]
  simp [h]

theorem putRune_ok {b : Bytes} {w r : Nat} (h : w + 4 ≤ b.length) :
    ∃ b', putRune b w r = .ok (b', (runeBytes r).length) ∧ b'.length = b.length ∧
      b'.take (w + (runeBytes r).length) = b.take w ++ runeBytes r := by
  have hl := runeBytes_len r
  refine ⟨b.take w ++ runeBytes r ++ b.drop (w + (runeBytes r).length), ?_, ?_, ?_⟩
  · simp only [putRune]; rw [if_pos (by omega)]
  · simp only [List.length_append, List.length_take, List.length_drop]; omega
  · rw [List.take_append_of_le_length (by simp; omega), List.take_of_length_le (by simp; omega)]

/-! ### One step -/

/-- What one turn of the second loop writes for the bytes left, and how many of them it consumes. -/
def stepU (s : Bytes) : Option (Bytes × Nat) :=
  match s with
  | [] => none
  | c :: r =>
    if c = 92 then
      match r with
      | [] => none
      | x :: _ => match simpleEscape x with
        | some y => some ([y], 2)
        | none =>
          if x = 117 then
            match getu4 s with
            | none => none
            | some rr =>
              if isSurrogate rr then
                if decodePair rr (getu4 (s.drop 6)) ≠ 0xFFFD then some (runeBytes (decodePair rr (getu4 (s.drop 6))), 12)
                else some (runeBytes 0xFFFD, 6)
              else some (runeBytes rr, 6)
          else none
    else if c = 34 ∨ c < 32 then none
    else if c < 0x80 then some ([c], 1)
    else some (runeBytes (decodeRune s).1, (decodeRune s).2)

theorem decodePair_ne {r1 : Nat} {r2 : Option Nat} (h : decodePair r1 r2 ≠ 0xFFFD) :
    ∃ x, r2 = some x ∧ 0xD800 ≤ r1 ∧ r1 < 0xDC00 ∧ 0xDC00 ≤ x ∧ x < 0xE000 ∧ decodePair r1 r2 = (r1 - 0xD800) * 1024 + (x - 0xDC00) + 0x10000 := by
  unfold decodePair at h ⊢
  split at h
  · exact absurd rfl h
  · rename_i x
    split at h
    · rename_i hh; exact ⟨x, rfl, hh.1, hh.2.1, hh.2.2.1, hh.2.2.2, by simp [hh]⟩
    · exact absurd rfl h

theorem stepU_len {s o : Bytes} {n : Nat} (h : stepU s = some (o, n)) : 1 ≤ n ∧ n ≤ s.length ∧ o.length ≤ 4 := by
  unfold stepU at h
  split at h
  · cases h
  rename_i c r
  split at h
  · split at h
    · cases h
    split at h
    · cases h; simp
    split at h
    · split at h
      · cases h
      rename_i x r' hx _ _ rr hg
      have h6 := getu4_len hg
      split at h
      · split at h
        · rename_i hd
          obtain ⟨y, hy, -⟩ := decodePair_ne hd
          have := getu4_len hy
          simp only [List.length_drop, List.length_cons] at *
          cases h
          refine ⟨by omega, by omega, (runeBytes_len _).2⟩
        · cases h; have := runeBytes_len 0xFFFD; omega
      · cases h; have := runeBytes_len rr; omega
    · cases h
  · split at h
    · cases h
    split at h
    · cases h; simp
    · cases h
      have := @decodeRune_len c r
      have := runeBytes_len (decodeRune (c :: r)).1
      simp only [List.length_cons]; omega

theorem unquoteLoop_step {s b : Bytes} {f r w : Nat} (hr : r < s.length) (hw : w < b.length) :
    match stepU (s.drop r) with
    | none => unquoteLoop s (f + 1) r b w = .ok none
    | some (o, n) => ∃ b', w + o.length < b'.length ∧ b'.take (w + o.length) = b.take w ++ o ∧
        unquoteLoop s (f + 1) r b w = unquoteLoop s f (r + n) b' (w + o.length) := by
  have hl := moreRoom_len hw
  rw [← moreRoom_take hw]
  generalize hX : unquoteLoop s (f + 1) r b w = X
  rw [unquoteLoop, if_pos hr, idx_lt hr] at hX
  generalize moreRoom b w = b at *
  have hb : ∀ (rr : Nat) k, (∃ b', w + (runeBytes rr).length < b'.length ∧ b'.take (w + (runeBytes rr).length) = b.take w ++ runeBytes rr ∧
      (putRune b w rr >>= fun (b, n) => unquoteLoop s f k b (w + n)) = unquoteLoop s f k b' (w + (runeBytes rr).length)) := by
    intro rr k
    obtain ⟨b', h1, h2, h3⟩ := @putRune_ok b w rr (by omega)
    have := runeBytes_len rr
    exact ⟨b', by omega, h3, by rw [h1]; rfl⟩
  have hb1 : ∀ (x : Byte) k, (∃ b', w + 1 < b'.length ∧ b'.take (w + 1) = b.take w ++ [x] ∧
      (putByte b w x >>= fun b => unquoteLoop s f k b (w + 1)) = unquoteLoop s f k b' (w + 1)) := by
    intro x k
    obtain ⟨b', h1, h2, h3⟩ := @putByte_ok b w x (by omega)
    exact ⟨b', by omega, h3, by rw [h1]; rfl⟩
  have hdr : s.drop r = s[r] :: s.drop (r + 1) := List.drop_eq_getElem_cons hr
  generalize hc : s[r] = c at *
  simp only [Res.bind_ok] at hX
  subst hX
  by_cases h92 : c = 92
  · subst h92
    rw [if_pos rfl]
    by_cases hr1 : s.length ≤ r + 1
    · have : s.drop (r + 1) = [] := List.drop_eq_nil_of_le hr1
      rw [if_pos hr1, hdr, this]
      simp [stepU]
    · rw [if_neg hr1]
      have hr2 : r + 1 < s.length := by omega
      have hdr2 : s.drop (r + 1) = s[r + 1] :: s.drop (r + 2) := List.drop_eq_getElem_cons hr2
      rw [idx_lt hr2]
      generalize s[r + 1] = x at *
      simp only [Res.bind_ok]
      simp only [stepU, hdr, hdr2, if_true]
      cases hx : simpleEscape x with
      | some y => dsimp only; exact hb1 y (r + 2)
      | none =>
        dsimp only
        by_cases hu : x = 117
        · rw [if_pos hu, if_pos hu]
          have e6 : List.drop 6 (92 :: x :: List.drop (r + 2) s) = s.drop (r + 6) := by
            rw [← hdr2, ← hdr, List.drop_drop]
          rw [Nat.add_sub_cancel, e6, hdr, hdr2]
          cases hg : getu4 (92 :: x :: s.drop (r + 2)) with
          | none => rfl
          | some rr =>
            have h6 := getu4_len hg
            simp only [List.length_cons, List.length_drop] at h6
            dsimp only
            by_cases hs : isSurrogate rr
            · have hp : ¬ s.length < r + 6 := by omega
              rw [if_pos hs, if_pos hs, if_neg hp]
              by_cases hd : decodePair rr (getu4 (s.drop (r + 6))) ≠ 0xFFFD
              · rw [if_pos hd, if_pos hd]
                exact hb _ (r + 6 + 6)
              · rw [if_neg hd, if_neg hd]; exact hb _ (r + 6)
            · rw [if_neg hs, if_neg hs]; exact hb rr (r + 6)
        · rw [if_neg hu, if_neg hu]
  · rw [if_neg h92]
    by_cases h2 : c = 34 ∨ c < 32
    · rw [if_pos h2]; simp [stepU, hdr, h92, h2]
    · rw [if_neg h2]
      by_cases h3 : c < 0x80
      · rw [if_pos h3]
        simp only [stepU, hdr, if_neg h92, if_neg h2, if_pos h3]
        exact hb1 c (r + 1)
      · rw [if_neg h3]
        have : stepU (s.drop r) = some (runeBytes (decodeRune (s.drop r)).1, (decodeRune (s.drop r)).2) := by
          simp only [stepU, hdr, if_neg h92, if_neg h2, if_neg h3]
        rw [this]
        exact hb (decodeRune (s.drop r)).1 (r + (decodeRune (s.drop r)).2)

theorem drop_idx {s : Bytes} {r : Nat} (h : r < s.length) : s.drop r ≠ [] := by
  intro hh
  have := congrArg List.length hh
  simp at this; omega

/-- The second loop as a relation between the bytes left and what is written for them. -/
inductive Turns : Bytes → Bytes → Prop
  | done : Turns [] []
  | step {s o t : Bytes} {n : Nat} : stepU s = some (o, n) → Turns (s.drop n) t → Turns s (o ++ t)

theorem unquoteLoop_total {s : Bytes} : ∀ {f r w : Nat} {b : Bytes}, r ≤ s.length → s.length - r < f → w < b.length →
    ∃ o : Option Bytes, unquoteLoop s f r b w = .ok (o.map (b.take w ++ ·)) ∧ ∀ t, o = some t ↔ Turns (s.drop r) t := by
  intro f
  induction f with
  | zero => intro r w b _ h; omega
  | succ f ih =>
    intro r w b hr hf hw
    by_cases hlt : r < s.length
    · have hs := @unquoteLoop_step s b f r w hlt hw
      cases ho : stepU (s.drop r) with
      | none =>
        rw [ho] at hs
        refine ⟨none, hs, fun t => ⟨fun h => (by cases h), fun h => ?_⟩⟩
        have := drop_idx hlt
        generalize s.drop r = u at *
        cases h with
        | done => exact absurd rfl this
        | step h1 _ => rw [ho] at h1; cases h1
      | some q =>
        obtain ⟨o, n⟩ := q
        rw [ho] at hs
        obtain ⟨b', h1, h2, h3⟩ := hs
        have hl := stepU_len ho
        rw [List.length_drop] at hl
        obtain ⟨o', h4, h5⟩ := @ih (r + n) (w + o.length) b' (by omega) (by omega) h1
        refine ⟨o'.map (o ++ ·), ?_, fun t => ?_⟩
        · rw [h3, h4, h2]
          cases o' <;> simp
        · constructor
          · intro h
            cases o' with
            | none => cases h
            | some t' =>
              cases h
              refine .step ho ?_
              rw [List.drop_drop]
              exact (h5 t').1 rfl
          · intro h
            have hne := drop_idx hlt
            rw [← List.drop_drop] at h5
            generalize s.drop r = u at *
            cases h with
            | done => exact absurd rfl hne
            | step g1 g2 =>
              rw [ho] at g1; cases g1
              rw [(h5 _).2 g2]; rfl
    · refine ⟨some [], ?_, fun t => ?_⟩
      · rw [unquoteLoop, if_neg hlt, sub, if_pos ⟨Nat.zero_le _, Nat.le_of_lt hw⟩]
        simp
      · rw [List.drop_eq_nil_of_le (by omega)]
        constructor
        · intro h; cases h; exact .done
        · intro h
          generalize hu : ([] : Bytes) = u at h
          cases h with
          | done => rfl
          | step h1 _ => subst hu; simp [stepU] at h1

/-! ### The specification -/

theorem hexDigit_iff {b : Byte} {d : Nat} : hexDigit b = some d ↔ HexIs b d := by
  have := b.toNat_lt
  simp only [hexDigit, HexIs, UInt8.le_iff_toNat_le]
  simp only [show (48 : Byte).toNat = 48 from rfl, show (57 : Byte).toNat = 57 from rfl, show (97 : Byte).toNat = 97 from rfl,
    show (102 : Byte).toNat = 102 from rfl, show (65 : Byte).toNat = 65 from rfl, show (70 : Byte).toNat = 70 from rfl]
  split
  · rw [Option.some.injEq]; omega
  split
  · rw [Option.some.injEq]; omega
  split
  · rw [Option.some.injEq]; omega
  · simp only [reduceCtorEq, false_iff]; omega

theorem hexEsc_iff {s r : Bytes} {n : Nat} : HexEsc s n r ↔ getu4 s = some n ∧ r = s.drop 6 := by
  constructor
  · rintro ⟨a, b, c, d, x, y, z, w, rfl, h1, h2, h3, h4, rfl⟩
    refine ⟨?_, rfl⟩
    simp only [getu4, hexLoop, hexDigit_iff.2 h1, hexDigit_iff.2 h2, hexDigit_iff.2 h3, hexDigit_iff.2 h4]
    congr 1; omega
  · rintro ⟨h, rfl⟩
    obtain ⟨a, b, c, d, x, y, z, w, s', rfl, ha, hb, hc, hd, rfl⟩ := getu4_some h
    exact ⟨a, b, c, d, x, y, z, w, rfl, hexDigit_iff.1 ha, hexDigit_iff.1 hb, hexDigit_iff.1 hc, hexDigit_iff.1 hd, by omega⟩

theorem simpleEscape_iff {x y : Byte} : simpleEscape x = some y ↔ (x, y) ∈ letterEscapes := by
  constructor
  · intro h
    unfold simpleEscape at h
    split at h
    · rename_i hx; cases h
      rcases hx with rfl | rfl | rfl | rfl <;> decide
    split at h
    · rename_i hx; subst hx; cases h; decide
    split at h
    · rename_i hx; subst hx; cases h; decide
    split at h
    · rename_i hx; subst hx; cases h; decide
    split at h
    · rename_i hx; subst hx; cases h; decide
    split at h
    · rename_i hx; subst hx; cases h; decide
    · cases h
  · intro h
    simp only [letterEscapes, List.mem_cons, Prod.mk.injEq, List.not_mem_nil, or_false] at h
    rcases h with ⟨rfl, rfl⟩ | ⟨rfl, rfl⟩ | ⟨rfl, rfl⟩ | ⟨rfl, rfl⟩ | ⟨rfl, rfl⟩ | ⟨rfl, rfl⟩ | ⟨rfl, rfl⟩ | ⟨rfl, rfl⟩ | ⟨rfl, rfl⟩ <;> rfl

theorem getu4_head {s : Bytes} {n : Nat} (h : getu4 s = some n) : ∃ s', s = 92 :: 117 :: s' := by
  obtain ⟨a, b, c, d, x, y, z, w, s', rfl, -⟩ := getu4_some h
  exact ⟨_, rfl⟩

theorem isSurrogate_iff {n : Nat} : isSurrogate n = true ↔ 0xD800 ≤ n ∧ n < 0xE000 := by simp [isSurrogate]

theorem stepU_hex {s : Bytes} {n : Nat} (h : getu4 s = some n) : stepU s =
    if isSurrogate n then
      if decodePair n (getu4 (s.drop 6)) ≠ 0xFFFD then some (runeBytes (decodePair n (getu4 (s.drop 6))), 12) else some (runeBytes 0xFFFD, 6)
    else some (runeBytes n, 6) := by
  obtain ⟨s', rfl⟩ := getu4_head h
  unfold stepU
  dsimp only
  rw [if_pos rfl, show simpleEscape 117 = none from rfl]
  dsimp only
  rw [if_pos rfl, h]

theorem utf8_high {c : Char} (h : 0x80 ≤ c.toNat) : ∃ b r, utf8 c = b :: r ∧ 0x80 ≤ b.toNat := by
  rw [utf8_def]
  have := char_valid c
  split
  · omega
  split
  · exact ⟨_, _, rfl, by rw [ofNat_toNat (by omega)]; omega⟩
  split
  · exact ⟨_, _, rfl, by rw [ofNat_toNat (by omega)]; omega⟩
  · exact ⟨_, _, rfl, by rw [ofNat_toNat (by omega)]; omega⟩

theorem utf8_low {c : Char} (h : c.toNat < 0x80) : utf8 c = [UInt8.ofNat c.toNat] := by
  rw [utf8_def, if_pos (by omega)]

theorem stepU_high {b : Byte} {s : Bytes} (h : 0x80 ≤ b.toNat) :
    stepU (b :: s) = some (runeBytes (decodeRune (b :: s)).1, (decodeRune (b :: s)).2) := by
  unfold stepU
  dsimp only
  have h1 : ¬ b = 92 := by rintro rfl; exact absurd h (by decide)
  have h2 : ¬ (b = 34 ∨ b < 32) := by
    rintro (rfl | h2)
    · exact absurd h (by decide)
    · rw [UInt8.lt_iff_toNat_lt] at h2; simp at h2; omega
  have h3 : ¬ b < 0x80 := by rw [UInt8.lt_iff_toNat_lt]; simp; omega
  rw [if_neg h1, if_neg h2, if_neg h3]

theorem stepU_low {b : Byte} {s : Bytes} (h : b.toNat < 0x80) (h1 : 32 ≤ b.toNat) (h2 : b ≠ 34) (h3 : b ≠ 92) : stepU (b :: s) = some ([b], 1) := by
  unfold stepU
  dsimp only
  have h2 : ¬ (b = 34 ∨ b < 32) := by
    rintro (rfl | h2)
    · exact h2 rfl
    · rw [UInt8.lt_iff_toNat_lt] at h2; simp at h2; omega
  have h3' : b < 0x80 := by rw [UInt8.lt_iff_toNat_lt]; simp; omega
  rw [if_neg h3, if_neg h2, if_pos h3']

theorem stepU_char {c : Char} {s : Bytes} (h : 32 ≤ c.toNat) (hq : c ≠ '"') (hb : c ≠ '\\') : stepU (utf8 c ++ s) = some (utf8 c, (utf8 c).length) := by
  by_cases hl : c.toNat < 0x80
  · have e : (UInt8.ofNat c.toNat).toNat = c.toNat := ofNat_toNat (by omega)
    rw [utf8_low hl]
    refine stepU_low (by omega) (by omega) ?_ ?_
    · intro hh
      have := congrArg UInt8.toNat hh
      rw [e] at this
      exact hq (Char.toNat_inj.1 this)
    · intro hh
      have := congrArg UInt8.toNat hh
      rw [e] at this
      exact hb (Char.toNat_inj.1 this)
  · obtain ⟨b, r, h1, h2⟩ := @utf8_high c (by omega)
    have := decodeRune_utf8 c s
    rw [h1] at this ⊢
    rw [List.cons_append] at this ⊢
    rw [stepU_high h2, this, runeBytes_char, h1]

theorem fffd : (Char.ofNat 0xFFFD).toNat = 0xFFFD := rfl

theorem runeBytes_fffd : runeBytes 0xFFFD = utf8 (Char.ofNat 0xFFFD) := runeBytes_char (Char.ofNat 0xFFFD)

theorem stepU_bad {b : Byte} {s : Bytes} (h : ∀ c u, b :: s ≠ utf8 c ++ u) : stepU (b :: s) = some (utf8 (Char.ofNat 0xFFFD), 1) := by
  have hb : 0x80 ≤ b.toNat := by
    apply Nat.le_of_not_lt
    intro hb
    obtain ⟨c, hc⟩ := @char_of b.toNat (.inl (by omega))
    refine h c s ?_
    rw [utf8_low (by omega), hc]; simp
  rw [stepU_high hb]
  by_cases hd : (decodeRune (b :: s)).1 = 0xFFFD ∧ (decodeRune (b :: s)).2 = 1
  · rw [hd.1, hd.2, runeBytes_fffd]
  · obtain ⟨c, hc, ht⟩ := decodeRune_ok hd
    exact absurd (ht ▸ (List.take_append_drop _ _).symm) (h c _)

theorem unesc_turns {s t : Bytes} (h : Unesc s t) : Turns s t := by
  induction h with
  | done => exact .done
  | char h1 h2 h3 _ ih => exact .step (stepU_char h1 h2 h3) (by rwa [List.drop_left])
  | bad h1 _ ih => exact .step (stepU_bad h1) ih
  | @letter x y s t h1 _ ih =>
    refine @Turns.step _ [y] _ 2 ?_ ih
    unfold stepU
    dsimp only
    rw [if_pos rfl, simpleEscape_iff.2 h1]
  | @hex s r t c h1 _ ih =>
    obtain ⟨h1', rfl⟩ := hexEsc_iff.1 h1
    refine .step (n := 6) ?_ ih
    have := char_valid c
    have hs : ¬ isSurrogate c.toNat = true := by rw [isSurrogate_iff]; omega
    rw [stepU_hex h1', if_neg hs, runeBytes_char]
  | @pair s r1 r t h l c h1 h2 hh hl hc _ ih =>
    obtain ⟨h1', rfl⟩ := hexEsc_iff.1 h1
    obtain ⟨h2', rfl⟩ := hexEsc_iff.1 h2
    rw [List.drop_drop] at ih
    refine .step (n := 12) ?_ ih
    have hs : isSurrogate (0xD800 + h) = true := by rw [isSurrogate_iff]; omega
    have hd : decodePair (0xD800 + h) (some (0xDC00 + l)) = c.toNat := by
      unfold decodePair
      dsimp only
      rw [if_pos (by omega)]; omega
    rw [stepU_hex h1', if_pos hs, h2', hd, if_pos (by omega), runeBytes_char]
  | @lone s r t n h1 hn1 hn2 hno _ ih =>
    obtain ⟨h1', rfl⟩ := hexEsc_iff.1 h1
    refine .step (n := 6) ?_ ih
    have hs : isSurrogate n = true := by rw [isSurrogate_iff]; omega
    have hd : ¬ decodePair n (getu4 (s.drop 6)) ≠ 0xFFFD := by
      intro hd
      obtain ⟨x, hx, h3, h4, h5, h6, -⟩ := decodePair_ne hd
      refine hno h4 (x - 0xDC00) ((s.drop 6).drop 6) (by omega) (hexEsc_iff.2 ⟨?_, rfl⟩)
      rw [hx, show 0xDC00 + (x - 0xDC00) = x by omega]
    rw [stepU_hex h1', if_pos hs, if_neg hd, runeBytes_fffd]

theorem turns_unesc {s t : Bytes} (h : Turns s t) : Unesc s t := by
  induction h with
  | done => exact .done
  | @step s o t n h1 _ ih =>
    cases s with
    | nil => simp [stepU] at h1
    | cons b s =>
      by_cases hb : b = 92
      · subst hb
        cases s with
        | nil => simp [stepU] at h1
        | cons x s =>
          cases hx : simpleEscape x with
          | some y =>
            simp only [stepU, if_true, hx, Option.some.injEq, Prod.mk.injEq] at h1
            obtain ⟨rfl, rfl⟩ := h1
            exact .letter (simpleEscape_iff.1 hx) ih
          | none =>
            cases hg : getu4 (92 :: x :: s) with
            | none =>
              simp only [stepU, if_true, hx, hg] at h1
              split at h1 <;> cases h1
            | some n' =>
              rw [stepU_hex hg] at h1
              have hlt := getu4_lt hg
              split at h1
              · rename_i hs
                rw [isSurrogate_iff] at hs
                split at h1
                · rename_i hd
                  obtain ⟨y, hy, h3, h4, h5, h6, h7⟩ := decodePair_ne hd
                  cases h1
                  obtain ⟨c, hc⟩ := @char_of (decodePair n' (getu4 (List.drop 6 (92 :: x :: s)))) (.inr (by omega))
                  rw [← hc, runeBytes_char]
                  rw [show (12 : Nat) = 6 + 6 from rfl, ← List.drop_drop] at ih
                  refine .pair (h := n' - 0xD800) (l := y - 0xDC00) (hexEsc_iff.2 ⟨?_, rfl⟩) (hexEsc_iff.2 ⟨?_, rfl⟩) (by omega) (by omega) (by omega) ih
                  · rw [hg, show 0xD800 + (n' - 0xD800) = n' by omega]
                  · rw [hy, show 0xDC00 + (y - 0xDC00) = y by omega]
                · rename_i hd
                  cases h1
                  rw [runeBytes_fffd]
                  refine .lone (hexEsc_iff.2 ⟨hg, rfl⟩) hs.1 hs.2 ?_ ih
                  intro hn l r' hl he
                  obtain ⟨he, -⟩ := hexEsc_iff.1 he
                  apply hd
                  rw [he]
                  unfold decodePair
                  dsimp only
                  rw [if_pos (by omega)]; omega
              · rename_i hs
                rw [isSurrogate_iff] at hs
                cases h1
                obtain ⟨c, rfl⟩ := @char_of n' (by omega)
                rw [runeBytes_char]
                exact .hex (hexEsc_iff.2 ⟨hg, rfl⟩) ih
      · by_cases hh : 0x80 ≤ b.toNat
        · rw [stepU_high hh] at h1
          by_cases hd : (decodeRune (b :: s)).1 = 0xFFFD ∧ (decodeRune (b :: s)).2 = 1
          · rw [hd.1, hd.2] at h1
            cases h1
            rw [runeBytes_fffd]
            refine .bad ?_ ih
            intro c u he
            rw [he, decodeRune_utf8] at hd
            have h3 := hd.2
            have hc : c = Char.ofNat 0xFFFD := Char.toNat_inj.1 hd.1
            subst hc
            exact absurd h3 (by decide)
          · obtain ⟨c, hc, ht⟩ := decodeRune_ok hd
            have hsp := (List.take_append_drop (decodeRune (b :: s)).2 (b :: s)).symm
            rw [ht] at hsp
            cases h1
            rw [← hc, runeBytes_char]
            rw [hsp]
            have hlow : ¬ c.toNat < 0x80 := by
              intro hl
              rw [utf8_low hl] at hsp
              simp only [List.cons_append, List.cons.injEq] at hsp
              have := congrArg UInt8.toNat hsp.1
              rw [ofNat_toNat (by omega)] at this
              omega
            refine .char (by omega) ?_ ?_ ih
            · rintro rfl; exact hlow (by decide)
            · rintro rfl; exact hlow (by decide)
        · by_cases h3 : b = 34 ∨ b < 32
          · simp only [stepU, if_neg hb, if_pos h3] at h1; cases h1
          · have h3' : 32 ≤ b.toNat ∧ b ≠ 34 := by
              constructor
              · apply Nat.le_of_not_lt
                intro h; exact h3 (.inr (by rw [UInt8.lt_iff_toNat_lt]; simpa using h))
              · intro h; exact h3 (.inl h)
            rw [stepU_low (by omega) h3'.1 h3'.2 hb] at h1
            cases h1
            obtain ⟨c, hc⟩ := @char_of b.toNat (.inl (by omega))
            have hu : utf8 c = [b] := by rw [utf8_low (by omega), hc]; simp
            rw [← List.singleton_append (l := s), ← hu]
            refine .char (by omega) ?_ ?_ ih
            · rintro rfl; exact h3'.2 (by rw [← UInt8.toNat_inj, ← hc]; rfl)
            · rintro rfl; exact hb (by rw [← UInt8.toNat_inj, ← hc]; rfl)

theorem turns_iff {s o : Bytes} {n : Nat} (h : stepU s = some (o, n)) {t : Bytes} : Turns s t ↔ ∃ t', t = o ++ t' ∧ Turns (s.drop n) t' := by
  constructor
  · intro hh
    cases hh with
    | done => simp [stepU] at h
    | step h1 h2 => rw [h] at h1; cases h1; exact ⟨_, rfl, h2⟩
  · rintro ⟨t', rfl, h2⟩; exact .step h h2

theorem plainLoop_steps {s : Bytes} : ∀ {f r r' : Nat}, plainLoop s f r = .ok r' → r ≤ s.length → s.length - r < f →
    ∀ t, Turns (s.drop r) t ↔ ∃ t', t = (s.drop r).take (r' - r) ++ t' ∧ Turns (s.drop r') t' := by
  intro f
  induction f with
  | zero => intro r r' _ _ h; omega
  | succ f ih =>
    intro r r' h hr hf t
    have hself : ∀ t, Turns (s.drop r) t ↔ ∃ t', t = (s.drop r).take (r - r) ++ t' ∧ Turns (s.drop r) t' := by
      intro t
      simp only [Nat.sub_self, List.take_zero, List.nil_append]
      exact ⟨fun h => ⟨t, rfl, h⟩, fun ⟨_, e, h⟩ => e ▸ h⟩
    have hgo : ∀ n, 1 ≤ n → r + n ≤ s.length → stepU (s.drop r) = some ((s.drop r).take n, n) → plainLoop s f (r + n) = .ok r' →
        (Turns (s.drop r) t ↔ ∃ t', t = (s.drop r).take (r' - r) ++ t' ∧ Turns (s.drop r') t') := by
      intro n hn1 hn2 hst hp
      obtain ⟨q, hq, hq1, hq2⟩ := @plainLoop_total s f (r + n) hn2 (by omega)
      rw [hp] at hq; cases hq
      rw [turns_iff hst]
      have := ih hp hn2 (by omega)
      rw [List.drop_drop]
      have hsplit : (s.drop r).take (r' - r) = (s.drop r).take n ++ (s.drop (r + n)).take (r' - (r + n)) := by
        rw [show r' - r = n + (r' - (r + n)) by omega, List.take_add, List.drop_drop]
      constructor
      · rintro ⟨t', rfl, ht⟩
        obtain ⟨t'', rfl, ht2⟩ := (this t').1 ht
        exact ⟨t'', by rw [hsplit, List.append_assoc], ht2⟩
      · rintro ⟨t', rfl, ht⟩
        exact ⟨_, by rw [hsplit, List.append_assoc], (this _).2 ⟨t', rfl, ht⟩⟩
    unfold plainLoop at h
    split at h
    · rename_i hlt
      simp only [idx_lt hlt, Res.bind_ok] at h
      have hdr : s.drop r = s[r] :: s.drop (r + 1) := List.drop_eq_getElem_cons hlt
      split at h
      · cases h; exact hself t
      rename_i hpl
      split at h
      · rename_i hlow
        refine hgo 1 (by omega) (by omega) ?_ h
        rw [hdr]
        refine stepU_low (by rw [UInt8.lt_iff_toNat_lt] at hlow; simpa using hlow) ?_ ?_ ?_
        · apply Nat.le_of_not_lt
          intro h; exact hpl (.inr (.inr (by rw [UInt8.lt_iff_toNat_lt]; simpa using h)))
        · intro h; exact hpl (.inr (.inl h))
        · intro h; exact hpl (.inl h)
      · rename_i hhigh
        have hd := decodeRune_drop hlt
        have hh : 0x80 ≤ s[r].toNat := by
          apply Nat.le_of_not_lt
          intro h; exact hhigh (by rw [UInt8.lt_iff_toNat_lt]; simpa using h)
        split at h
        · cases h; exact hself t
        · rename_i hne
          refine hgo _ hd.1 hd.2 ?_ h
          rw [hdr] at hne ⊢
          obtain ⟨c, hc, ht⟩ := decodeRune_ok hne
          rw [stepU_high hh, ← hc, runeBytes_char, ht]
    · cases h; exact hself t

theorem unquoteBytes_spec (s : Bytes) : ∃ o, unquoteBytes s = .ok o ∧ ∀ t, o = some t ↔ ∃ u, s = 34 :: u ++ [34] ∧ Unesc u t := by
  unfold unquoteBytes
  split
  · rename_i h
    refine ⟨none, rfl, fun t => ⟨fun h => (by cases h), ?_⟩⟩
    rintro ⟨u, rfl, -⟩
    rcases h with h | h | h
    · simp at h; omega
    · simp at h
    · rw [List.getLast?_append] at h; simp at h
  · rename_i h
    simp only [not_or, Nat.not_lt, Decidable.not_not] at h
    obtain ⟨h2, hh, hl⟩ := h
    have hs : ∃ u, s = 34 :: u ++ [34] := by
      cases s with
      | nil => simp at hh
      | cons a s =>
        simp only [List.head?_cons, Option.some.injEq] at hh
        subst hh
        have hne : s ≠ [] := by rintro rfl; simp at h2
        rw [List.getLast?_cons_of_ne_nil hne, List.getLast?_eq_some_getLast hne] at hl
        refine ⟨s.dropLast, ?_⟩
        rw [List.cons_append, ← Option.some.inj hl, List.dropLast_concat_getLast]
    obtain ⟨u, rfl⟩ := hs
    have hsub : sub (34 :: u ++ [34]) 1 ((34 :: u ++ [34]).length - 1) = .ok u := by
      simp [sub]
    have huniq : ∀ t, (∃ v, 34 :: u ++ [34] = 34 :: v ++ [34] ∧ Unesc v t) ↔ Turns u t := by
      intro t
      constructor
      · rintro ⟨v, hv, h⟩
        have : u = v := by simpa using hv
        subst this; exact unesc_turns h
      · intro h; exact ⟨u, rfl, turns_unesc h⟩
    rw [hsub]
    simp only [Res.bind_ok, huniq]
    obtain ⟨r, hr, -, hrl⟩ := @plainLoop_total u (u.length + 1) 0 (by omega) (by omega)
    have hst := plainLoop_steps hr (by omega) (by omega)
    simp only [List.drop_zero, Nat.sub_zero] at hst
    rw [hr]
    simp only [Res.bind_ok]
    split
    · rename_i he
      refine ⟨some u, rfl, fun t => ?_⟩
      rw [hst, he, List.drop_length, List.take_length, Option.some.injEq]
      constructor
      · rintro rfl; exact ⟨[], by simp, .done⟩
      · rintro ⟨t', rfl, ht⟩
        generalize hz : ([] : Bytes) = z at ht
        cases ht with
        | done => simp
        | step h1 _ => subst hz; simp [stepU] at h1
    · rename_i he
      have hsub2 : sub u 0 r = .ok (u.take r) := by simp [sub, hrl]
      rw [hsub2]
      simp only [Res.bind_ok]
      have hlen : (u.take r).length = r := by simp; omega
      obtain ⟨o, ho, hiff⟩ := @unquoteLoop_total u (u.length + 1) r (u.take r).length
        (u.take r ++ List.replicate (u.length + 8 - (u.take r).length) 0) (by omega) (by omega) (by simp; omega)
      refine ⟨_, ho, fun t => ?_⟩
      rw [List.take_left, hst]
      cases o with
      | none =>
        simp only [Option.map_none, reduceCtorEq, false_iff]
        rintro ⟨t', rfl, ht⟩
        cases (hiff t').2 ht
      | some x =>
        simp only [Option.map_some, Option.some.injEq]
        constructor
        · rintro rfl; exact ⟨x, rfl, (hiff x).1 rfl⟩
        · rintro ⟨t', rfl, ht⟩; rw [Option.some.inj ((hiff t').2 ht)]

/-- What the caller of `unquoteBytes` goes on with. -/
def unquoted (s : Bytes) : Bytes := match unquoteBytes s with | .ok (some t) => t | _ => s

theorem unquoteBytes_total (s : Bytes) : ∃ o, unquoteBytes s = .ok o ∧ o.getD s = unquoted s := by
  obtain ⟨o, ho, -⟩ := unquoteBytes_spec s
  refine ⟨o, ho, ?_⟩
  unfold unquoted
  rw [ho]
  cases o <;> rfl

theorem unquoted_of_head {s : Bytes} (h : s.head? ≠ some 34) : unquoted s = s := by
  unfold unquoted unquoteBytes
  rw [if_pos (.inr (.inl h))]

theorem unesc_chars {s t : Bytes} (h : Unesc s t) : ∃ cs : List Char, t = cs.flatMap utf8 := by
  induction h with
  | done => exact ⟨[], rfl⟩
  | @char c _ _ _ _ _ _ ih => obtain ⟨cs, rfl⟩ := ih; exact ⟨c :: cs, rfl⟩
  | bad _ _ ih => obtain ⟨cs, rfl⟩ := ih; exact ⟨Char.ofNat 0xFFFD :: cs, rfl⟩
  | @letter x y _ _ h _ ih =>
    obtain ⟨cs, rfl⟩ := ih
    have hy : y.toNat < 0x80 := by
      have : ∀ p ∈ letterEscapes, p.2.toNat < 0x80 := by decide
      exact this _ h
    obtain ⟨c, hc⟩ := @char_of y.toNat (.inl (by omega))
    exact ⟨c :: cs, by rw [List.flatMap_cons, utf8_low (by omega), hc]; simp⟩
  | @hex _ _ _ c _ _ ih => obtain ⟨cs, rfl⟩ := ih; exact ⟨c :: cs, rfl⟩
  | @pair _ _ _ _ _ _ c _ _ _ _ _ _ ih => obtain ⟨cs, rfl⟩ := ih; exact ⟨c :: cs, rfl⟩
  | lone _ _ _ _ _ ih => obtain ⟨cs, rfl⟩ := ih; exact ⟨Char.ofNat 0xFFFD :: cs, rfl⟩

theorem unesc_plain {cs : List Char} (h : ∀ c ∈ cs, 32 ≤ c.toNat ∧ c ≠ '"' ∧ c ≠ '\\') : Unesc (cs.flatMap utf8) (cs.flatMap utf8) := by
  induction cs with
  | nil => exact .done
  | cons c cs ih =>
    obtain ⟨h1, h2, h3⟩ := h c (by simp)
    exact .char h1 h2 h3 (ih fun c hc => h c (by simp [hc]))

end Verif

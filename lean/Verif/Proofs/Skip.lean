import Verif.Proofs.Lex
/-
`skipValue` accepts exactly the well-formed documents (exact lengths and counts, bounded nesting),
never panics, and always returns.
-/
namespace Verif
open Spec

theorem text_ne_nil (d : Doc) : d.text ≠ [] := by
  cases d <;> simp [Doc.text]

theorem text_length_pos (d : Doc) : 0 < d.text.length := List.length_pos_iff.2 (text_ne_nil d)

/-! ### Soundness -/

theorem skipPairs_sound {b : Bytes} {skip : Nat → Res Nat} {P : Doc → Prop}
    (hskip : ∀ c c', skip c = .ok c' → ∃ doc, P doc ∧ b.drop c = doc.text ++ b.drop c' ∧ c' = c + doc.text.length)
    {n c c' : Nat} (h : skipPairs skip n c = .ok c') :
    ∃ es : List (Doc × Doc), es.length = n ∧ (∀ k v, (k, v) ∈ es → P k) ∧ (∀ k v, (k, v) ∈ es → P v) ∧
      b.drop c = pairsText es ++ b.drop c' ∧ c' = c + (pairsText es).length := by
  induction n generalizing c with
  | zero =>
    simp only [skipPairs, Res.ok.injEq] at h
    subst h
    exact ⟨[], rfl, by simp, by simp, by simp [pairsText], by simp [pairsText]⟩
  | succ n ih =>
    simp only [skipPairs, Res.bind_eq_ok] at h
    obtain ⟨c1, h1, c2, h2, h3⟩ := h
    obtain ⟨k, hk, hk1, hk2⟩ := hskip _ _ h1
    obtain ⟨v, hv, hv1, hv2⟩ := hskip _ _ h2
    obtain ⟨es, e1, e2, e3, e4, e5⟩ := ih h3
    refine ⟨(k, v) :: es, by simp [e1], ?_, ?_, ?_, ?_⟩
    · intro k' v' hm
      rcases List.mem_cons.1 hm with he | hm
      · cases he; exact hk
      · exact e2 _ _ hm
    · intro k' v' hm
      rcases List.mem_cons.1 hm with he | hm
      · cases he; exact hv
      · exact e3 _ _ hm
    · simp [pairsText, hk1, hv1, e4]
    · simp [pairsText]; omega

theorem skipArray_sound {b : Bytes} {skip : Nat → Res Nat} {P : Doc → Prop}
    (hskip : ∀ c c', skip c = .ok c' → ∃ doc, P doc ∧ b.drop c = doc.text ++ b.drop c' ∧ c' = c + doc.text.length)
    {c c' d : Nat} (h : skipArray skip b c d = .ok c') :
    d ≤ maxDepth ∧ ∃ cnt es, LenText cnt es.length ∧ (∀ k v, (k, v) ∈ es → P k) ∧ (∀ k v, (k, v) ∈ es → P v) ∧
      b.drop c = 58 :: (cnt ++ 58 :: 123 :: (pairsText es ++ 125 :: b.drop c')) ∧
      c' = c + cnt.length + (pairsText es).length + 4 := by
  simp only [skipArray, Res.bind_eq_ok, Res.ite_err_ok] at h
  obtain ⟨hd, ⟨n, e⟩, hr, _, x, hx, hq, c2, hp, _, y, hy, hq', h⟩ := h
  simp only [ne_eq, Classical.not_not] at hq hq'
  subst hq hq'
  simp only [Res.ok.injEq] at h
  subst h
  obtain ⟨cnt, m, hm, rfl, hdrop, he⟩ := readLength_sound hr
  simp only [Int.toNat_natCast] at hp
  obtain ⟨es, e1, e2, e3, e4, e5⟩ := skipPairs_sound hskip hp
  subst e1
  refine ⟨by omega, cnt, es, hm, e2, e3, ?_, by omega⟩
  rw [hdrop, drop_of_idx hx, e4, drop_of_idx hy]

theorem skipValueF_sound {f : Nat} {b : Bytes} {c d c' : Nat} (hb : b.length < 2 ^ 63) (h : skipValueF f b c d = .ok c') :
    ∃ doc, Strict (maxDepth - d) doc ∧ b.drop c = doc.text ++ b.drop c' ∧ c' = c + doc.text.length := by
  induction f generalizing c d c' with
  | zero => simp [skipValueF] at h
  | succ f ih =>
    simp only [skipValueF, Res.ite_err_ok, Res.bind_eq_ok] at h
    obtain ⟨_, x, hx, h⟩ := h
    have hdx := drop_of_idx hx
    split at h
    · simp only [Res.bind_eq_ok] at h
      obtain ⟨e, he, h⟩ := h
      obtain ⟨clen, cls, hcl, hdrop, _, hee⟩ := skipClassName_sound hb he
      obtain ⟨hd, cnt, es, hc, hk, hv, hdrop2, hcc⟩ := skipArray_sound (fun c c' h => ih h) h
      have hs : maxDepth - d = maxDepth - (d + 1) + 1 := by omega
      rw [hs]
      refine ⟨.obj clen cls cnt es, .obj hcl hc hk hv, ?_, ?_⟩
      · rw [hdrop, hdrop2]; simp [Doc.text]
      · simp [Doc.text]; omega
    split at h
    · obtain ⟨hd, cnt, es, hc, hk, hv, hdrop2, hcc⟩ := skipArray_sound (fun c c' h => ih h) h
      rename_i hxa; subst hxa
      have hs : maxDepth - d = maxDepth - (d + 1) + 1 := by omega
      rw [hs]
      refine ⟨.arr cnt es, .arr hc hk hv, ?_, ?_⟩
      · rw [hdx, hdrop2]; simp [Doc.text]
      · simp [Doc.text]; omega
    split at h
    · rename_i hxa; subst hxa
      simp only [skipString, Res.ite_err_ok, Res.bind_eq_ok] at h
      obtain ⟨_, _, _, _, ⟨s, e⟩, hr, h⟩ := h
      simp only [Res.ok.injEq] at h; subst h
      obtain ⟨ds, hd, hdrop, hee⟩ := readString_sound hr
      refine ⟨.str ds s, .str hd, ?_, ?_⟩
      · rw [hdx, hdrop]; simp [Doc.text]
      · simp [Doc.text]; omega
    split at h
    · simp only [Res.bind_eq_ok] at h
      obtain ⟨⟨t, e⟩, hr, h⟩ := h
      simp only [Res.ok.injEq] at h; subst h
      obtain ⟨h1, h2, h3, h4⟩ := readFloatBytes_sound hr
      refine ⟨.float t, .float h1 h2, ?_, ?_⟩
      · rw [h3]; simp [Doc.text]
      · simp [Doc.text]; omega
    split at h
    · simp only [skipInt, Res.bind_eq_ok] at h
      obtain ⟨⟨t, e⟩, hr, h⟩ := h
      simp only [Res.ok.injEq] at h; subst h
      obtain ⟨⟨i, h1⟩, h3, h4⟩ := readIntegerBytes_sound hr
      refine ⟨.int t, .int h1, ?_, ?_⟩
      · rw [h3]; simp [Doc.text]
      · simp [Doc.text]; omega
    split at h
    · simp only [Res.bind_eq_ok] at h
      obtain ⟨v, hr, h⟩ := h
      simp only [Res.ok.injEq] at h; subst h
      have h1 := readBool_sound hr
      exact ⟨.bool v, .bool, by rw [h1]; simp [Doc.text], by simp [Doc.text]⟩
    split at h
    · simp only [Res.bind_eq_ok] at h
      obtain ⟨v, hr, h⟩ := h
      simp only [Res.ok.injEq] at h; subst h
      have h1 := validateNull_sound hdx hr
      rename_i hxa; subst hxa
      exact ⟨.null, .null, by rw [h1]; simp [Doc.text], by simp [Doc.text]⟩
    · simp at h

/-! ### Completeness -/

theorem skipPairs_complete {b : Bytes} {skip : Nat → Res Nat} {es : List (Doc × Doc)} {r : Bytes} {c : Nat}
    (hk : ∀ k v, (k, v) ∈ es → ∀ c r, b.drop c = k.text ++ r → skip c = .ok (c + k.text.length))
    (hv : ∀ k v, (k, v) ∈ es → ∀ c r, b.drop c = v.text ++ r → skip c = .ok (c + v.text.length))
    (h : b.drop c = pairsText es ++ r) : skipPairs skip es.length c = .ok (c + (pairsText es).length) := by
  induction es generalizing c with
  | nil => simp [skipPairs, pairsText]
  | cons kv es ih =>
    obtain ⟨k, v⟩ := kv
    simp only [pairsText, List.append_assoc] at h
    have h1 := drop_append_eq h
    have h2 := drop_append_eq h1
    simp only [List.length_cons, skipPairs]
    rw [hk k v List.mem_cons_self c _ h, Res.bind_ok, hv k v List.mem_cons_self _ _ h1, Res.bind_ok,
      ih (fun k v hm => hk k v (List.mem_cons_of_mem _ hm)) (fun k v hm => hv k v (List.mem_cons_of_mem _ hm)) h2]
    simp only [pairsText, List.length_append, Res.ok.injEq]; omega

theorem skipArray_complete {b : Bytes} {skip : Nat → Res Nat} {cnt : Bytes} {es : List (Doc × Doc)} {r : Bytes} {c d : Nat}
    (hk : ∀ k v, (k, v) ∈ es → ∀ c r, b.drop c = k.text ++ r → skip c = .ok (c + k.text.length))
    (hv : ∀ k v, (k, v) ∈ es → ∀ c r, b.drop c = v.text ++ r → skip c = .ok (c + v.text.length))
    (hc : LenText cnt es.length) (hd : d ≤ maxDepth)
    (h : b.drop c = 58 :: (cnt ++ 58 :: 123 :: (pairsText es ++ 125 :: r))) :
    skipArray skip b c d = .ok (c + cnt.length + (pairsText es).length + 4) := by
  have h1 := drop_tail (drop_append_eq (drop_tail h))
  have h2 := drop_tail h1
  have h3 := drop_append_eq h2
  have e1 : c + 1 + cnt.length + 1 = c + cnt.length + 2 := by omega
  rw [e1] at h1 h2 h3
  have l1 := lt_of_drop_cons h1
  have l3 := lt_of_drop_cons h3
  unfold skipArray
  rw [if_neg (by omega), readLength_complete hc h, Res.bind_ok]
  dsimp only
  rw [idx_of_drop h1, Res.bind_ok, Int.toNat_natCast, skipPairs_complete hk hv h2, Res.bind_ok, idx_of_drop h3, Res.bind_ok]
  simp only [Bool.not_eq_true', ne_eq, not_true, if_false, ← Bool.not_eq_true, hasByte_iff]
  rw [if_neg (by omega), if_neg (by omega)]
  simp only [Res.ok.injEq]; omega

theorem pairs_text_le {es : List (Doc × Doc)} {k v : Doc} (h : (k, v) ∈ es) :
    k.text.length + v.text.length ≤ (pairsText es).length := by
  induction es with
  | nil => simp at h
  | cons kv es ih =>
    obtain ⟨k', v'⟩ := kv
    simp only [pairsText, List.length_append]
    rcases List.mem_cons.1 h with he | hm
    · cases he; omega
    · have := ih hm; omega

theorem skipValueF_complete {b : Bytes} (hb : b.length < 2 ^ 63) {n : Nat} {doc : Doc} (hs : Strict n doc) :
    ∀ {f c d : Nat} {r : Bytes}, doc.text.length ≤ f → d + n ≤ maxDepth → b.drop c = doc.text ++ r →
    skipValueF f b c d = .ok (c + doc.text.length) := by
  induction hs with
  | @null n =>
    intro f c d r hf hd h
    obtain ⟨f, rfl⟩ : ∃ g, f = g + 1 := ⟨f - 1, by simp [Doc.text] at hf; omega⟩
    simp only [Doc.text, List.cons_append, List.nil_append] at h
    have hh : hasByte b c = true := hasByte_iff.2 (lt_of_drop_cons h)
    simp only [skipValueF, idx_of_drop h, Res.bind_ok, validateNull_complete h]
    simp (decide := true) [hh, Doc.text]
  | @bool n v =>
    intro f c d r hf hd h
    obtain ⟨f, rfl⟩ : ∃ g, f = g + 1 := ⟨f - 1, by simp [Doc.text] at hf; omega⟩
    simp only [Doc.text, List.cons_append, List.nil_append] at h
    have hh : hasByte b c = true := hasByte_iff.2 (lt_of_drop_cons h)
    simp only [skipValueF, idx_of_drop h, Res.bind_ok, readBool_complete h]
    simp (decide := true) [hh, Doc.text]
  | @int n t i hi =>
    intro f c d r hf hd h
    obtain ⟨f, rfl⟩ : ∃ g, f = g + 1 := ⟨f - 1, by simp [Doc.text] at hf; omega⟩
    simp only [Doc.text, List.cons_append, List.nil_append, List.append_assoc] at h
    have hh : hasByte b c = true := hasByte_iff.2 (lt_of_drop_cons h)
    simp only [skipValueF, idx_of_drop h, Res.bind_ok, skipInt, readIntegerBytes_complete hi h]
    simp (decide := true) [hh, Doc.text]; omega
  | @float n t h1 h2 =>
    intro f c d r hf hd h
    obtain ⟨f, rfl⟩ : ∃ g, f = g + 1 := ⟨f - 1, by simp [Doc.text] at hf; omega⟩
    simp only [Doc.text, List.cons_append, List.nil_append, List.append_assoc] at h
    have hh : hasByte b c = true := hasByte_iff.2 (lt_of_drop_cons h)
    simp only [skipValueF, idx_of_drop h, Res.bind_ok, readFloatBytes_complete h1 h2 h]
    simp (decide := true) [hh, Doc.text]; omega
  | @str n ds s hl =>
    intro f c d r hf hd h
    obtain ⟨f, rfl⟩ : ∃ g, f = g + 1 := ⟨f - 1, by simp [Doc.text] at hf; omega⟩
    simp only [Doc.text, List.cons_append, List.nil_append, List.append_assoc] at h
    have hh : hasByte b c = true := hasByte_iff.2 (lt_of_drop_cons h)
    simp only [skipValueF, idx_of_drop h, Res.bind_ok, skipString, readString_complete hb hl (drop_tail h)]
    simp (decide := true) [hh, Doc.text]; omega
  | @arr n cnt es hc hk hv ihk ihv =>
    intro f c d r hf hd h
    obtain ⟨f, rfl⟩ : ∃ g, f = g + 1 := ⟨f - 1, by simp [Doc.text] at hf; omega⟩
    simp only [Doc.text, List.length_append, List.length_cons, List.length_nil] at hf
    simp only [Doc.text, List.cons_append, List.nil_append, List.append_assoc] at h
    have hh : hasByte b c = true := hasByte_iff.2 (lt_of_drop_cons h)
    have hA := skipArray_complete (b := b) (skip := fun c => skipValueF f b c (d + 1)) (d := d + 1)
      (fun k v hm c r hd' => ihk k v hm (by have := pairs_text_le hm; omega) (by omega) hd')
      (fun k v hm c r hd' => ihv k v hm (by have := pairs_text_le hm; omega) (by omega) hd')
      hc (by omega) (drop_tail h)
    simp only [skipValueF, idx_of_drop h, Res.bind_ok, hA]
    simp (decide := true) [hh, Doc.text]; omega
  | @obj n clen cls cnt es hcl hc hk hv ihk ihv =>
    intro f c d r hf hd h
    obtain ⟨f, rfl⟩ : ∃ g, f = g + 1 := ⟨f - 1, by simp [Doc.text] at hf; omega⟩
    simp only [Doc.text, List.length_append, List.length_cons, List.length_nil] at hf
    simp only [Doc.text, List.cons_append, List.nil_append, List.append_assoc] at h
    have hh : hasByte b c = true := hasByte_iff.2 (lt_of_drop_cons h)
    have h4 := drop_append_eq (drop_tail (drop_tail (drop_append_eq (drop_tail (drop_tail h)))))
    have h5 := drop_tail h4
    have hA := skipArray_complete (b := b) (skip := fun c => skipValueF f b c (d + 1)) (d := d + 1)
      (fun k v hm c r hd' => ihk k v hm (by have := pairs_text_le hm; omega) (by omega) hd')
      (fun k v hm c r hd' => ihv k v hm (by have := pairs_text_le hm; omega) (by omega) hd')
      hc (by omega) h5
    rw [show c + 1 + 1 + clen.length + 1 + 1 + cls.length + 1 = c + clen.length + cls.length + 4 + 1 by omega] at hA
    simp only [skipValueF, idx_of_drop h, Res.bind_ok, skipClassName_complete hb hcl h, hA]
    simp (decide := true) [hh, Doc.text]; omega

/-! ### Totality -/

theorem skipPairs_returns {skip : Nat → Res Nat} {lo : Nat} (hr : ∀ c, lo ≤ c → (skip c).Returns)
    (hp : ∀ c c', skip c = .ok c' → c ≤ c') {n c : Nat} (hc : lo ≤ c) : (skipPairs skip n c).Returns := by
  induction n generalizing c with
  | zero => simp [skipPairs]
  | succ n ih =>
    simp only [skipPairs]
    refine Res.returns_bind (hr c hc) fun c1 h1 => ?_
    have := hp _ _ h1
    refine Res.returns_bind (hr c1 (by omega)) fun c2 h2 => ?_
    have := hp _ _ h2
    exact ih (by omega)

theorem skipArray_returns {b : Bytes} {skip : Nat → Res Nat} {c d : Nat} (hr : ∀ c', c < c' → (skip c').Returns)
    (hp : ∀ c c', skip c = .ok c' → c ≤ c') : (skipArray skip b c d).Returns := by
  unfold skipArray
  refine Res.returns_ite (fun _ => by simp) fun _ => ?_
  refine Res.returns_bind (readLength_returns _ _) fun ⟨n, e⟩ hn => ?_
  obtain ⟨ds, m, hm, rfl, hdrop, he⟩ := readLength_sound hn
  dsimp only
  refine Res.returns_ite (fun _ => by simp) fun h => ?_
  refine Res.returns_bind (idx_returns (by simpa using h)) fun _ _ => ?_
  refine Res.returns_ite (fun _ => by simp) fun _ => ?_
  refine Res.returns_bind (skipPairs_returns (lo := e + 1) (fun c' hc' => hr c' (by omega)) hp (by omega)) fun c2 _ => ?_
  refine Res.returns_ite (fun _ => by simp) fun h => ?_
  refine Res.returns_bind (idx_returns (by simpa using h)) fun _ _ => ?_
  exact Res.returns_ite (fun _ => by simp) fun _ => by simp

theorem skipValueF_returns {b : Bytes} (hb : b.length < 2 ^ 63) {f c d : Nat} (hf : 1 ≤ f) (hc : b.length + 1 ≤ f + c) :
    (skipValueF f b c d).Returns := by
  induction f generalizing c d with
  | zero => omega
  | succ f ih =>
    unfold skipValueF
    refine Res.returns_ite (fun _ => by simp) fun h => ?_
    simp only [Bool.not_eq_true', Bool.not_eq_false, hasByte_iff] at h
    refine Res.returns_bind (idx_returns h) fun x _ => ?_
    have hrec : ∀ c', c < c' → (skipValueF f b c' (d + 1)).Returns := fun c' hc' => ih (by omega) (by omega)
    have hprog : ∀ c c', skipValueF f b c (d + 1) = .ok c' → c ≤ c' := by
      intro c c' h
      obtain ⟨_, _, _, h3⟩ := skipValueF_sound hb h
      omega
    refine Res.returns_ite (fun _ => ?_) fun _ => ?_
    · refine Res.returns_bind (skipClassName_returns _ _) fun e he => ?_
      obtain ⟨_, _, _, _, _, hee⟩ := skipClassName_sound hb he
      exact skipArray_returns (fun c' hc' => hrec c' (by omega)) hprog
    refine Res.returns_ite (fun _ => skipArray_returns (fun c' hc' => hrec c' (by omega)) hprog) fun _ => ?_
    refine Res.returns_ite (fun _ => ?_) fun _ => ?_
    · unfold skipString
      refine Res.returns_ite (fun _ => by simp) fun h => ?_
      refine Res.returns_bind (idx_returns (by simpa using h)) fun _ _ => ?_
      refine Res.returns_ite (fun _ => by simp) fun _ => ?_
      exact Res.returns_bind (readString_returns _ _) fun _ _ => by simp
    refine Res.returns_ite (fun _ => Res.returns_bind (readFloatBytes_returns _ _) fun _ _ => by simp) fun _ => ?_
    refine Res.returns_ite (fun _ => Res.returns_bind (readIntegerBytes_returns _ _) fun _ _ => by simp) fun _ => ?_
    refine Res.returns_ite (fun _ => Res.returns_bind (readBool_returns _ _) fun _ _ => by simp) fun _ => ?_
    exact Res.returns_ite (fun _ => Res.returns_bind (validateNull_returns _ _) fun _ _ => by simp) fun _ => by simp

theorem skipValue_returns {b : Bytes} (hb : b.length < 2 ^ 63) (c d : Nat) : (skipValue b c d).Returns :=
  skipValueF_returns hb (by omega) (by omega)

/-- `skipValue` succeeds at a position exactly when a well-formed document of bounded nesting starts there,
and then it stops right after that document. -/
theorem skipValue_ok_iff {b : Bytes} (hb : b.length < 2 ^ 63) {c d c' : Nat} (hd : d ≤ maxDepth) :
    skipValue b c d = .ok c' ↔
    ∃ doc, Strict (maxDepth - d) doc ∧ b.drop c = doc.text ++ b.drop c' ∧ c' = c + doc.text.length := by
  constructor
  · exact skipValueF_sound hb
  · rintro ⟨doc, hs, hdrop, rfl⟩
    refine skipValueF_complete hb hs ?_ (by omega) hdrop
    have := congrArg List.length hdrop
    simp at this; omega

end Verif

import Verif.Proofs.Safety
/-
Nesting depth of documents, and facts about skipping and Unmarshaler types.
-/
set_option linter.unusedSimpArgs false
namespace Verif
open Spec

theorem pairsDepth_le {es : List (Doc × Doc)} {n : Nat} : pairsDepth es ≤ n ↔ ∀ k v, (k, v) ∈ es → k.depth ≤ n ∧ v.depth ≤ n := by
  induction es with
  | nil => simp [pairsDepth]
  | cons e es ih =>
    obtain ⟨a, b⟩ := e
    simp only [pairsDepth, Nat.max_le, ih, List.mem_cons, Prod.mk.injEq]
    constructor
    · rintro ⟨⟨h1, h2⟩, h3⟩ k v (⟨rfl, rfl⟩ | h)
      · exact ⟨h1, h2⟩
      · exact h3 k v h
    · intro h
      exact ⟨h a b (.inl ⟨rfl, rfl⟩), fun k v hkv => h k v (.inr hkv)⟩

theorem lax_depth_le {n : Nat} {d : Doc} (h : Lax n d) : d.depth ≤ n := by
  induction h with
  | arr _ _ _ ih1 ih2 =>
    rw [Doc.depth]
    have := pairsDepth_le.2 fun k v hkv => ⟨ih1 k v hkv, ih2 k v hkv⟩
    omega
  | obj _ _ _ _ ih1 ih2 =>
    rw [Doc.depth]
    have := pairsDepth_le.2 fun k v hkv => ⟨ih1 k v hkv, ih2 k v hkv⟩
    omega
  | _ => simp [Doc.depth]

theorem lax_of_depth {n m : Nat} {d : Doc} (h : Lax m d) (hd : d.depth ≤ n) : Lax n d := by
  induction h generalizing n with
  | null => exact .null
  | bool => exact .bool
  | int h => exact .int h
  | float h1 h2 => exact .float h1 h2
  | str h => exact .str h
  | arr h _ _ ih1 ih2 =>
    rw [Doc.depth] at hd
    obtain ⟨n, rfl⟩ : ∃ k, n = k + 1 := ⟨n - 1, by omega⟩
    have hp := pairsDepth_le.1 (Nat.le_of_succ_le_succ hd)
    exact .arr h (fun k v hkv => ih1 k v hkv (hp k v hkv).1) fun k v hkv => ih2 k v hkv (hp k v hkv).2
  | obj h h' _ _ ih1 ih2 =>
    rw [Doc.depth] at hd
    obtain ⟨n, rfl⟩ : ∃ k, n = k + 1 := ⟨n - 1, by omega⟩
    have hp := pairsDepth_le.1 (Nat.le_of_succ_le_succ hd)
    exact .obj h h' (fun k v hkv => ih1 k v hkv (hp k v hkv).1) fun k v hkv => ih2 k v hkv (hp k v hkv).2

theorem strict_of_depth {n m : Nat} {d : Doc} (h : Strict m d) (hd : d.depth ≤ n) : Strict n d := by
  induction h generalizing n with
  | null => exact .null
  | bool => exact .bool
  | int h => exact .int h
  | float h1 h2 => exact .float h1 h2
  | str h => exact .str h
  | arr h _ _ ih1 ih2 =>
    rw [Doc.depth] at hd
    obtain ⟨n, rfl⟩ : ∃ k, n = k + 1 := ⟨n - 1, by omega⟩
    have hp := pairsDepth_le.1 (Nat.le_of_succ_le_succ hd)
    exact .arr h (fun k v hkv => ih1 k v hkv (hp k v hkv).1) fun k v hkv => ih2 k v hkv (hp k v hkv).2
  | obj h h' _ _ ih1 ih2 =>
    rw [Doc.depth] at hd
    obtain ⟨n, rfl⟩ : ∃ k, n = k + 1 := ⟨n - 1, by omega⟩
    have hp := pairsDepth_le.1 (Nat.le_of_succ_le_succ hd)
    exact .obj h h' (fun k v hkv => ih1 k v hkv (hp k v hkv).1) fun k v hkv => ih2 k v hkv (hp k v hkv).2

theorem decodeF_unm {W : World} {t : Ty} {id : Nat} (hu : W.unmOf t = some id) {b : Bytes} {f c depth : Nat} {rv : Val} :
    decodeF W b (f + 1) t c depth rv = unmarshalDecode W id b c depth rv := by
  rw [decodeF_succ (.inl (by simp [hu]))]
  simp only [decodeNonPtr, hu]

/-- An Unmarshaler type reads one well-formed document and hands its text to the method. -/
theorem unmarshalDecode_run {W : World} {id : Nat} {b : Bytes} {c c' depth : Nat} {rv : Val} {d : Doc}
    (hb : b.length < 2 ^ 63) (hd : depth ≤ maxDepth) (h : At b c d c') (hs : Strict (maxDepth - depth) d) (hn : d ≠ .null) :
    unmarshalDecode W id b c depth rv = onOk rv ((W.unmarshal id d.text).mapErr (annotate c)) fun v => (v, .ok c') := by
  obtain ⟨h1, h2⟩ := skip_complete hb hd hs h
  obtain ⟨g1, g2, g3⟩ := text_guards d
  simp only [unmarshalDecode_eq, h1, h2, onOk_ok_eq, unquote_text]
  rw [if_neg g1, if_neg g2, if_neg g3, if_neg (fun h => hn ((text_null_iff hs).1 h))]

theorem unmarshalDecode_reject {W : World} {id : Nat} {b : Bytes} {c depth : Nat} {rv : Val}
    (hb : b.length < 2 ^ 63) (hd : depth ≤ maxDepth) (h : ¬ ∃ d post, Strict (maxDepth - depth) d ∧ b.drop c = d.text ++ post) :
    ∃ e, unmarshalDecode W id b c depth rv = (rv, .err e) := by
  rw [unmarshalDecode_eq]
  rcases (skipValue_returns hb c depth).cases with ⟨c', hc⟩ | ⟨e, he⟩
  · obtain ⟨d, h1, h2, -⟩ := (skipValue_ok_iff hb hd).1 hc
    exact absurd ⟨d, _, h1, h2⟩ h
  · exact ⟨e, by rw [he]; rfl⟩

/-- An interface that holds an Unmarshaler does the same with the held value. -/
theorem ifaceDecode_run {W : World} {b : Bytes} {c c' depth : Nat} {dt : Ty} {dv : Val} {d : Doc}
    (hb : b.length < 2 ^ 63) (hd : depth ≤ maxDepth) (h : At b c d c') (hs : Strict (maxDepth - depth) d) (hn : d ≠ .null)
    (hdyn : W.dynUnm dt = true) :
    ifaceDecode W b c depth (.iface dt dv) =
      onOk (.iface dt (W.unmarshalDyn dt dv d.text).1) (W.unmarshalDyn dt dv d.text).2 fun _ =>
        (.iface dt (W.unmarshalDyn dt dv d.text).1, .ok c') := by
  obtain ⟨h1, h2⟩ := skip_complete hb hd hs h
  simp only [ifaceDecode, hdyn, if_true, dynDecode_eq, h1, h2, onOk_ok_eq, unquote_text]
  rw [if_neg (fun h => hn ((text_null_iff hs).1 h))]

theorem decodeF_iface {W : World} {t : Ty} {i : Nat} (ht : Plain W t (.iface i)) {b : Bytes} {f c depth : Nat} {rv : Val} :
    decodeF W b (f + 1) t c depth rv = ifaceDecode W b c depth rv := by
  unfold decodeF
  simp only [ht.1, ht.2, decodeNonPtr]

end Verif

import Verif.Proofs.Twin
import Verif.Props.Structs
/-
Decoding into a destination that already holds something: C56 (the same document again), C57 (two documents one after the
other).
-/
namespace Verif
open Spec Demo

/-- C56: if `Unmarshal` of a document into a variable succeeded, then doing it again changes nothing. The types written to
in place may not include interfaces with methods (the held value's own method decides) nor maps keyed by `any` or by a type
with UnmarshalPHP (a NaN key makes a new entry every time). -/
theorem C56_idempotent (W : World) (hW : WorldOk W fun _ => True) (t : Ty) (old : Val) (hold : HasTy W (fun _ => True) t old)
    (hi : ∀ t' i, InPlace W t t' → ¬ Plain W t' (.iface i))
    (hm : ∀ t' k e, InPlace W t t' → Plain W t' (.map k e) → W.unmOf k = none ∧ W.resolve k ≠ .any)
    (fuel : Nat) (data : Bytes) (hb : data.length < 2 ^ 63) (v : Val)
    (h : unmarshal W fuel data (.ptr t old) = (some v, .ok ())) :
    unmarshal W fuel data (.ptr t v) = (some v, .ok ()) := by
  obtain ⟨hc, d, v', hv, rfl, h⟩ := (unmarshal_ok_iff hb).1 h
  cases hv
  have hz := shape_zero hW
  obtain ⟨o, ho, rfl, ha⟩ := decDoc_acts (K := fun k => k.goEq k = true) hz rfl h fun t' ht =>
    ⟨fun i => hi t' i ht, fun k e hp n d x hk h => key_refl hW (hm t' k e ht hp).1 (hm t' k e ht hp).2 hk h⟩
  refine (unmarshal_ok_iff hb).2 ⟨hc, d, _, rfl, rfl, ?_⟩
  have := ha _ (app_shape hz ho (shape_of_hasTy hold))
  rwa [app_twice ho] at this

/-- C56: what `Unmarshal` returns, success or which error or panic, depends on the destination's type, not on what it
holds, as long as no interface with methods is written to in place. -/
theorem C56_old_irrelevant (W : World) (hW : WorldOk W fun _ => True) (t : Ty) (old old' : Val)
    (hold : HasTy W (fun _ => True) t old) (hold' : HasTy W (fun _ => True) t old')
    (hi : ∀ t' i, InPlace W t t' → ¬ Plain W t' (.iface i)) (fuel : Nat) (data : Bytes) :
    (unmarshal W fuel data (.ptr t old)).2 = (unmarshal W fuel data (.ptr t old')).2 := by
  simp only [unmarshal]
  split
  · rfl
  · simp only [unmarshalInto]
    cases compileD W fuel [] t with
    | ok _ =>
      have h := decodeF_twin (b := data) (f := data.length + 1) (c := 0) (depth := 0) (shape_zero hW) hi (shape_of_hasTy hold) (shape_of_hasTy hold')
      simp only [onOk]
      revert h
      rcases decodeF W data (data.length + 1) t 0 0 old with ⟨v, r⟩
      rcases decodeF W data (data.length + 1) t 0 0 old' with ⟨v', r'⟩
      rintro ⟨h, -⟩
      cases h
      cases r <;> rfl
    | _ => rfl

theorem inPlace_struct1 {t : Ty} (h : InPlace Demo.W (.struct 1) t) : t = .struct 1 ∨ t = .ptr (.struct 1) ∨ t = .int .int := by
  induction h with
  | refl => exact .inl rfl
  | ptr _ h ih =>
    rcases ih with rfl | rfl | rfl
    · cases h.2
    · cases h.2; exact .inl rfl
    · cases h.2
  | field _ h hf _ ih =>
    rcases ih with rfl | rfl | rfl
    · cases h.2
      simp [Demo.W, Demo.fields] at hf
      rcases hf with rfl | rfl
      · exact .inr (.inl rfl)
      · exact .inr (.inr rfl)
    · cases h.2
    · cases h.2

/-- The same error, at the same place, for a nil pointer and for a pointer to a struct. -/
example : (unmarshal Demo.W 9 (b! "a:1:{s:4:\"next\";a:1:{s:1:\"n\";b:1;}}") (.ptr (.struct 1) (.struct [.ptrNil, .int 4]))).2 =
      .err (.unexpected "'i' to start an integer" 29 98) ∧
    (unmarshal Demo.W 9 (b! "a:1:{s:4:\"next\";a:1:{s:1:\"n\";b:1;}}")
      (.ptr (.struct 1) (.struct [.ptr (.struct [.ptrNil, .int 3]), .int 4]))).2 = .err (.unexpected "'i' to start an integer" 29 98) := by
  refine ⟨by krfl, by krfl⟩

/-- Struct 1 meets the conditions, and a document that writes through the pointer of a struct already there gives the same
the second time. -/
example : (∀ t' i, InPlace Demo.W (.struct 1) t' → ¬ Plain Demo.W t' (.iface i)) ∧
    (∀ t' k e, InPlace Demo.W (.struct 1) t' → Plain Demo.W t' (.map k e) → Demo.W.unmOf k = none ∧ Demo.W.resolve k ≠ .any) ∧
    WorldOk Demo.W (fun _ => True) ∧
    HasTy Demo.W (fun _ => True) (.struct 1) (.struct [.ptr (.struct [.ptrNil, .int 3]), .int 4]) ∧
    unmarshal Demo.W 9 (b! "a:1:{s:4:\"next\";a:1:{s:4:\"next\";a:0:{}}}") (.ptr (.struct 1) (.struct [.ptr (.struct [.ptrNil, .int 3]), .int 4])) =
      (some (.struct [.ptr (.struct [.ptr (.struct [.ptrNil, .int 0]), .int 3]), .int 4]), .ok ()) ∧
    unmarshal Demo.W 9 (b! "a:1:{s:4:\"next\";a:1:{s:4:\"next\";a:0:{}}}")
        (.ptr (.struct 1) (.struct [.ptr (.struct [.ptr (.struct [.ptrNil, .int 0]), .int 3]), .int 4])) =
      (some (.struct [.ptr (.struct [.ptr (.struct [.ptrNil, .int 0]), .int 3]), .int 4]), .ok ()) := by
  refine ⟨?_, ?_, demo_ok _, ?_, by krfl, by krfl⟩
  · intro t' i h hp
    rcases inPlace_struct1 h with rfl | rfl | rfl <;> cases hp.2
  · intro t' k e h hp
    rcases inPlace_struct1 h with rfl | rfl | rfl <;> cases hp.2
  · have h3 : HasTy Demo.W (fun _ => True) (.struct 1) (.struct [.ptrNil, .int 3]) := by
      refine demo_struct rfl fun p hp => ?_
      simp [Demo.W, Demo.fields] at hp
      rcases hp with rfl | rfl
      · exact .ptrNil rfl
      · exact .int rfl (by simp [InRange, intMax])
    refine demo_struct rfl fun p hp => ?_
    simp [Demo.W, Demo.fields] at hp
    rcases hp with rfl | rfl
    · exact .ptr rfl h3
    · exact .int rfl (by simp [InRange, intMax])

/-- The NaN of package math. -/
def nanVal : Val := .iface .f64 (.f64 0x7FF8000000000001)

theorem nan_key (m : List (Val × Val)) (x : Val) : mapInsert nanVal x m = m ++ [(nanVal, x)] := by
  refine put_absent ?_
  rintro ⟨p, -, h⟩
  have := goEq_trans (goEq_symm h) h
  revert this
  decide

/-- C56, the limit: decoding a map with a NaN key again adds one more entry every time, whatever the map holds. -/
theorem C56_nan_key_grows (W : World) (m : List (Val × Val)) :
    unmarshal W 9 (b! "a:1:{d:NAN;i:1;}") (.ptr (.map .any (.int .i64)) (.map m)) = (some (.map (m ++ [(nanVal, .int 1)])), .ok ()) := by
  have hd : Doc.text (.arr (b! "1") [(.float (b! "NAN"), .int (b! "1"))]) = b! "a:1:{d:NAN;i:1;}" := by rfl
  rw [← hd]
  refine (unmarshal_ok_iff (by rw [hd]; decide)).2 ⟨rfl, _, _, rfl, rfl, ?_⟩
  refine .map (n := 9999) (m := 1) ⟨rfl, rfl⟩ .arr ⟨⟨by simp, by simp; decide⟩, by decide, by simp⟩ .map ?_
  refine .key (x := .int 1) (kv := nanVal) (.inr (.inr (.inr (.inr (.inr (.inl rfl)))))) ?_ ?_ (.iface .f64) ?_
  · exact .anyFloat ⟨rfl, rfl⟩ (by simp) (by simp) .nan
  · exact .int (k := .i64) ⟨rfl, rfl⟩ (.pos (ds := b! "1") ⟨by simp, by simp; decide⟩) (by simp [InRange, intMax])
  · rw [nan_key]; exact .nil

/-! ### Two documents -/

/-- C57: for structs and maps, decoding one document and then another into the same variable is decoding the document that
has the entries of both; it succeeds exactly if both steps do. -/
theorem C57_concat (W : World) (t : Ty) (ht : (∃ id, Plain W t (.struct id)) ∨ ∃ k e, Plain W t (.map k e)) (fuel n : Nat)
    (es1 es2 : List (Doc × Doc)) (hr : Readable n (es1 ++ es2)) (d1 d2 d : Doc) (c1 c2 c : Bytes) (m1 m2 m : Nat)
    (hc1 : LenText c1 m1) (hc2 : LenText c2 m2) (hc : LenText c m)
    (hd1 : Container d1 c1 es1) (hd2 : Container d2 c2 es2) (hd : Container d c (es1 ++ es2))
    (hb1 : d1.text.length < 2 ^ 63) (hb2 : d2.text.length < 2 ^ 63) (hb : d.text.length < 2 ^ 63)
    (old v : Val) (hs : (∃ id, Plain W t (.struct id)) → ∃ vs, old = .struct vs) :
    unmarshal W fuel d.text (.ptr t old) = (some v, .ok ()) ↔
    ∃ u, unmarshal W fuel d1.text (.ptr t old) = (some u, .ok ()) ∧ unmarshal W fuel d2.text (.ptr t u) = (some v, .ok ()) := by
  have hl := container_lax hd hc.1 hr
  have hl1 := container_lax (n := n) hd1 hc1.1 fun k w hm => hr k w (by simp [hm])
  have hl2 := container_lax (n := n) hd2 hc2.1 fun k w hm => hr k w (by simp [hm])
  simp only [unmarshal_text_iff hb hl, unmarshal_text_iff hb1 hl1, unmarshal_text_iff hb2 hl2]
  rcases ht with ⟨id, ht⟩ | ⟨k, e, ht⟩
  · obtain ⟨vs, rfl⟩ := hs ⟨id, ht⟩
    have key : ∀ {d : Doc} {c : Bytes} {es : List (Doc × Doc)} {m : Nat} {vs : List Val} {v : Val}, Container d c es → LenText c m →
        (DecDoc W t maxDepth d (.struct vs) v ↔ ∃ vs', v = .struct vs' ∧ DecFields W id 9999 es vs vs') := by
      intro d c es m vs v hd hc
      rw [decDoc_struct_iff ht hd hc.1]
      constructor
      · rintro ⟨m, hm, ⟨rfl, rfl⟩ | ⟨hne, ws, ws', h, rfl, h'⟩⟩
        · exact ⟨_, rfl, .nil⟩
        · cases h
          have : m = 9999 := by simp [maxDepth] at hm; omega
          subst this
          exact ⟨_, rfl, h'⟩
      · rintro ⟨vs', rfl, h⟩
        refine ⟨9999, rfl, ?_⟩
        by_cases he : es = []
        · subst he; cases h; exact .inl ⟨rfl, rfl⟩
        · exact .inr ⟨he, _, _, rfl, rfl, h⟩
    rw [key hd hc, show (∃ vs', v = Val.struct vs' ∧ DecFields W id 9999 (es1 ++ es2) vs vs') ↔ _ from Iff.rfl]
    simp only [decFields_append, key hd1 hc1]
    constructor
    · rintro ⟨h0, vs', rfl, us, h1, h2⟩
      exact ⟨_, ⟨h0, us, rfl, h1⟩, h0, (key hd2 hc2).2 ⟨_, rfl, h2⟩⟩
    · rintro ⟨u, ⟨h0, us, rfl, h1⟩, -, h2⟩
      obtain ⟨vs', rfl, h3⟩ := (key hd2 hc2).1 h2
      exact ⟨h0, _, rfl, us, h1, h3⟩
  · simp only [decDoc_map_iff ht hd, decDoc_map_iff ht hd1, decDoc_map_iff ht hd2]
    constructor
    · rintro ⟨h0, a, l, b0, b1, hm, -, hb, rfl, h⟩
      obtain ⟨u, h1, h2⟩ := decPairs_append.1 h
      exact ⟨.map u, ⟨h0, a, m1, b0, u, hm, hc1, hb, rfl, h1⟩, h0, a, m2, u, b1, hm, hc2, .map, rfl, h2⟩
    · rintro ⟨u, ⟨h0, a, l, b0, b1, hm, -, hb, rfl, h1⟩, -, a', l', b0', b1', hm', -, hb', rfl, h2⟩
      cases hb'
      have : a = a' := by omega
      subst this
      exact ⟨h0, a, m, b0, _, hm, hc, hb, rfl, decPairs_append.2 ⟨_, h1, h2⟩⟩

/-- Two documents for a struct, and the document with both sets of entries. -/
example : unmarshal Demo.W 9 (b! "a:1:{s:4:\"next\";a:1:{s:1:\"n\";i:5;}}") (.ptr (.struct 1) (Demo.structZero 1)) =
      (some (.struct [.ptr (.struct [.ptrNil, .int 5]), .int 0]), .ok ()) ∧
    unmarshal Demo.W 9 (b! "a:2:{s:4:\"next\";a:1:{s:4:\"next\";a:0:{}}s:1:\"n\";i:6;}") (.ptr (.struct 1) (.struct [.ptr (.struct [.ptrNil, .int 5]), .int 0])) =
      (some (.struct [.ptr (.struct [.ptr (.struct [.ptrNil, .int 0]), .int 5]), .int 6]), .ok ()) ∧
    unmarshal Demo.W 9 (b! "a:3:{s:4:\"next\";a:1:{s:1:\"n\";i:5;}s:4:\"next\";a:1:{s:4:\"next\";a:0:{}}s:1:\"n\";i:6;}") (.ptr (.struct 1) (Demo.structZero 1)) =
      (some (.struct [.ptr (.struct [.ptr (.struct [.ptrNil, .int 0]), .int 5]), .int 6]), .ok ()) := ⟨by krfl, by krfl, by krfl⟩

/-- For slices this is not so: the second document replaces what the first one stored. -/
example : unmarshal Demo.W 9 (b! "a:1:{i:0;i:5;}") (.ptr (.slice (.int .i64)) .sliceNil) = (some (.slice [.int 5]), .ok ()) ∧
    unmarshal Demo.W 9 (b! "a:1:{i:1;i:6;}") (.ptr (.slice (.int .i64)) (.slice [.int 5])) = (some (.slice [.int 0, .int 6]), .ok ()) ∧
    unmarshal Demo.W 9 (b! "a:2:{i:0;i:5;i:1;i:6;}") (.ptr (.slice (.int .i64)) .sliceNil) = (some (.slice [.int 5, .int 6]), .ok ()) :=
  ⟨by krfl, by krfl, by krfl⟩

end Verif

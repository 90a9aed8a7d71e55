import Verif.Proofs.Containers
import Verif.Props.Structs
/-
Decoding into maps, arrays and slices: C17, C18, C19.
-/
namespace Verif
open Spec Demo

/-- The text of `d` on its own, decoded at nesting depth 1 into a variable of type `t` holding `a`, gives `b`. (That the text
decodes the same inside its container is C44.) -/
def Alone (W : World) (t : Ty) (d : Doc) (a b : Val) : Prop :=
  decodeF W d.text (d.text.length + 1) t 0 1 a = (b, .ok d.text.length)

theorem alone_iff {W : World} {t : Ty} {d : Doc} {a b : Val} {n : Nat} (hb : d.text.length < 2 ^ 63) (hl : Lax n d) :
    Alone W t d a b ↔ DecDoc W t 9999 d a b :=
  decode_at_iff (depth := 1) hb (by decide) (by omega) (at_text d) hl

theorem chain_congr {dec dec' : Doc → Val → Val → Prop} {ds : List Doc} (h : ∀ d ∈ ds, ∀ a b, dec d a b ↔ dec' d a b) {a b : Val} :
    Chain dec ds a b ↔ Chain dec' ds a b := by
  induction ds generalizing a with
  | nil => constructor <;> intro h <;> cases h <;> exact .nil
  | cons d ds ih =>
    have ih := @ih fun d hd => h d (List.mem_cons_of_mem _ hd)
    constructor
    · intro hc
      cases hc with
      | cons h1 h2 => exact .cons ((h d List.mem_cons_self _ _).1 h1) (ih.1 h2)
    · intro hc
      cases hc with
      | cons h1 h2 => exact .cons ((h d List.mem_cons_self _ _).2 h1) (ih.2 h2)

theorem mem_docsAt {es : List (Doc × Doc)} {i : Nat} {d : Doc} (h : d ∈ docsAt es i) : ∃ k, (k, d) ∈ es := by
  simp only [docsAt, List.mem_map, List.mem_filter] at h
  obtain ⟨⟨k, d'⟩, ⟨h1, -⟩, rfl⟩ := h
  exact ⟨k, h1⟩

/-- C17: an array or object decoded into a map. Every entry of the input decodes on its own to a key and a value, starting
from zero values. Afterwards the map gives, for every key, the value of the last entry of the input with that key, and what
it gave before if no entry has that key. The entries of the map are the input's entries that no later one replaces, with their
own keys (0 and -0 are equal as keys; NaN is not equal to itself), and the old entries that none replaces. -/
theorem C17_map_last_wins (W : World) (t k e : Ty) (ht : Plain W t (.map k e)) (hk : KeyType W k) (fuel n : Nat)
    (d : Doc) (cnt : Bytes) (es : List (Doc × Doc)) (hd : Container d cnt es) (hl : Lax n d) (hb : d.text.length < 2 ^ 63)
    (old : Val) (base : List (Val × Val)) (hold : old = .map base ∨ old = .mapNil ∧ base = []) (v : Val)
    (h : unmarshal W fuel d.text (.ptr t old) = (some v, .ok ())) :
    ∃ new kvs, v = .map new ∧ kvs.length = es.length ∧
      (∀ kd d' kv x, ((kd, d'), (kv, x)) ∈ es.zip kvs → Alone W k kd (W.zero k) kv ∧ Alone W e d' (W.zero e) x) ∧
      (∀ q, lookup q new = (lookupLast q kvs).or (lookup q base)) ∧
      (base.Pairwise (fun p q => ¬ p.1.goEq q.1 = true) → new.Pairwise (fun p q => ¬ p.1.goEq q.1 = true) ∧
        ∀ p, p ∈ new ↔ (∃ xs ys, kvs = xs ++ p :: ys ∧ ∀ q ∈ ys, ¬ p.1.goEq q.1 = true) ∨
          p ∈ base ∧ ∀ q ∈ kvs, ¬ p.1.goEq q.1 = true) := by
  obtain ⟨-, h⟩ := (unmarshal_text_iff hb hl).1 h
  obtain ⟨m, l, es0, es1, hm, -, hbase, rfl, hp⟩ := (decDoc_map_iff ht hd).1 h
  have hm : m = 9999 := by simp [maxDepth] at hm; omega
  subst hm
  have : es0 = base := by
    rcases hold with rfl | ⟨rfl, rfl⟩ <;> cases hbase <;> rfl
  subst this
  obtain ⟨kvs, ⟨h1, h2⟩, rfl⟩ := (decPairs_iff hk).1 hp
  refine ⟨_, kvs, rfl, h1, ?_, fun q => lookup_foldl, fun hn => ⟨noDup_foldl hn, fun p => mem_foldl_iff hn⟩⟩
  intro kd d' kv x hm
  obtain ⟨b1, b2, -⟩ := h2 _ hm
  have hmem := List.of_mem_zip hm
  have hlen := mem_pairs_len hmem.1
  have := container_len hd
  exact ⟨(alone_iff (by simp only []; omega) (decDoc_lax b1)).2 b1, (alone_iff (by simp only []; omega) (decDoc_lax b2)).2 b2⟩

/-- C17, acceptance: if the type compiles and all entries decode on their own to keys and values, with hashable keys, then the
container is accepted. -/
theorem C17_map_accepts (W : World) (t k e : Ty) (ht : Plain W t (.map k e)) (hk : KeyType W k) (fuel l : Nat)
    (hc : compileD W fuel [] t = .ok ()) (d : Doc) (cnt : Bytes) (hcnt : LenText cnt l) (es : List (Doc × Doc)) (hd : Container d cnt es)
    (n : Nat) (hr : Readable n es) (hb : d.text.length < 2 ^ 63)
    (old : Val) (hold : (∃ base, old = .map base) ∨ old = .mapNil) (kvs : List (Val × Val)) (hlen : kvs.length = es.length)
    (hkv : ∀ kd d' kv x, ((kd, d'), (kv, x)) ∈ es.zip kvs → Alone W k kd (W.zero k) kv ∧ Alone W e d' (W.zero e) x ∧ Hashable kv) :
    ∃ new, unmarshal W fuel d.text (.ptr t old) = (some (.map new), .ok ()) := by
  obtain ⟨base, hbase⟩ : ∃ base, MapBase old base := by
    rcases hold with ⟨base, rfl⟩ | rfl
    · exact ⟨_, .map⟩
    · exact ⟨_, .nil⟩
  have hlc := container_len hd
  refine ⟨_, (unmarshal_text_iff hb (container_lax hd hcnt.1 hr)).2 ⟨hc, (decDoc_map_iff ht hd).2
    ⟨9999, l, base, _, rfl, hcnt, hbase, rfl, (decPairs_iff hk).2 ⟨kvs, ⟨hlen, ?_⟩, rfl⟩⟩⟩⟩
  rintro ⟨⟨kd, d'⟩, ⟨kv, x⟩⟩ hm
  obtain ⟨b1, b2, b3⟩ := hkv _ _ _ _ hm
  have hmem := (List.of_mem_zip hm).1
  have := mem_pairs_len hmem
  obtain ⟨r1, r2⟩ := hr _ _ hmem
  exact ⟨(alone_iff (by omega) r1).1 b1, (alone_iff (by omega) r2).1 b2, b3⟩

/-- Entry `x` stays, `y` is overwritten twice, `z` is new. -/
example : unmarshal Demo.W 9 (b! "a:3:{s:1:\"y\";i:1;s:1:\"z\";i:2;s:1:\"y\";i:3;}")
      (.ptr (.map .str (.int .i64)) (.map [(.str (b! "x"), .int 8), (.str (b! "y"), .int 9)])) =
    (some (.map [(.str (b! "x"), .int 8), (.str (b! "y"), .int 3), (.str (b! "z"), .int 2)]), .ok ()) := by krfl

/-- Every NaN key makes an entry of its own. -/
example : unmarshal Demo.W 9 (b! "a:2:{d:NAN;i:1;d:NAN;i:2;}") (.ptr (.map .any (.int .i64)) (.map [(.iface .f64 (.f64 0x7FF8000000000001), .int 3)])) =
    (some (.map [(.iface .f64 (.f64 0x7FF8000000000001), .int 3), (.iface .f64 (.f64 0x7FF8000000000001), .int 1),
      (.iface .f64 (.f64 0x7FF8000000000001), .int 2)]), .ok ()) := by krfl

/-- C18: an array decoded into `[N]T`. It is accepted exactly if the count is `0` and there are no entries or the count is a
numeral without leading zero and there are entries, all keys are non-negative integers, the values given for positions
inside the array decode one after the other starting from the zero value, and the values for other positions are
well-formed; the latter are ignored. The result always has `N` elements, zero where no value was given. -/
theorem C18_array_by_index (W : World) (t e : Ty) (N : Nat) (ht : Plain W t (.array N e)) (fuel n : Nat) (hc : compileD W fuel [] t = .ok ())
    (cnt : Bytes) (es : List (Doc × Doc)) (hl : Lax n (.arr cnt es)) (hb : (Doc.arr cnt es).text.length < 2 ^ 63) (old v : Val) :
    unmarshal W fuel (Doc.arr cnt es).text (.ptr t old) = (some v, .ok ()) ↔
    (cnt = [48] ∧ es = [] ∨ cnt.head? ≠ some 48 ∧ es ≠ [] ∧ ∃ m, LenText cnt m) ∧
    (∀ k d, (k, d) ∈ es → ∃ i, IndexDoc k i ∧ (N ≤ i → Strict 9999 d)) ∧
    ∃ vs, v = .arr vs ∧ vs.length = N ∧ ∀ i, i < N → ∃ b, vs[i]? = some b ∧ Chain (Alone W e) (docsAt es i) (W.zero e) b := by
  rw [unmarshal_text_iff hb hl]
  have hsub : ∀ k d, (k, d) ∈ es → d.text.length < 2 ^ 63 ∧ ∃ m, Lax m d := by
    intro k d hm
    have h1 := mem_pairs_len hm
    have h2 := container_len (Container.arr (cnt := cnt) (es := es))
    cases hl with
    | arr _ _ h => exact ⟨by omega, _, h k d hm⟩
  have hch : ∀ i a b, Chain (Alone W e) (docsAt es i) a b ↔ Chain (DecDoc W e 9999) (docsAt es i) a b := by
    intro i a b
    refine chain_congr fun d hd a b => ?_
    obtain ⟨k, hm⟩ := mem_docsAt hd
    obtain ⟨h1, m, h2⟩ := hsub k d hm
    exact alone_iff h1 h2
  rw [show maxDepth = 9999 + 1 from rfl, decDoc_array_iff ht]
  simp only [hch, decArr_iff, List.length_replicate]
  constructor
  · rintro ⟨-, h1, vs, rfl, h2, h3, h4⟩
    refine ⟨h1, fun k d hm => h3 _ hm, vs, rfl, h2, fun i hi => ?_⟩
    obtain ⟨b, hb⟩ : ∃ b, vs[i]? = some b := ⟨_, List.getElem?_eq_getElem (by omega)⟩
    exact ⟨b, hb, h4 i _ b (by rw [List.getElem?_replicate, if_pos hi]) hb⟩
  · rintro ⟨h1, h2, vs, rfl, h3, h4⟩
    refine ⟨hc, h1, vs, rfl, h3, fun p hp => h2 _ _ hp, fun i a b ha hb => ?_⟩
    rw [List.getElem?_replicate] at ha
    split at ha
    · rename_i hi
      cases ha
      obtain ⟨b', hb', h⟩ := h4 i hi
      rw [hb] at hb'; cases hb'
      exact h
    · cases ha

example : unmarshal Demo.W 9 (b! "a:3:{i:1;i:5;i:7;N;i:1;i:6;}") (.ptr (.array 3 (.int .i64)) (.arr [.int 9, .int 9, .int 9])) =
    (some (.arr [.int 0, .int 6, .int 0]), .ok ()) := rfl

/-- Element types whose old value does not matter when a value other than null is stored: booleans, numbers, strings. -/
def Overwritten (W : World) (t : Ty) : Prop := IsScalar W t ∨ Plain W t .str

theorem overwritten_dec {W : World} {t : Ty} (h : Overwritten W t) {n : Nat} {d : Doc} (hn : d ≠ .null) {a a' v : Val}
    (hd : DecDoc W t n d a v) : DecDoc W t n d a' v := by
  rcases h with (h | ⟨k, h⟩ | ⟨k, h⟩ | h | h) | h
  · rw [decDoc_bool h] at hd ⊢; exact .inr (hd.resolve_left fun x => hn x.1)
  · rw [decDoc_int h] at hd ⊢; exact .inr (hd.resolve_left fun x => hn x.1)
  · rw [decDoc_uint h] at hd ⊢; exact .inr (hd.resolve_left fun x => hn x.1)
  · rw [decDoc_f32 h] at hd ⊢; exact .inr (hd.resolve_left fun x => hn x.1)
  · rw [decDoc_f64 h] at hd ⊢; exact .inr (hd.resolve_left fun x => hn x.1)
  · rw [decDoc_str h] at hd ⊢; exact .inr (hd.resolve_left fun x => hn x.1)

/-- For elements that do not merge, a chain of values amounts to its last one. -/
theorem chain_last {W : World} {e : Ty} (he : Overwritten W e) {ds : List Doc} {d : Doc} (hn : d ≠ .null)
    (hlen : d.text.length < 2 ^ 63) {a b : Val} (h : Chain (Alone W e) (ds ++ [d]) a b) (hl : ∃ m, Lax m d) (z : Val) : Alone W e d z b := by
  induction ds generalizing a with
  | nil =>
    cases h with
    | cons h1 h2 =>
      cases chain_nil h2
      obtain ⟨m, hl⟩ := hl
      rw [alone_iff hlen hl] at h1 ⊢
      exact overwritten_dec he hn h1
  | cons x ds ih =>
    cases h with
    | cons h1 h2 => exact ih h2

/-- C18 for elements that do not merge: position `i` holds what the last value given for it decodes to on its own, or zero. -/
theorem C18_array_last_value (W : World) (t e : Ty) (N : Nat) (ht : Plain W t (.array N e)) (he : Overwritten W e) (fuel n : Nat)
    (cnt : Bytes) (es : List (Doc × Doc)) (hl : Lax n (.arr cnt es)) (hb : (Doc.arr cnt es).text.length < 2 ^ 63) (old v : Val)
    (h : unmarshal W fuel (Doc.arr cnt es).text (.ptr t old) = (some v, .ok ())) (i : Nat) (hi : i < N) :
    ∃ vs b, v = .arr vs ∧ vs[i]? = some b ∧ (docsAt es i = [] → b = W.zero e) ∧
      ∀ ds d, docsAt es i = ds ++ [d] → d ≠ .null → Alone W e d (W.zero e) b := by
  have hc := ((unmarshal_text_iff hb hl).1 h).1
  obtain ⟨-, h2, vs, rfl, h3, h4⟩ := (C18_array_by_index W t e N ht fuel n hc cnt es hl hb old v).1 h
  obtain ⟨b, hb', h5⟩ := h4 i hi
  refine ⟨vs, b, rfl, hb', fun he => ?_, fun ds d hds hn => ?_⟩
  · rw [he] at h5; exact chain_nil h5
  · rw [hds] at h5
    obtain ⟨k, hm⟩ := mem_docsAt (show d ∈ docsAt es i by rw [hds]; simp)
    have h6 := mem_pairs_len hm
    have h7 := container_len (Container.arr (cnt := cnt) (es := es))
    refine chain_last he hn (by omega) h5 ?_ _
    cases hl with
    | arr _ _ h => exact ⟨_, h k d hm⟩

/-- C19: an array decoded into a slice. `a:0:{}` gives nil. Otherwise the result has one more element than the largest index;
position `i` holds what the values given for `i` decode to one after the other, starting from the zero value (zero if none
was given). Acceptance and result do not depend on the old contents. -/
theorem C19_slice_by_index (W : World) (t e : Ty) (ht : Plain W t (.slice e)) (fuel n : Nat) (hc : compileD W fuel [] t = .ok ())
    (cnt : Bytes) (es : List (Doc × Doc)) (hl : Lax n (.arr cnt es)) (hb : (Doc.arr cnt es).text.length < 2 ^ 63) (old v : Val) :
    unmarshal W fuel (Doc.arr cnt es).text (.ptr t old) = (some v, .ok ()) ↔
    cnt = [48] ∧ es = [] ∧ v = .sliceNil ∨
    cnt.head? ≠ some 48 ∧ es ≠ [] ∧ (∃ m, LenText cnt m ∧ esize W e * m ≤ 2 ^ 48) ∧
    ∃ vs, v = .slice vs ∧
      (∀ k d, (k, d) ∈ es → ∃ i, IndexDoc k i ∧ i < vs.length ∧ i + 1 < 2 ^ 63 ∧ esize W e * (i + 1) ≤ 2 ^ 48) ∧
      (∃ k d i, (k, d) ∈ es ∧ IndexDoc k i ∧ vs.length = i + 1) ∧
      ∀ i, i < vs.length → ∃ b, vs[i]? = some b ∧ Chain (Alone W e) (docsAt es i) (W.zero e) b := by
  rw [unmarshal_text_iff hb hl]
  have hsub : ∀ k d, (k, d) ∈ es → d.text.length < 2 ^ 63 ∧ ∃ m, Lax m d := by
    intro k d hm
    have h1 := mem_pairs_len hm
    have h2 := container_len (Container.arr (cnt := cnt) (es := es))
    cases hl with
    | arr _ _ h => exact ⟨by omega, _, h k d hm⟩
  have hch : ∀ i a b, Chain (Alone W e) (docsAt es i) a b ↔ Chain (DecDoc W e 9999) (docsAt es i) a b := by
    intro i a b
    refine chain_congr fun d hd a b => ?_
    obtain ⟨k, hm⟩ := mem_docsAt hd
    obtain ⟨h1, m, h2⟩ := hsub k d hm
    exact alone_iff h1 h2
  rw [show maxDepth = 9999 + 1 from rfl, decDoc_slice_iff ht]
  simp only [hch]
  constructor
  · rintro ⟨-, h | ⟨h1, h2, h3, vs, rfl, h⟩⟩
    · exact .inl h
    · obtain ⟨h4, ⟨p, hp, i, hi⟩, h6⟩ := (decElems_iff_nil h2).1 h
      exact .inr ⟨h1, h2, h3, vs, rfl, fun k d hm => h4 _ hm, ⟨_, _, i, hp, hi⟩, h6⟩
  · rintro (h | ⟨h1, h2, h3, vs, rfl, h4, ⟨k, d, i, h5⟩, h6⟩)
    · exact ⟨hc, .inl h⟩
    · exact ⟨hc, .inr ⟨h1, h2, h3, vs, rfl, (decElems_iff_nil h2).2 ⟨fun p hp => h4 _ _ hp, ⟨_, h5.1, i, h5.2⟩, h6⟩⟩⟩

example : unmarshal Demo.W 9 (b! "a:2:{i:3;i:5;i:1;i:7;}") (.ptr (.slice (.int .i64)) (.slice [.int 9, .int 9, .int 9, .int 9, .int 9])) =
    (some (.slice [.int 0, .int 7, .int 0, .int 5]), .ok ()) := rfl

end Verif

import Verif.Proofs.CallsSame
/-
What calls a successful decoding made: those the document and the type need.
-/
set_option linter.unusedSimpArgs false
namespace Verif
open Spec

theorem onOkH_ok {α : Type} {h h' : Calls} {rv v : Val} {r : Res α} {k : α → HR} {c : Nat} :
    onOkH h rv r k = (h', v, .ok c) ↔ ∃ x, r = .ok x ∧ k x = (h', v, .ok c) := by
  cases r <;> simp [onOkH]

theorem iteErrH_ok {p : Prop} [Decidable p] {h h' : Calls} {rv v : Val} {e : Err} {y : HR} {c : Nat} :
    (if p then (h, rv, .err e) else y) = (h', v, .ok c) ↔ ¬ p ∧ y = (h', v, .ok c) := by
  split <;> simp_all

theorem itePanicH_ok {p : Prop} [Decidable p] {h h' : Calls} {rv v : Val} {e : Panic} {y : HR} {c : Nat} :
    (if p then (h, rv, .panic e) else y) = (h', v, .ok c) ↔ ¬ p ∧ y = (h', v, .ok c) := by
  split <;> simp_all

theorem allOk_append {M : Hooks} {h a b : Calls} : AllOk M h (a ++ b) ↔ AllOk M h a ∧ AllOk M (h ++ a) b := by
  induction a generalizing h with
  | nil => simp [AllOk]
  | cons c a ih => simp [AllOk, ih, and_assoc]

/-- What is known of a successful run at position `c` with calls `h` made before: it read a document, and its calls are those the document needs. -/
def DoneH (W : World) (M : Hooks) (b : Bytes) (n : Nat) (t : Ty) (h : Calls) (c : Nat) (R : HR) : Prop :=
  ∀ h' v c', R = (h', v, .ok c') → ∃ d cs, At b c d c' ∧ Lax n d ∧ h' = h ++ cs ∧ Handed W t d cs ∧ AllOk M h cs

theorem sliceLoopH_sound {W : World} {M : Hooks} {e : Ty} {n : Nat} {b : Bytes} {dec : Calls → Nat → Val → HR}
    (hdec : ∀ h c v, DoneH W M b n e h c (dec h c v)) {z : Val} {sz : Nat}
    {f c c' : Nat} {h h' : Calls} {sl : List Val} {rv v : Val}
    (hh : sliceLoopH dec z sz b f h c sl rv = (h', v, .ok c')) :
    ∃ es cs, es ≠ [] ∧ PairsAt b c es c' ∧ LaxPairs n es ∧ h' = h ++ cs ∧ HandedElems W e none es cs ∧ AllOk M h cs := by
  induction f generalizing h c sl rv with
  | zero => simp [sliceLoopH] at hh
  | succ f ih =>
    simp only [sliceLoopH, iteErrH_ok, itePanicH_ok, onOkH_ok] at hh
    obtain ⟨_, ⟨i, c1⟩, hi, _, _, hh⟩ := hh
    obtain ⟨t, ht, hi63, hd, hc1⟩ := readInt_sound hi
    have hk : At b c (.int t) c1 := at_int_iff.2 ⟨hd, hc1⟩
    split at hh
    · simp at hh
    · rename_i v0 hv0
      rcases hdc : dec h c1 v0 with ⟨h1, x, r⟩
      rw [hdc] at hh
      simp only [onOkH_ok] at hh
      obtain ⟨c2, rfl, hh⟩ := hh
      obtain ⟨d, cs, hd1, hl, rfl, hd2, hok⟩ := hdec _ _ _ _ _ _ hdc
      simp only [iteErrH_ok, onOkH_ok] at hh
      obtain ⟨_, y, hy, hh⟩ := hh
      split at hh
      · rename_i hyb; subst hyb
        simp only [Prod.mk.injEq, Res.ok.injEq] at hh
        obtain ⟨rfl, rfl, rfl⟩ := hh
        exact ⟨[(.int t, d)], cs ++ [], by simp, .cons hk hd1 (.nil hy), .cons (.int ht) hl laxPairs_nil, by simp,
          .elem ht (by simp) hd2 .nil, by simpa using hok⟩
      · obtain ⟨es, cs', _, he2, hes, rfl, he4, hok'⟩ := ih hh
        exact ⟨_, cs ++ cs', by simp, .cons hk hd1 he2, .cons (.int ht) hl hes, by simp, .elem ht (by simp) hd2 he4, allOk_append.2 ⟨hok, hok'⟩⟩

theorem arrayLoopH_sound {W : World} {M : Hooks} {e : Ty} {n l : Nat} {b : Bytes} {dec : Calls → Nat → Val → HR} {skip : Nat → Res Nat}
    (hdec : ∀ h c v, DoneH W M b n e h c (dec h c v))
    (hskip : ∀ c c', skip c = .ok c' → ∃ d, At b c d c' ∧ Strict n d)
    {f c c' : Nat} {h h' : Calls} {vs : List Val} {v : Val} (hvs : vs.length = l)
    (hh : arrayLoopH dec skip b f h c vs = (h', v, .ok c')) :
    ∃ es cs, es ≠ [] ∧ PairsAt b c es c' ∧ LaxPairs n es ∧ h' = h ++ cs ∧ HandedElems W e (some l) es cs ∧ AllOk M h cs := by
  induction f generalizing h c vs with
  | zero => simp [arrayLoopH] at hh
  | succ f ih =>
    simp only [arrayLoopH, iteErrH_ok, onOkH_ok] at hh
    obtain ⟨_, ⟨i, c1⟩, hi, _, hh⟩ := hh
    obtain ⟨t, ht, hi63, hd, hc1⟩ := readInt_sound hi
    have hk : At b c (.int t) c1 := at_int_iff.2 ⟨hd, hc1⟩
    rcases hv0 : vs[i]? with _ | v0
    · rw [hv0] at hh
      simp only [onOkH_ok, iteErrH_ok] at hh
      obtain ⟨c2, hs, _, y, hy, hh⟩ := hh
      obtain ⟨d, hd1, hd2⟩ := hskip _ _ hs
      have hlen : l ≤ i := by simp at hv0; omega
      split at hh
      · rename_i hyb; subst hyb
        simp only [Prod.mk.injEq, Res.ok.injEq] at hh
        obtain ⟨rfl, rfl, rfl⟩ := hh
        exact ⟨[(.int t, d)], [], by simp, .cons hk hd1 (.nil hy), .cons (.int ht) (lax_of_strict hd2) laxPairs_nil, by simp,
          .beyond ht hlen .nil, trivial⟩
      · obtain ⟨es, cs', _, he2, hes, rfl, he4, hok'⟩ := ih hvs hh
        exact ⟨_, cs', by simp, .cons hk hd1 he2, .cons (.int ht) (lax_of_strict hd2) hes, by simp, .beyond ht hlen he4, hok'⟩
    · rw [hv0] at hh
      dsimp only at hh
      rcases hdc : dec h c1 v0 with ⟨h1, x, r⟩
      rw [hdc] at hh
      simp only [onOkH_ok, iteErrH_ok] at hh
      obtain ⟨c2, rfl, _, y, hy, hh⟩ := hh
      obtain ⟨d, cs, hd1, hl, rfl, hd2, hok⟩ := hdec _ _ _ _ _ _ hdc
      have hlt : ∀ n, some l = some n → i < n := by
        intro n hn; cases hn
        have := (List.getElem?_eq_some_iff.1 hv0).1
        omega
      split at hh
      · rename_i hyb; subst hyb
        simp only [Prod.mk.injEq, Res.ok.injEq] at hh
        obtain ⟨rfl, rfl, rfl⟩ := hh
        exact ⟨[(.int t, d)], cs ++ [], by simp, .cons hk hd1 (.nil hy), .cons (.int ht) hl laxPairs_nil, by simp,
          .elem ht hlt hd2 .nil, by simpa using hok⟩
      · obtain ⟨es, cs', _, he2, hes, rfl, he4, hok'⟩ := ih (by simp [hvs]) hh
        exact ⟨_, cs ++ cs', by simp, .cons hk hd1 he2, .cons (.int ht) hl hes, by simp, .elem ht hlt hd2 he4, allOk_append.2 ⟨hok, hok'⟩⟩

theorem mapLoopH_sound {W : World} {M : Hooks} {kt vt : Ty} {n : Nat} {b : Bytes} {keyDec valDec : Calls → Nat → HR}
    (hkey : ∀ h c, DoneH W M b n kt h c (keyDec h c)) (hval : ∀ h c, DoneH W M b n vt h c (valDec h c))
    {f c c' : Nat} {h h' : Calls} {m : List (Val × Val)} {v : Val} (hh : mapLoopH keyDec valDec b f h c m = (h', v, .ok c')) :
    ∃ es cs, es ≠ [] ∧ PairsAt b c es c' ∧ LaxPairs n es ∧ h' = h ++ cs ∧ HandedPairs W kt vt es cs ∧ AllOk M h cs := by
  induction f generalizing h c m with
  | zero => simp [mapLoopH] at hh
  | succ f ih =>
    simp only [mapLoopH, iteErrH_ok] at hh
    obtain ⟨_, hh⟩ := hh
    rcases hkc : keyDec h c with ⟨h1, k, rk⟩
    rw [hkc] at hh
    simp only [onOkH_ok, iteErrH_ok] at hh
    obtain ⟨c1, rfl, _, hh⟩ := hh
    obtain ⟨kd, cs1, hk1, hk2, rfl, hk3, hk4⟩ := hkey _ _ _ _ _ hkc
    rcases hvc : valDec (h ++ cs1) c1 with ⟨h2, x, r⟩
    rw [hvc] at hh
    simp only [onOkH_ok, iteErrH_ok, itePanicH_ok] at hh
    obtain ⟨c2, rfl, _, _, y, hy, hh⟩ := hh
    obtain ⟨d, cs2, hd1, hd2, rfl, hd3, hd4⟩ := hval _ _ _ _ _ hvc
    have h12 : AllOk M h (cs1 ++ cs2) := allOk_append.2 ⟨hk4, hd4⟩
    split at hh
    · rename_i hyb; subst hyb
      simp only [Prod.mk.injEq, Res.ok.injEq] at hh
      obtain ⟨rfl, rfl, rfl⟩ := hh
      exact ⟨[(kd, d)], cs1 ++ cs2 ++ [], by simp, .cons hk1 hd1 (.nil hy), .cons hk2 hd2 laxPairs_nil, by simp, .cons hk3 hd3 .nil, by simpa using h12⟩
    · obtain ⟨es, cs', _, he2, hes, rfl, he4, hok'⟩ := ih hh
      exact ⟨_, cs1 ++ cs2 ++ cs', by simp, .cons hk1 hd1 he2, .cons hk2 hd2 hes, by simp, .cons hk3 hd3 he4,
        allOk_append.2 ⟨h12, by simpa using hok'⟩⟩

theorem structLoopH_sound {W : World} {M : Hooks} {id n : Nat} {b : Bytes} (hb : b.length < 2 ^ 63)
    {dec : FieldSet → Calls → Nat → Val → HR} {skip : Nat → Res Nat}
    (hdec : ∀ i f h c v, DoneH W M b n f.ty h c (dec (mkSet W i f) h c v))
    (hskip : ∀ c c', skip c = .ok c' → ∃ d, At b c d c' ∧ Strict n d)
    {f c c' : Nat} {h h' : Calls} {vs : List Val} {v : Val}
    (hh : structLoopH (fieldSets W 0 (W.fields id)) dec skip b f h c vs = (h', v, .ok c')) :
    ∃ es cs, es ≠ [] ∧ PairsAt b c es c' ∧ LaxPairs n es ∧ h' = h ++ cs ∧ HandedFields W id es cs ∧ AllOk M h cs := by
  induction f generalizing h c vs with
  | zero => simp [structLoopH] at hh
  | succ f ih =>
    simp only [structLoopH, iteErrH_ok, onOkH_ok] at hh
    obtain ⟨_, ⟨fld, c1⟩, hkc, _, hh⟩ := hh
    simp only [decodeKey, Res.bind_eq_ok, Res.ok.injEq, Prod.mk.injEq] at hkc
    obtain ⟨⟨ob, c1'⟩, hsb, hfind, rfl⟩ := hkc
    have hkd : ∃ kd, At b c kd c1' ∧ FieldKey kd (ob.getD []) := by
      rcases (stringBytes_iff hb).1 hsb with ⟨rfl, hn⟩ | ⟨l, s, rfl, ha, hn⟩
      · exact ⟨_, hn, .null⟩
      · exact ⟨_, hn, .str ha⟩
    obtain ⟨kd, hk1, hk2⟩ := hkd
    dsimp only at hh
    rcases fld with _ | s
    · simp only [onOkH_ok, iteErrH_ok] at hh
      obtain ⟨c2, hs, _, y, hy, hh⟩ := hh
      obtain ⟨d, hd1, hd2⟩ := hskip _ _ hs
      split at hh
      · rename_i hyb; subst hyb
        simp only [Prod.mk.injEq, Res.ok.injEq] at hh
        obtain ⟨rfl, rfl, rfl⟩ := hh
        exact ⟨[(kd, d)], [], by simp, .cons hk1 hd1 (.nil hy), .cons (lax_fieldKey hk2) (lax_of_strict hd2) laxPairs_nil, by simp,
          .skip hk2 (find_none.1 hfind) .nil, trivial⟩
      · obtain ⟨es, cs', _, he2, hes, rfl, he4, hok'⟩ := ih hh
        exact ⟨_, cs', by simp, .cons hk1 hd1 he2, .cons (lax_fieldKey hk2) (lax_of_strict hd2) hes, by simp, .skip hk2 (find_none.1 hfind) he4, hok'⟩
    · obtain ⟨i, fd, hff, rfl⟩ := find_some hfind
      dsimp only at hh
      rcases hv0 : vs[(mkSet W i fd).idx]? with _ | v0
      · rw [hv0] at hh; simp [onOkH] at hh
      · rw [hv0] at hh
        dsimp only at hh
        rcases hdc : dec (mkSet W i fd) h c1' v0 with ⟨h1, x, r⟩
        rw [hdc] at hh
        simp only [onOkH_ok, iteErrH_ok] at hh
        obtain ⟨c2, rfl, _, y, hy, hh⟩ := hh
        obtain ⟨d, cs, hd1, hl, rfl, hd2, hok⟩ := hdec _ _ _ _ _ _ _ _ hdc
        split at hh
        · rename_i hyb; subst hyb
          simp only [Prod.mk.injEq, Res.ok.injEq] at hh
          obtain ⟨rfl, rfl, rfl⟩ := hh
          exact ⟨[(kd, d)], cs ++ [], by simp, .cons hk1 hd1 (.nil hy), .cons (lax_fieldKey hk2) hl laxPairs_nil, by simp,
            .field hk2 hff hd2 .nil, by simpa using hok⟩
        · obtain ⟨es, cs', _, he2, hes, rfl, he4, hok'⟩ := ih hh
          exact ⟨_, cs ++ cs', by simp, .cons hk1 hd1 he2, .cons (lax_fieldKey hk2) hl hes, by simp, .field hk2 hff hd2 he4,
            allOk_append.2 ⟨hok, hok'⟩⟩

/-! ### Containers -/

theorem skip_doc {b : Bytes} {c c' depth : Nat} (hb : b.length < 2 ^ 63) (hd : depth ≤ maxDepth) (h : skipValue b c depth = .ok c') :
    ∃ d, At b c d c' ∧ Strict (maxDepth - depth) d := by
  obtain ⟨d, h1, h2⟩ := (skipValue_ok_iff hb hd).1 h
  exact ⟨d, h2, h1⟩

theorem done_null {W : World} {M : Hooks} {b : Bytes} {n : Nat} {t : Ty} {h : Calls} {c c' : Nat} (hat : At b c .null c') :
    ∃ d cs, At b c d c' ∧ Lax n d ∧ h = h ++ cs ∧ Handed W t d cs ∧ AllOk M h cs :=
  ⟨.null, [], hat, .null, by simp, .null, trivial⟩

theorem sliceDecodeH_sound {W : World} {M : Hooks} {t e : Ty} {b : Bytes} {dec : Calls → Nat → Nat → Val → HR} {c depth : Nat} {h : Calls} {rv : Val}
    {z : Val} {sz : Nat} (hp : Plain W t (.slice e))
    (hdec : depth + 1 ≤ maxDepth → ∀ h c v, DoneH W M b (maxDepth - (depth + 1)) e h c (dec h c (depth + 1) v)) :
    DoneH W M b (maxDepth - depth) t h c (sliceDecodeH dec z sz b h c depth rv) := by
  intro h' v c' hh
  simp only [sliceDecodeH, iteErrH_ok, onOkH_ok] at hh
  obtain ⟨_, hdep, x, hx, hh⟩ := hh
  have hn : maxDepth - depth = (maxDepth - (depth + 1)) + 1 := by omega
  rw [hn]
  split at hh
  · rename_i hxn; subst hxn
    simp only [onOkH_ok, Prod.mk.injEq, Res.ok.injEq] at hh
    obtain ⟨_, hv, rfl, rfl, rfl⟩ := hh
    exact done_null ((validateNull_iff hx).1 hv)
  split at hh
  · rename_i hxa; subst hxa
    simp only [iteErrH_ok, onOkH_ok] at hh
    obtain ⟨_, y, hy, hyc, _, z, hz, hh⟩ := hh
    simp only [ne_eq, Classical.not_not] at hyc
    subst hyc
    split at hh
    · rename_i hz0; subst hz0
      simp only [onOkH_ok, Prod.mk.injEq, Res.ok.injEq] at hh
      obtain ⟨_, hv, rfl, rfl, rfl⟩ := hh
      exact ⟨_, [], emptyArr_at hx hy hz hv, .arr zeroText (by simp) (by simp), by simp, .slice hp .nil, trivial⟩
    · simp only [iteErrH_ok, itePanicH_ok, onOkH_ok] at hh
      obtain ⟨⟨l, c2⟩, hl, _, y, hy', hyb, hms, hh⟩ := hh
      obtain ⟨cnt, m, hm, rfl, hdr, hc2⟩ := readLength_sound hl
      rw [show c + 1 + 1 - 1 = c + 1 by omega] at hdr hc2
      simp only [ne_eq, Classical.not_not] at hyb
      subst hyb
      obtain ⟨es, cs, hne, hp', hlx, hcs, hd, hok⟩ := sliceLoopH_sound (hdec (by omega)) hh
      refine ⟨.arr cnt es, cs, ?_, lax_container .arr hm.1 hlx, hcs, .slice hp hd, hok⟩
      refine arr_at hx (c1 := c2 + 1) ?_ (by omega) hp'
      rw [hdr, drop_of_idx hy']
  split at hh <;> simp at hh

theorem arrayDecodeH_sound {W : World} {M : Hooks} {t e : Ty} {l : Nat} {b : Bytes} {dec : Calls → Nat → Nat → Val → HR} {c depth : Nat} {h : Calls} {rv : Val}
    {z : Val} (hb : b.length < 2 ^ 63) (hp : Plain W t (.array l e))
    (hdec : depth + 1 ≤ maxDepth → ∀ h c v, DoneH W M b (maxDepth - (depth + 1)) e h c (dec h c (depth + 1) v)) :
    DoneH W M b (maxDepth - depth) t h c (arrayDecodeH dec z l b h c depth rv) := by
  intro h' v c' hh
  simp only [arrayDecodeH, iteErrH_ok, onOkH_ok] at hh
  obtain ⟨_, hdep, x, hx, hh⟩ := hh
  have hn : maxDepth - depth = (maxDepth - (depth + 1)) + 1 := by omega
  rw [hn]
  split at hh
  · rename_i hxn; subst hxn
    simp only [onOkH_ok, Prod.mk.injEq, Res.ok.injEq] at hh
    obtain ⟨_, hv, rfl, rfl, rfl⟩ := hh
    exact done_null ((validateNull_iff hx).1 hv)
  split at hh
  · rename_i hxa; subst hxa
    simp only [iteErrH_ok, onOkH_ok] at hh
    obtain ⟨_, y, hy, hyc, _, z, hz, hh⟩ := hh
    simp only [ne_eq, Classical.not_not] at hyc
    subst hyc
    split at hh
    · rename_i hz0; subst hz0
      simp only [onOkH_ok, Prod.mk.injEq, Res.ok.injEq] at hh
      obtain ⟨_, hv, rfl, rfl, rfl⟩ := hh
      exact ⟨_, [], emptyArr_at hx hy hz hv, .arr zeroText (by simp) (by simp), by simp, .array hp .nil, trivial⟩
    · simp only [iteErrH_ok, itePanicH_ok, onOkH_ok] at hh
      obtain ⟨⟨l', c2⟩, hl, _, y, hy', hyb, hh⟩ := hh
      obtain ⟨cnt, m, hm, rfl, hdr, hc2⟩ := readLength_sound hl
      rw [show c + 1 + 1 - 1 = c + 1 by omega] at hdr hc2
      simp only [ne_eq, Classical.not_not] at hyb
      subst hyb
      obtain ⟨es, cs, hne, hp', hlx, hcs, hd, hok⟩ := arrayLoopH_sound (hdec (by omega)) (fun c c' hs => skip_doc hb (by omega) hs) (List.length_replicate ..) hh
      refine ⟨.arr cnt es, cs, ?_, lax_container .arr hm.1 hlx, hcs, .array hp hd, hok⟩
      refine arr_at hx (c1 := c2 + 1) ?_ (by omega) hp'
      rw [hdr, drop_of_idx hy']
  · simp at hh

theorem mapDecodeH_sound {W : World} {M : Hooks} {t kt vt : Ty} {b : Bytes} {keyDec valDec : Calls → Nat → Nat → HR} {c depth : Nat} {h : Calls} {rv : Val}
    (hb : b.length < 2 ^ 63) (hp : Plain W t (.map kt vt))
    (hkey : depth + 1 ≤ maxDepth → ∀ h c, DoneH W M b (maxDepth - (depth + 1)) kt h c (keyDec h c (depth + 1)))
    (hval : depth + 1 ≤ maxDepth → ∀ h c, DoneH W M b (maxDepth - (depth + 1)) vt h c (valDec h c (depth + 1))) :
    DoneH W M b (maxDepth - depth) t h c (mapDecodeH keyDec valDec b h c depth rv) := by
  intro h' v c' hh
  simp only [mapDecodeH, iteErrH_ok, onOkH_ok] at hh
  obtain ⟨_, hdep, x, hx, hh⟩ := hh
  have hn : maxDepth - depth = (maxDepth - (depth + 1)) + 1 := by omega
  rw [hn]
  split at hh
  · rename_i hxn; subst hxn
    simp only [onOkH_ok, Prod.mk.injEq, Res.ok.injEq] at hh
    obtain ⟨_, hv, rfl, rfl, rfl⟩ := hh
    exact done_null ((validateNull_iff hx).1 hv)
  · simp only [onOkH_ok, iteErrH_ok] at hh
    obtain ⟨c1, hhd, ⟨l, c2⟩, hl, _, y, hy, hyb, hh⟩ := hh
    obtain ⟨mk, hmk, hat⟩ := header_sound hb hx hhd
    obtain ⟨cnt, m, hm, rfl, hdr, hc2⟩ := readLength_sound hl
    simp only [ne_eq, Classical.not_not] at hyb
    subst hyb
    have hdr' : b.drop c1 = 58 :: (cnt ++ 58 :: 123 :: b.drop (c2 + 1)) := by rw [hdr, drop_of_idx hy]
    rcases he0 : mapEntries rv with _ | es0
    · rw [he0] at hh; simp at hh
    rw [he0] at hh
    simp only [onOkH_ok, iteErrH_ok] at hh
    obtain ⟨_, z, hz, hh⟩ := hh
    split at hh
    · rename_i hzb; subst hzb
      simp only [Prod.mk.injEq, Res.ok.injEq] at hh
      obtain ⟨rfl, rfl, rfl⟩ := hh
      exact ⟨_, [], hat cnt [] _ _ hdr' (by omega) (.nil hz), lax_container (hmk _ _) hm.1 laxPairs_nil, by simp, .map hp (hmk _ _) .nil, trivial⟩
    · obtain ⟨es, cs, hne, hp', hlx, hcs, hd, hok⟩ := mapLoopH_sound (hkey (by omega)) (hval (by omega)) hh
      exact ⟨_, cs, hat cnt es _ _ hdr' (by omega) hp', lax_container (hmk _ _) hm.1 hlx, hcs, .map hp (hmk _ _) hd, hok⟩

theorem structDecodeH_sound {W : World} {M : Hooks} {t : Ty} {id : Nat} {b : Bytes} {dec : FieldSet → Calls → Nat → Nat → Val → HR}
    {c depth : Nat} {h : Calls} {rv : Val} (hb : b.length < 2 ^ 63) (hp : Plain W t (.struct id))
    (hdec : depth + 1 ≤ maxDepth → ∀ i f h c v, DoneH W M b (maxDepth - (depth + 1)) f.ty h c (dec (mkSet W i f) h c (depth + 1) v)) :
    DoneH W M b (maxDepth - depth) t h c (structDecodeH (fieldSets W 0 (W.fields id)) dec b h c depth rv) := by
  intro h' v c' hh
  simp only [structDecodeH, iteErrH_ok, onOkH_ok] at hh
  obtain ⟨_, hdep, x, hx, hh⟩ := hh
  have hn : maxDepth - depth = (maxDepth - (depth + 1)) + 1 := by omega
  rw [hn]
  split at hh
  · rename_i hxn; subst hxn
    simp only [onOkH_ok, Prod.mk.injEq, Res.ok.injEq] at hh
    obtain ⟨_, hv, rfl, rfl, rfl⟩ := hh
    exact done_null ((validateNull_iff hx).1 hv)
  · simp only [onOkH_ok, iteErrH_ok] at hh
    obtain ⟨c1, hhd, _, y0, hy0, _, c2, hl, _, y, hy, hyb, _, z, hz, hh⟩ := hh
    obtain ⟨mk, hmk, hat⟩ := header_sound hb hx hhd
    obtain ⟨cnt, hm, hdr, hc2⟩ := skipLen_sound hl
    simp only [ne_eq, Classical.not_not] at hyb
    subst hyb
    have hdr' : b.drop c1 = 58 :: (cnt ++ 58 :: 123 :: b.drop (c2 + 1)) := by rw [hdr, drop_of_idx hy]
    split at hh
    · rename_i hzb; subst hzb
      simp only [Prod.mk.injEq, Res.ok.injEq] at hh
      obtain ⟨rfl, rfl, rfl⟩ := hh
      exact ⟨_, [], hat cnt [] _ _ hdr' (by omega) (.nil hz), lax_container (hmk _ _) hm laxPairs_nil, by simp, .struct hp (hmk _ _) .nil, trivial⟩
    · split at hh
      · obtain ⟨es, cs, hne, hp', hlx, hcs, hd, hok⟩ := structLoopH_sound hb (hdec (by omega)) (fun c c' hs => skip_doc hb (by omega) hs) hh
        exact ⟨_, cs, hat cnt es _ _ hdr' (by omega) hp', lax_container (hmk _ _) hm hlx, hcs, .struct hp (hmk _ _) hd, hok⟩
      · simp at hh

/-! ### Methods -/

theorem unmarshalDecodeH_sound {W : World} {M : Hooks} {t : Ty} {id : Nat} {b : Bytes} {c depth : Nat} {h : Calls} {rv : Val}
    (hb : b.length < 2 ^ 63) (hd : depth ≤ maxDepth) (hu : W.unmOf t = some id) :
    DoneH W M b (maxDepth - depth) t h c (unmarshalDecodeH W M id b h c depth rv) := by
  intro h' v c' hh
  simp only [unmarshalDecodeH, iteErrH_ok, onOkH_ok] at hh
  obtain ⟨e, he, src, hsrc, _, _, _, hh⟩ := hh
  obtain ⟨d, hat, hs, rfl⟩ := skip_sub hb hd he hsrc
  split at hh
  · rename_i hn
    simp only [Prod.mk.injEq, Res.ok.injEq] at hh
    obtain ⟨rfl, rfl, rfl⟩ := hh
    obtain rfl := (text_null_iff hs).1 hn
    exact done_null hat
  · rename_i hn
    obtain ⟨o, ho, hu'⟩ := unquoteBytes_total d.text
    rw [unquote_text] at hu'
    simp only [onOkH_ok, ho, Res.ok.injEq] at hh
    obtain ⟨_, rfl, x, hx, hh⟩ := hh
    rw [hu'] at hx hh
    simp only [Prod.mk.injEq, Res.ok.injEq, Res.mapErr_eq_ok] at hx hh
    obtain ⟨rfl, rfl, rfl⟩ := hh
    exact ⟨d, _, hat, lax_of_strict hs, rfl, .own hu (fun h => hn ((text_null_iff hs).2 h)) hs, ⟨_, hx⟩, trivial⟩

theorem ifaceDecodeH_sound {W : World} {M : Hooks} {t : Ty} {id : Nat} {b : Bytes} {c depth : Nat} {h : Calls} {rv : Val}
    (hb : b.length < 2 ^ 63) (hd : depth ≤ maxDepth) (hp : Plain W t (.iface id)) :
    DoneH W M b (maxDepth - depth) t h c (ifaceDecodeH W M b h c depth rv) := by
  intro h' v c' hh
  unfold ifaceDecodeH at hh
  split at hh
  · rename_i dt dv hm
    have : rv = .iface dt dv ∧ W.dynUnm dt = true := by
      split at hm
      · split at hm
        · cases hm; exact ⟨rfl, ‹_›⟩
        · simp at hm
      · simp at hm
    obtain ⟨rfl, hdyn⟩ := this
    clear hm
    simp only [dynDecodeH, onOkH_ok] at hh
    obtain ⟨e, he, src, hsrc, hh⟩ := hh
    obtain ⟨d, hat, hs, rfl⟩ := skip_sub hb hd he hsrc
    split at hh
    · rename_i hn
      simp only [Prod.mk.injEq, Res.ok.injEq] at hh
      obtain ⟨rfl, rfl, rfl⟩ := hh
      obtain rfl := (text_null_iff hs).1 hn
      exact done_null hat
    · rename_i hn
      obtain ⟨o, ho, hu'⟩ := unquoteBytes_total d.text
      rw [unquote_text] at hu'
      simp only [onOkH_ok, ho, Res.ok.injEq] at hh
      obtain ⟨_, rfl, hh⟩ := hh
      rw [hu'] at hh
      obtain ⟨x, hx, hh⟩ := hh
      simp only [Prod.mk.injEq, Res.ok.injEq] at hh
      obtain ⟨rfl, rfl, rfl⟩ := hh
      exact ⟨d, _, hat, lax_of_strict hs, rfl, .held hp (fun h => hn ((text_null_iff hs).2 h)) hs hdyn, ⟨_, Prod.ext rfl hx⟩, trivial⟩
  · simp only [onOkH_ok] at hh
    obtain ⟨x, hx, hh⟩ := hh
    split at hh
    · rename_i hxn; subst hxn
      simp only [onOkH_ok, Prod.mk.injEq, Res.ok.injEq] at hh
      obtain ⟨_, hr, rfl, rfl, rfl⟩ := hh
      exact done_null ((validateNull_iff hx).1 hr)
    · simp at hh

/-! ### The whole decoder -/

/-- A run that makes no calls and reads a document. -/
theorem done_lift {W : World} {M : Hooks} {b : Bytes} {n : Nat} {t : Ty} {h : Calls} {c : Nat} {r : DR} (hs : ∀ d, Handed W t d [])
    (hr : ∀ v c', r = (v, .ok c') → ∃ d, At b c d c' ∧ Lax n d) : DoneH W M b n t h c (h, r) := by
  intro h' v c' hh
  simp only [Prod.mk.injEq] at hh
  obtain ⟨rfl, hh⟩ := hh
  obtain ⟨d, h1, h2⟩ := hr _ _ hh
  exact ⟨d, [], h1, h2, by simp, hs d, trivial⟩

theorem done_invalid {W : World} {M : Hooks} {b : Bytes} {n : Nat} {t : Ty} {h : Calls} {c c0 : Nat} {rv : Val} :
    DoneH W M b n t h c (h, invalidDecode c0 rv) := by
  intro h' v c' hh
  simp [invalidDecode] at hh

theorem scalar_lax {W : World} {b : Bytes} (hb : b.length < 2 ^ 63) {t : Ty} {c c' depth : Nat} {rv v : Val} (hd : depth ≤ maxDepth)
    (hh : decodeNonPtr W (fun _ _ _ rv => (rv, .diverge)) b t c depth rv = (v, .ok c')) : ∃ d, At b c d c' ∧ Lax (maxDepth - depth) d := by
  obtain ⟨d, h1, h2⟩ := decodeNonPtr_sound hb (fun _ _ _ _ _ _ _ h => by simp at h) hd hh
  exact ⟨d, h1, decDoc_lax h2⟩

theorem anyDecodeH_eq {W : World} {M : Hooks} {b : Bytes} {f : Nat} {h : Calls} {c depth : Nat} {rv : Val} :
    anyDecodeH W (fun h c d => decodeH W M b f .any h c d .ifaceNil) b h c depth rv =
      (h, anyDecode W (fun c d => decodeF W b f .any c d .ifaceNil) b c depth rv) := by
  have := ag_any (P := NoneMade) (fun _ => rfl) (fun _ _ _ h1 h2 => by rw [NoneMade] at *; rw [h2, h1]) (W := W) (ad := fun h c d => decodeH W M b f .any h c d .ifaceNil)
    (ad' := fun c d => decodeF W b f .any c d .ifaceNil) (fun h c d => by
      show Ag NoneMade h (decodeH W M b f .any h c d .ifaceNil) (decodeF W b f .any c d .ifaceNil)
      rw [decodeH_any]
      exact ⟨rfl, rfl⟩) (b := b) (h := h) (c := c) (depth := depth) (rv := rv)
  exact Prod.ext this.2 this.1

theorem anyDecode_lax {W : World} {b : Bytes} (hb : b.length < 2 ^ 63) {f : Nat} {c c' depth : Nat} {rv v : Val}
    (hh : anyDecode W (fun c d => decodeF W b f .any c d .ifaceNil) b c depth rv = (v, .ok c')) : ∃ d, At b c d c' ∧ Lax (maxDepth - depth) d := by
  obtain ⟨d, h1, h2⟩ := anyDecode_sound (t := .any) hb ⟨rfl, rfl⟩ (fun hd c v c' h => decodeF_sound hb hd h) hh
  exact ⟨d, h1, decDoc_lax h2⟩

theorem keyDecodeH_sound {W : World} {M : Hooks} {k : Ty} {b : Bytes} {f : Nat} {c depth : Nat} {h : Calls}
    (hb : b.length < 2 ^ 63) (hd : depth ≤ maxDepth) :
    DoneH W M b (maxDepth - depth) k h c (keyDecodeH W M (fun h c d => decodeH W M b f .any h c d .ifaceNil) b k h c depth) := by
  unfold keyDecodeH
  cases hu : W.unmOf k with
  | some id => exact unmarshalDecodeH_sound hb hd hu
  | none =>
    have sc : ∀ r : DR, NoCalls W k → decodeNonPtr W (fun _ _ _ rv => (rv, .diverge)) b k c depth (W.zero k) = r → DoneH W M b (maxDepth - depth) k h c (h, r) :=
      fun r hs hr => done_lift (fun d => .scalar hs) fun v c' hh => scalar_lax hb hd (hr.trans hh)
    cases hr : W.resolve k <;> dsimp only
    case str => exact sc _ ⟨hu, by simp [hr]⟩ (by simp [decodeNonPtr, hu, hr])
    case bool => exact sc _ ⟨hu, by simp [hr]⟩ (by simp [decodeNonPtr, hu, hr])
    case int => exact sc _ ⟨hu, by simp [hr]⟩ (by simp [decodeNonPtr, hu, hr])
    case uint => exact sc _ ⟨hu, by simp [hr]⟩ (by simp [decodeNonPtr, hu, hr])
    case any =>
      rw [anyDecodeH_eq]
      exact done_lift (fun d => .scalar ⟨hu, by simp [hr]⟩) fun v c' hh => anyDecode_lax hb hh
    case iface i => exact ifaceDecodeH_sound hb hd ⟨hu, hr⟩
    case ptr e =>
      have pk : ∀ S : HR, DoneH W M b (maxDepth - depth) k h c (ptrKeyDecodeH S b h c) := by
        intro S h' v c' hh
        simp only [ptrKeyDecodeH, onOkH_ok] at hh
        obtain ⟨x, hx, hh⟩ := hh
        split at hh
        · rename_i hxs; subst hxs
          simp only [onOkH_ok, Prod.mk.injEq, Res.ok.injEq] at hh
          obtain ⟨_, hr, rfl, rfl, rfl⟩ := hh
          exact done_null ((validateNull_iff hx).1 hr)
        · simp [onOkH_ok] at hh
      cases hue : W.unmOf e with
      | some id => exact done_invalid
      | none => cases hre : W.resolve e <;> first | exact pk _ | exact done_invalid
    all_goals exact done_invalid

theorem ptrDecodeH_sound {W : World} {M : Hooks} {t e : Ty} {n : Nat} {b : Bytes} {inner : Calls → Nat → Nat → Val → HR} {z : Val} {h : Calls} {c depth : Nat} {rv : Val}
    (hp : Plain W t (.ptr e)) (hi : ∀ h c v, DoneH W M b n e h c (inner h c depth v)) : DoneH W M b n t h c (ptrDecodeH inner z b h c depth rv) := by
  intro h' v c' hh
  simp only [ptrDecodeH, onOkH_ok] at hh
  obtain ⟨x, hx, hh⟩ := hh
  split at hh
  · rename_i hxs; subst hxs
    simp only [onOkH_ok, Prod.mk.injEq, Res.ok.injEq] at hh
    obtain ⟨_, hr, rfl, rfl, rfl⟩ := hh
    exact done_null ((validateNull_iff hx).1 hr)
  · split at hh
    · simp only [Prod.mk.injEq] at hh
      obtain ⟨rfl, _, hh⟩ := hh
      obtain ⟨d, cs, h1, h2, h3, h4, h5⟩ := hi _ _ _ _ _ _ (Prod.ext rfl (Prod.ext rfl hh))
      exact ⟨d, cs, h1, h2, h3, .ptr hp h4, h5⟩
    · simp only [Prod.mk.injEq] at hh
      obtain ⟨rfl, _, hh⟩ := hh
      obtain ⟨d, cs, h1, h2, h3, h4, h5⟩ := hi _ _ _ _ _ _ (Prod.ext rfl (Prod.ext rfl hh))
      exact ⟨d, cs, h1, h2, h3, .ptr hp h4, h5⟩
    · simp at hh

theorem noCalls_wrappable {W : World} {t : Ty} (h : wrappable W t = true) : NoCalls W t := by
  unfold wrappable at h
  cases hu : W.unmOf t with
  | some id => simp [hu] at h
  | none =>
    simp only [hu] at h
    refine ⟨hu, ?_⟩
    cases hr : W.resolve t <;> simp [hr] at h ⊢

theorem wrapped_lax {W : World} {t : Ty} {d : Doc} {rv v : Val} {n : Nat} (h : Wrapped W t d rv v) : Lax n d := by
  cases h with
  | null => exact .null
  | str h1 => exact .str h1

theorem fieldDecodeH_sound {W : World} {M : Hooks} {rec : Ty → Calls → Nat → Nat → Val → HR} {b : Bytes} {n depth : Nat} {i : Nat} {f : Field} {h : Calls} {c : Nat} {rv : Val}
    (hb : b.length < 2 ^ 63) (hrec : ∀ t h c v, DoneH W M b n t h c (rec t h c depth v)) :
    DoneH W M b n f.ty h c (fieldDecodeH W rec b (mkSet W i f) h c depth rv) := by
  have wr : ∀ t, wrappable W t = true → ∀ h c v, DoneH W M b n t h c (h, wrappedDecode W t b c v) := fun t ht h c v =>
    done_lift (fun d => .scalar (noCalls_wrappable ht)) fun v c' hh => by
      obtain ⟨d, h1, h2⟩ := (wrappedDecode_iff hb ht).1 hh
      exact ⟨d, h1, wrapped_lax h2⟩
  have bad : ∀ e : Err, DoneH W M b n f.ty h c (h, rv, .err e) := fun e h' v c' hh => by simp at hh
  unfold fieldDecodeH
  split
  · rename_i hs
    simp only [mkSet, Bool.and_eq_true] at hs
    have hun : W.unmOf f.ty = none := by
      have := hs.2
      unfold stringTagOk at this
      split at this
      · simp at this
      · assumption
    split
    · rename_i e he
      split
      · rename_i hw
        exact ptrDecodeH_sound ⟨hun, he⟩ (wr e hw)
      · exact bad _
    · split
      · rename_i hw
        exact wr _ hw _ _ _
      · exact bad _
  · exact hrec _ _ _ _

theorem decodeNonPtrH_sound {W : World} {M : Hooks} {b : Bytes} (hb : b.length < 2 ^ 63) {f : Nat}
    (hrec : ∀ t h c depth v, depth ≤ maxDepth → DoneH W M b (maxDepth - depth) t h c (decodeH W M b f t h c depth v))
    {t : Ty} {h : Calls} {c depth : Nat} {rv : Val} (hd : depth ≤ maxDepth) :
    DoneH W M b (maxDepth - depth) t h c (decodeNonPtrH W M (decodeH W M b f) b t h c depth rv) := by
  unfold decodeNonPtrH
  cases hu : W.unmOf t with
  | some id => exact unmarshalDecodeH_sound hb hd hu
  | none =>
    have sc : ∀ r : DR, NoCalls W t → decodeNonPtr W (fun _ _ _ rv => (rv, .diverge)) b t c depth rv = r → DoneH W M b (maxDepth - depth) t h c (h, r) :=
      fun r hs hr => done_lift (fun d => .scalar hs) fun v c' hh => scalar_lax hb hd (hr.trans hh)
    have bad : ∀ e : Err, DoneH W M b (maxDepth - depth) t h c (h, rv, .err e) := fun e h' v c' hh => by simp at hh
    cases hr : W.resolve t <;> dsimp only
    case bool => exact sc _ ⟨hu, by simp [hr]⟩ (by simp [decodeNonPtr, hu, hr])
    case int => exact sc _ ⟨hu, by simp [hr]⟩ (by simp [decodeNonPtr, hu, hr])
    case uint => exact sc _ ⟨hu, by simp [hr]⟩ (by simp [decodeNonPtr, hu, hr])
    case f32 => exact sc _ ⟨hu, by simp [hr]⟩ (by simp [decodeNonPtr, hu, hr])
    case f64 => exact sc _ ⟨hu, by simp [hr]⟩ (by simp [decodeNonPtr, hu, hr])
    case str => exact sc _ ⟨hu, by simp [hr]⟩ (by simp [decodeNonPtr, hu, hr])
    case slice e =>
      split
      · intro h' v c' hh
        simp only [bytesDecodeH, onOkH_ok] at hh
        obtain ⟨x, hx, hh⟩ := hh
        split at hh
        · exact sliceDecodeH_sound ⟨hu, hr⟩ (fun hd h c v => hrec _ _ _ _ _ hd) _ _ _ hh
        · simp only [onOkH_ok] at hh
          obtain ⟨⟨ob, c2⟩, hsb, hh⟩ := hh
          rcases (stringBytes_iff hb).1 hsb with ⟨rfl, hn⟩ | ⟨l, s, rfl, ha, hn⟩
          · simp only [Prod.mk.injEq, Res.ok.injEq] at hh
            obtain ⟨rfl, rfl, rfl⟩ := hh
            exact done_null hn
          · simp only [Prod.mk.injEq, Res.ok.injEq] at hh
            obtain ⟨rfl, rfl, rfl⟩ := hh
            exact ⟨_, [], hn, .str ha, by simp, .bytes ⟨hu, hr⟩, trivial⟩
      · exact sliceDecodeH_sound ⟨hu, hr⟩ (fun hd h c v => hrec _ _ _ _ _ hd)
    case array n e => exact arrayDecodeH_sound hb ⟨hu, hr⟩ (fun hd h c v => hrec _ _ _ _ _ hd)
    case map k v => exact mapDecodeH_sound hb ⟨hu, hr⟩ (fun hd h c => keyDecodeH_sound hb hd) (fun hd h c => hrec _ _ _ _ _ hd)
    case struct id =>
      exact structDecodeH_sound hb ⟨hu, hr⟩ (fun hd i f h c v => fieldDecodeH_sound hb (fun t h c v => hrec _ _ _ _ _ hd))
    case any =>
      rw [anyDecodeH_eq]
      exact done_lift (fun d => .scalar ⟨hu, by simp [hr]⟩) fun v c' hh => anyDecode_lax hb hh
    case iface i => exact ifaceDecodeH_sound hb hd ⟨hu, hr⟩
    case other => exact done_invalid
    all_goals exact bad _

theorem decodeH_sound {W : World} {M : Hooks} {b : Bytes} (hb : b.length < 2 ^ 63) {f : Nat} {t : Ty} {h : Calls} {c depth : Nat} {rv : Val}
    (hd : depth ≤ maxDepth) : DoneH W M b (maxDepth - depth) t h c (decodeH W M b f t h c depth rv) := by
  induction f generalizing t h c depth rv with
  | zero => intro h' v c' hh; simp [decodeH] at hh
  | succ f ih =>
    have hrec : ∀ t h c depth v, depth ≤ maxDepth → DoneH W M b (maxDepth - depth) t h c (decodeH W M b f t h c depth v) := fun t h c depth v hd => ih hd
    unfold decodeH
    split
    · rename_i e hu hr
      split
      · intro h' v c' hh; simp at hh
      · exact ptrDecodeH_sound ⟨hu, hr⟩ fun h c v => decodeNonPtrH_sound hb hrec hd
    · exact decodeNonPtrH_sound hb hrec hd

end Verif

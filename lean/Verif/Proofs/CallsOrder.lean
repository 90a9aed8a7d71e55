import Verif.Proofs.CallsSound
import Verif.Proofs.Unmarshal
/-
The calls of any decoding, also of one that fails: in the order of the text, each with the text of a value, and only the last one can have failed.
-/
set_option linter.unusedSimpArgs false
namespace Verif
open Spec

theorem inOrder_pre {as : List Bytes} {r : Bytes} (h : InOrder as r) (g : Bytes) : InOrder as (g ++ r) := by
  cases h with
  | nil => exact .nil
  | @cons g' a as r h =>
    have := InOrder.cons (g := g ++ g') (a := a) h
    simpa using this

theorem inOrder_append {as bs : List Bytes} {x y : Bytes} (h : InOrder as x) (h' : InOrder bs y) : InOrder (as ++ bs) (x ++ y) := by
  induction h with
  | nil => exact inOrder_pre h' _
  | @cons g a as r _ ih =>
    have := InOrder.cons (g := g) (a := a) ih
    simpa using this

theorem inOrder_post {as : List Bytes} {x : Bytes} (h : InOrder as x) (y : Bytes) : InOrder as (x ++ y) := by
  have := inOrder_append h (InOrder.nil (r := y))
  simpa using this

theorem inOrder_one {a : Bytes} : InOrder [a] a := by
  have := InOrder.cons (g := []) (a := a) (InOrder.nil (r := []))
  simpa using this

/-- The calls in the text. -/
def CallsIn (cs : Calls) (x : Bytes) : Prop := InOrder (cs.map argOf) x ∧ ∀ call ∈ cs, ValueText (argOf call)

theorem within_nil {x : Bytes} : CallsIn [] x := ⟨.nil, by simp⟩

theorem within_append {as bs : Calls} {x y : Bytes} (h : CallsIn as x) (h' : CallsIn bs y) : CallsIn (as ++ bs) (x ++ y) := by
  refine ⟨?_, ?_⟩
  · rw [List.map_append]; exact inOrder_append h.1 h'.1
  · intro call hc
    rcases List.mem_append.1 hc with hc | hc
    · exact h.2 _ hc
    · exact h'.2 _ hc

theorem within_pre {cs : Calls} {r : Bytes} (h : CallsIn cs r) (g : Bytes) : CallsIn cs (g ++ r) := ⟨inOrder_pre h.1 g, h.2⟩
theorem within_post {cs : Calls} {r : Bytes} (h : CallsIn cs r) (g : Bytes) : CallsIn cs (r ++ g) := ⟨inOrder_post h.1 g, h.2⟩

theorem within_container {cs : Calls} {d : Doc} {cnt : Bytes} {es : List (Doc × Doc)} (hc : Container d cnt es) (h : CallsIn cs (pairsText es)) :
    CallsIn cs d.text := by
  cases hc with
  | arr => rw [Doc.text]; exact within_post (within_pre h _) _
  | obj _ => rw [Doc.text]; exact within_post (within_pre h _) _

theorem handed_within {W : World} {t : Ty} {d : Doc} {cs : Calls} (h : Handed W t d cs) : CallsIn cs d.text := by
  refine Handed.rec (motive_1 := fun _ d cs _ => CallsIn cs d.text) (motive_2 := fun _ _ es cs _ => CallsIn cs (pairsText es))
    (motive_3 := fun _ _ es cs _ => CallsIn cs (pairsText es)) (motive_4 := fun _ es cs _ => CallsIn cs (pairsText es))
    ?_ ?_ ?_ ?_ ?_ ?_ ?_ ?_ ?_ ?_ ?_ ?_ ?_ ?_ ?_ ?_ ?_ ?_ h
  · intros; exact within_nil
  · intro t id d n _ h1 h2
    exact ⟨inOrder_one, by simp only [List.mem_singleton, forall_eq]; exact ⟨n, d, h2, h1, rfl⟩⟩
  · intro t id d n dt dv _ h1 h2 _
    exact ⟨inOrder_one, by simp only [List.mem_singleton, forall_eq]; exact ⟨n, d, h2, h1, rfl⟩⟩
  · intros; assumption
  · intros; exact within_nil
  · intros; exact within_nil
  · intro t e cnt es cs _ _ ih; exact within_container .arr ih
  · intro t n e cnt es cs _ _ ih; exact within_container .arr ih
  · intro t k v d cnt es cs _ hc _ ih; exact within_container hc ih
  · intro t id d cnt es cs _ hc _ ih; exact within_container hc ih
  · intros; exact within_nil
  · intro e lim txt i d es cs cs' _ _ _ _ ih ih'
    rw [pairsText]; exact within_append (within_pre ih _) ih'
  · intro e n txt i d es cs _ _ _ ih
    rw [pairsText]; exact within_pre ih _
  · intros; exact within_nil
  · intro k v kd d es cs cs' cs'' _ _ _ ih ih' ih''
    rw [pairsText]; exact within_append (within_append ih ih') ih''
  · intros; exact within_nil
  · intro id kd key i f d es cs cs' _ _ _ _ ih ih'
    rw [pairsText]; exact within_append (within_pre ih _) ih'
  · intro id kd key d es cs _ _ _ ih
    rw [pairsText]; exact within_pre ih _

/-! ### Runs -/

/-- What is known of any run from position `c` on with calls `h` made before. -/
def Fine (M : Hooks) (b : Bytes) (h : Calls) (c : Nat) (R : HR) : Prop :=
  ∃ cs, R.1 = h ++ cs ∧ AllOk M h cs.dropLast ∧ CallsIn cs (b.drop c)

section
variable {M : Hooks} {b : Bytes}

theorem fine_here {h : Calls} {c : Nat} {r : DR} : Fine M b h c (h, r) := ⟨[], by simp, trivial, within_nil⟩

theorem fine_later {h : Calls} {c c1 : Nat} {R : HR} (hc : c ≤ c1) (hf : Fine M b h c1 R) : Fine M b h c R := by
  obtain ⟨cs, h1, h2, h3⟩ := hf
  refine ⟨cs, h1, h2, ?_⟩
  have : b.drop c = (b.drop c).take (c1 - c) ++ b.drop c1 := by
    rw [show c1 = c + (c1 - c) by omega, ← List.drop_drop, show c + (c1 - c) - c = c1 - c by omega, List.take_append_drop]
  rw [this]
  exact within_pre h3 _

theorem fine_onOkH {α : Type} {h : Calls} {c : Nat} {rv : Val} {r : Res α} {k : α → HR} (hk : ∀ x, r = .ok x → Fine M b h c (k x)) :
    Fine M b h c (onOkH h rv r k) := by
  cases r with
  | ok x => exact hk x rfl
  | err e => exact fine_here
  | panic p => exact fine_here
  | diverge => exact fine_here

theorem fine_ite {p : Prop} [Decidable p] {h : Calls} {c : Nat} {x y : HR} (hx : p → Fine M b h c x) (hy : ¬ p → Fine M b h c y) :
    Fine M b h c (if p then x else y) := by
  split
  · exact hx ‹_›
  · exact hy ‹_›

theorem dropLast_ok {h as bs : Calls} (ha : AllOk M h as) (hb : AllOk M (h ++ as) bs.dropLast) : AllOk M h (as ++ bs).dropLast := by
  cases bs with
  | nil =>
    rw [List.append_nil]
    rcases List.eq_nil_or_concat as with rfl | ⟨l, x, rfl⟩
    · trivial
    · rw [List.concat_eq_append] at *
      rw [List.dropLast_concat]
      exact (allOk_append.1 ha).1
  | cons x l =>
    rw [List.dropLast_append_of_ne_nil (by simp)]
    exact allOk_append.2 ⟨ha, hb⟩

/-- First one run, then, if it went well, the rest. -/
theorem fine_run {W : World} {n : Nat} {t : Ty} {h h1 : Calls} {c : Nat} {v1 rv : Val} {r1 : Res Nat} {k : Nat → HR}
    (hd : DoneH W M b n t h c (h1, v1, r1)) (hf : Fine M b h c (h1, v1, r1)) (hk : ∀ x, c ≤ x → r1 = .ok x → Fine M b h1 x (k x)) :
    Fine M b h c (onOkH h1 rv r1 k) := by
  obtain ⟨cs, e, f1, f2⟩ := hf
  cases r1 with
  | ok x =>
    obtain ⟨d, cs, hat, hl, rfl, hh, hok⟩ := hd _ _ _ rfl
    obtain ⟨cs', e', g1, g2⟩ := hk x (by have := hat.2; omega) rfl
    refine ⟨cs ++ cs', by simp [onOkH, e'], dropLast_ok hok g1, ?_⟩
    rw [hat.1]
    exact within_append (handed_within hh) g2
  | err e' => exact ⟨cs, e, f1, f2⟩
  | panic p => exact ⟨cs, e, f1, f2⟩
  | diverge => exact ⟨cs, e, f1, f2⟩

/-! ### Loops -/

theorem sliceLoopH_fine {W : World} {e : Ty} {n : Nat} {dec : Calls → Nat → Val → HR}
    (hdec : ∀ h c v, DoneH W M b n e h c (dec h c v)) (hf : ∀ h c v, Fine M b h c (dec h c v)) {z : Val} {sz : Nat}
    {f c : Nat} {h : Calls} {sl : List Val} {rv : Val} : Fine M b h c (sliceLoopH dec z sz b f h c sl rv) := by
  induction f generalizing h c sl rv with
  | zero => exact fine_here
  | succ f ih =>
    unfold sliceLoopH
    refine fine_ite (fun _ => fine_here) fun _ => fine_onOkH fun ⟨i, c1⟩ hi => fine_ite (fun _ => fine_here) fun _ => fine_ite (fun _ => fine_here) fun _ => ?_
    obtain ⟨t, ht, hi63, hd, hc1⟩ := readInt_sound hi
    dsimp only
    split
    · exact fine_here
    · rename_i v0 hv0
      refine fine_later (c1 := c1) (by omega) ?_
      have h1 := hdec h c1 v0
      have h2 := hf h c1 v0
      revert h1 h2
      rcases dec h c1 v0 with ⟨h', v', r'⟩
      intro h1 h2
      refine fine_run h1 h2 fun x hx _ => fine_ite (fun _ => fine_here) fun _ => fine_onOkH fun y _ => fine_ite (fun _ => fine_here) fun _ => ih

theorem arrayLoopH_fine {W : World} {e : Ty} {n : Nat} {dec : Calls → Nat → Val → HR} {skip : Nat → Res Nat}
    (hdec : ∀ h c v, DoneH W M b n e h c (dec h c v)) (hf : ∀ h c v, Fine M b h c (dec h c v))
    (hskip : ∀ c c', skip c = .ok c' → ∃ d, At b c d c' ∧ Strict n d)
    {f c : Nat} {h : Calls} {vs : List Val} : Fine M b h c (arrayLoopH dec skip b f h c vs) := by
  induction f generalizing h c vs with
  | zero => exact fine_here
  | succ f ih =>
    unfold arrayLoopH
    refine fine_ite (fun _ => fine_here) fun _ => fine_onOkH fun ⟨i, c1⟩ hi => fine_ite (fun _ => fine_here) fun _ => ?_
    obtain ⟨t, ht, hi63, hd, hc1⟩ := readInt_sound hi
    dsimp only
    refine fine_later (c1 := c1) (by omega) ?_
    rcases vs[i]? with _ | v0
    · refine fine_onOkH fun x hx => fine_ite (fun _ => fine_here) fun _ => fine_onOkH fun y _ => fine_ite (fun _ => fine_here) fun _ => ?_
      obtain ⟨d, h1, _⟩ := hskip _ _ hx
      exact fine_later (c1 := x) (by have := h1.2; omega) ih
    · have h1 := hdec h c1 v0
      have h2 := hf h c1 v0
      revert h1 h2
      dsimp only
      rcases dec h c1 v0 with ⟨h', v', r'⟩
      intro h1 h2
      exact fine_run h1 h2 fun x hx _ => fine_ite (fun _ => fine_here) fun _ => fine_onOkH fun y _ => fine_ite (fun _ => fine_here) fun _ => ih

theorem mapLoopH_fine {W : World} {kt vt : Ty} {n : Nat} {keyDec valDec : Calls → Nat → HR}
    (hkey : ∀ h c, DoneH W M b n kt h c (keyDec h c)) (hval : ∀ h c, DoneH W M b n vt h c (valDec h c))
    (fkey : ∀ h c, Fine M b h c (keyDec h c)) (fval : ∀ h c, Fine M b h c (valDec h c))
    {f c : Nat} {h : Calls} {m : List (Val × Val)} : Fine M b h c (mapLoopH keyDec valDec b f h c m) := by
  induction f generalizing h c m with
  | zero => exact fine_here
  | succ f ih =>
    unfold mapLoopH
    refine fine_ite (fun _ => fine_here) fun _ => ?_
    have h1 := hkey h c
    have h2 := fkey h c
    revert h1 h2
    rcases keyDec h c with ⟨h', k', r'⟩
    intro h1 h2
    refine fine_run h1 h2 fun x hx _ => fine_ite (fun _ => fine_here) fun _ => ?_
    have h1 := hval h' x
    have h2 := fval h' x
    revert h1 h2
    rcases valDec h' x with ⟨h'', v', r''⟩
    intro h1 h2
    exact fine_run h1 h2 fun y hy _ => fine_ite (fun _ => fine_here) fun _ => fine_ite (fun _ => fine_here) fun _ =>
      fine_onOkH fun y _ => fine_ite (fun _ => fine_here) fun _ => ih

theorem structLoopH_fine {W : World} {id n : Nat} (hb : b.length < 2 ^ 63)
    {dec : FieldSet → Calls → Nat → Val → HR} {skip : Nat → Res Nat}
    (hdec : ∀ i f h c v, DoneH W M b n f.ty h c (dec (mkSet W i f) h c v)) (hf : ∀ i f h c v, Fine M b h c (dec (mkSet W i f) h c v))
    (hskip : ∀ c c', skip c = .ok c' → ∃ d, At b c d c' ∧ Strict n d)
    {f c : Nat} {h : Calls} {vs : List Val} : Fine M b h c (structLoopH (fieldSets W 0 (W.fields id)) dec skip b f h c vs) := by
  induction f generalizing h c vs with
  | zero => exact fine_here
  | succ f ih =>
    unfold structLoopH
    refine fine_ite (fun _ => fine_here) fun _ => fine_onOkH fun ⟨fld, c1⟩ hkc => fine_ite (fun _ => fine_here) fun _ => ?_
    simp only [decodeKey, Res.bind_eq_ok, Res.ok.injEq, Prod.mk.injEq] at hkc
    obtain ⟨⟨ob, c1'⟩, hsb, hfind, rfl⟩ := hkc
    have hle : c ≤ c1' := by
      rcases (stringBytes_iff hb).1 hsb with ⟨rfl, hn⟩ | ⟨l, s, rfl, ha, hn⟩
      · have := hn.2; omega
      · have := hn.2; omega
    dsimp only
    refine fine_later (c1 := c1') hle ?_
    rcases fld with _ | s
    · refine fine_onOkH fun x hx => fine_ite (fun _ => fine_here) fun _ => fine_onOkH fun y _ => fine_ite (fun _ => fine_here) fun _ => ?_
      obtain ⟨d, h1, _⟩ := hskip _ _ hx
      exact fine_later (c1 := x) (by have := h1.2; omega) ih
    · obtain ⟨i, fd, hff, rfl⟩ := find_some hfind
      dsimp only
      rcases vs[(mkSet W i fd).idx]? with _ | v0
      · exact fine_here
      · have h1 := hdec i fd h c1' v0
        have h2 := hf i fd h c1' v0
        revert h1 h2
        dsimp only
        rcases dec (mkSet W i fd) h c1' v0 with ⟨h', v', r'⟩
        intro h1 h2
        exact fine_run h1 h2 fun x hx _ => fine_ite (fun _ => fine_here) fun _ => fine_onOkH fun y _ => fine_ite (fun _ => fine_here) fun _ => ih

/-! ### Containers -/

theorem sliceDecodeH_fine {W : World} {e : Ty} {dec : Calls → Nat → Nat → Val → HR} {c depth : Nat} {h : Calls} {rv : Val} {z : Val} {sz : Nat}
    (hdec : depth + 1 ≤ maxDepth → ∀ h c v, DoneH W M b (maxDepth - (depth + 1)) e h c (dec h c (depth + 1) v))
    (hf : depth + 1 ≤ maxDepth → ∀ h c v, Fine M b h c (dec h c (depth + 1) v)) :
    Fine M b h c (sliceDecodeH dec z sz b h c depth rv) := by
  unfold sliceDecodeH
  refine fine_ite (fun _ => fine_here) fun _ => fine_ite (fun _ => fine_here) fun hdep => fine_onOkH fun x _ => fine_ite (fun _ => fine_onOkH fun _ _ => fine_here) fun _ =>
    fine_ite (fun _ => fine_ite (fun _ => fine_here) fun _ => fine_onOkH fun y _ => fine_ite (fun _ => fine_here) fun _ => fine_ite (fun _ => fine_here) fun _ =>
      fine_onOkH fun z _ => fine_ite (fun _ => fine_onOkH fun _ _ => fine_here) fun _ => fine_onOkH fun ⟨l, c2⟩ hl => fine_ite (fun _ => fine_here) fun _ =>
      fine_onOkH fun w _ => fine_ite (fun _ => fine_here) fun _ => fine_ite (fun _ => fine_here) fun _ => ?_) fun _ => fine_ite (fun _ => fine_here) fun _ => fine_here
  obtain ⟨cnt, m, hm, rfl, hdr, hc2⟩ := readLength_sound hl
  exact fine_later (c1 := c2 + 1) (by omega) (sliceLoopH_fine (hdec (by omega)) (hf (by omega)))

theorem arrayDecodeH_fine {W : World} {e : Ty} {l : Nat} {dec : Calls → Nat → Nat → Val → HR} {c depth : Nat} {h : Calls} {rv : Val} {z : Val}
    (hb : b.length < 2 ^ 63)
    (hdec : depth + 1 ≤ maxDepth → ∀ h c v, DoneH W M b (maxDepth - (depth + 1)) e h c (dec h c (depth + 1) v))
    (hf : depth + 1 ≤ maxDepth → ∀ h c v, Fine M b h c (dec h c (depth + 1) v)) :
    Fine M b h c (arrayDecodeH dec z l b h c depth rv) := by
  unfold arrayDecodeH
  refine fine_ite (fun _ => fine_here) fun _ => fine_ite (fun _ => fine_here) fun hdep => fine_onOkH fun x _ => fine_ite (fun _ => fine_onOkH fun _ _ => fine_here) fun _ =>
    fine_ite (fun _ => fine_ite (fun _ => fine_here) fun _ => fine_onOkH fun y _ => fine_ite (fun _ => fine_here) fun _ => fine_ite (fun _ => fine_here) fun _ =>
      fine_onOkH fun z _ => fine_ite (fun _ => fine_onOkH fun _ _ => fine_here) fun _ => fine_onOkH fun ⟨l, c2⟩ hl => fine_ite (fun _ => fine_here) fun _ =>
      fine_onOkH fun w _ => fine_ite (fun _ => fine_here) fun _ => ?_) fun _ => fine_here
  obtain ⟨cnt, m, hm, rfl, hdr, hc2⟩ := readLength_sound hl
  exact fine_later (c1 := c2 + 1) (by omega) (arrayLoopH_fine (hdec (by omega)) (hf (by omega)) (fun c c' hs => skip_doc hb (by omega) hs))

theorem headerH_le {c c1 : Nat} {x : Byte} {e : Err} (hb : b.length < 2 ^ 63)
    (h : (if x = cO then skipClassName b c >>= fun e => .ok (e + 1) else if x = ca then .ok (c + 1) else .err e) = .ok c1) : c ≤ c1 := by
  split at h
  · simp only [Res.bind_eq_ok, Res.ok.injEq] at h
    obtain ⟨e', he, rfl⟩ := h
    obtain ⟨ds, cls, hl, hdrop, _, hee⟩ := skipClassName_sound hb he
    omega
  · split at h
    · cases h; omega
    · simp at h

theorem mapDecodeH_fine {W : World} {kt vt : Ty} {keyDec valDec : Calls → Nat → Nat → HR} {c depth : Nat} {h : Calls} {rv : Val} (hb : b.length < 2 ^ 63)
    (hkey : depth + 1 ≤ maxDepth → ∀ h c, DoneH W M b (maxDepth - (depth + 1)) kt h c (keyDec h c (depth + 1)))
    (hval : depth + 1 ≤ maxDepth → ∀ h c, DoneH W M b (maxDepth - (depth + 1)) vt h c (valDec h c (depth + 1)))
    (fkey : depth + 1 ≤ maxDepth → ∀ h c, Fine M b h c (keyDec h c (depth + 1)))
    (fval : depth + 1 ≤ maxDepth → ∀ h c, Fine M b h c (valDec h c (depth + 1))) :
    Fine M b h c (mapDecodeH keyDec valDec b h c depth rv) := by
  unfold mapDecodeH
  refine fine_ite (fun _ => fine_here) fun _ => fine_ite (fun _ => fine_here) fun hdep => fine_onOkH fun x _ => fine_ite (fun _ => fine_onOkH fun _ _ => fine_here) fun _ =>
    fine_onOkH fun c1 hhd => fine_onOkH fun ⟨l, c2⟩ hl => fine_ite (fun _ => fine_here) fun _ => fine_onOkH fun y _ => fine_ite (fun _ => fine_here) fun _ => ?_
  have hle := headerH_le hb hhd
  obtain ⟨cnt, m, hm, rfl, hdr, hc2⟩ := readLength_sound hl
  rcases mapEntries rv with _ | es0
  · exact fine_here
  · refine fine_ite (fun _ => fine_here) fun _ => fine_onOkH fun w _ => fine_ite (fun _ => fine_here) fun _ => ?_
    exact fine_later (c1 := c2 + 1) (by omega) (mapLoopH_fine (hkey (by omega)) (hval (by omega)) (fkey (by omega)) (fval (by omega)))

theorem structDecodeH_fine {W : World} {id : Nat} {dec : FieldSet → Calls → Nat → Nat → Val → HR} {c depth : Nat} {h : Calls} {rv : Val} (hb : b.length < 2 ^ 63)
    (hdec : depth + 1 ≤ maxDepth → ∀ i f h c v, DoneH W M b (maxDepth - (depth + 1)) f.ty h c (dec (mkSet W i f) h c (depth + 1) v))
    (hf : depth + 1 ≤ maxDepth → ∀ i f h c v, Fine M b h c (dec (mkSet W i f) h c (depth + 1) v)) :
    Fine M b h c (structDecodeH (fieldSets W 0 (W.fields id)) dec b h c depth rv) := by
  unfold structDecodeH
  refine fine_ite (fun _ => fine_here) fun _ => fine_ite (fun _ => fine_here) fun hdep => fine_onOkH fun x _ => fine_ite (fun _ => fine_onOkH fun _ _ => fine_here) fun _ =>
    fine_onOkH fun c1 hhd => fine_ite (fun _ => fine_here) fun _ => fine_onOkH fun y _ => fine_ite (fun _ => fine_here) fun _ => fine_onOkH fun c2 hl =>
    fine_ite (fun _ => fine_here) fun _ => fine_onOkH fun y _ => fine_ite (fun _ => fine_here) fun _ => fine_ite (fun _ => fine_here) fun _ => fine_onOkH fun w _ =>
    fine_ite (fun _ => fine_here) fun _ => ?_
  have hle := headerH_le hb hhd
  obtain ⟨cnt, hm, hdr, hc2⟩ := skipLen_sound hl
  split
  · exact fine_later (c1 := c2 + 1) (by omega) (structLoopH_fine hb (hdec (by omega)) (hf (by omega)) (fun c c' hs => skip_doc hb (by omega) hs))
  · exact fine_here

/-! ### Methods and dispatch -/

theorem onOkH_fst {α : Type} {h : Calls} {rv : Val} {r : Res α} {k : α → HR} (hk : ∀ x, (k x).1 = h) : (onOkH h rv r k).1 = h := by
  cases r with
  | ok x => exact hk x
  | err e => rfl
  | panic p => rfl
  | diverge => rfl

/-- A run whose only call is with the text it skipped. -/
theorem fine_call {h : Calls} {c e : Nat} {d : Doc} {n : Nat} {call : MethodCall} {R : HR} (hat : At b c d e) (hs : Strict n d) (hn : d ≠ .null) (ha : argOf call = d.text)
    (hR : R.1 = h ++ [call]) : Fine M b h c R := by
  refine ⟨[call], hR, trivial, ?_, ?_⟩
  · rw [List.map_singleton, ha, hat.1]
    exact inOrder_post inOrder_one _
  · simp only [List.mem_singleton, forall_eq]
    exact ⟨n, d, hs, hn, ha⟩

theorem unmarshalDecodeH_fine {W : World} {id : Nat} {c depth : Nat} {h : Calls} {rv : Val} (hb : b.length < 2 ^ 63) (hd : depth ≤ maxDepth) :
    Fine M b h c (unmarshalDecodeH W M id b h c depth rv) := by
  unfold unmarshalDecodeH
  refine fine_onOkH fun e he => fine_onOkH fun src hsrc => fine_ite (fun _ => fine_here) fun _ => fine_ite (fun _ => fine_here) fun _ =>
    fine_ite (fun _ => fine_here) fun _ => fine_ite (fun _ => fine_here) fun hn => ?_
  obtain ⟨d, hat, hs, rfl⟩ := skip_sub hb hd he hsrc
  obtain ⟨o, ho, hu'⟩ := unquoteBytes_total d.text
  rw [unquote_text] at hu'
  refine fine_onOkH fun o' ho' => ?_
  rw [ho] at ho'; cases ho'
  rw [hu']
  refine fine_call (call := .own id d.text) hat hs (fun h => hn ((text_null_iff hs).2 h)) rfl ?_
  exact onOkH_fst fun _ => rfl

theorem ifaceDecodeH_fine {W : World} {c depth : Nat} {h : Calls} {rv : Val} (hb : b.length < 2 ^ 63) (hd : depth ≤ maxDepth) :
    Fine M b h c (ifaceDecodeH W M b h c depth rv) := by
  unfold ifaceDecodeH
  split
  · rename_i dt dv _
    unfold dynDecodeH
    refine fine_onOkH fun e he => fine_onOkH fun src hsrc => fine_ite (fun _ => fine_here) fun hn => ?_
    obtain ⟨d, hat, hs, rfl⟩ := skip_sub hb hd he hsrc
    obtain ⟨o, ho, hu'⟩ := unquoteBytes_total d.text
    rw [unquote_text] at hu'
    refine fine_onOkH fun o' ho' => ?_
    rw [ho] at ho'; cases ho'
    rw [hu']
    refine fine_call (call := .held dt dv d.text) hat hs (fun h => hn ((text_null_iff hs).2 h)) rfl ?_
    exact onOkH_fst fun _ => rfl
  · exact fine_onOkH fun x _ => fine_ite (fun _ => fine_onOkH fun _ _ => fine_here) fun _ => fine_here

theorem keyDecodeH_fine {W : World} {k : Ty} {f : Nat} {c depth : Nat} {h : Calls} (hb : b.length < 2 ^ 63) (hd : depth ≤ maxDepth) :
    Fine M b h c (keyDecodeH W M (fun h c d => decodeH W M b f .any h c d .ifaceNil) b k h c depth) := by
  unfold keyDecodeH
  have pk : ∀ r : DR, Fine M b h c (ptrKeyDecodeH (h, r) b h c) := fun r =>
    fine_onOkH fun x _ => fine_ite (fun _ => fine_onOkH fun _ _ => fine_here) fun _ => fine_onOkH fun _ _ => fine_here
  cases hu : W.unmOf k with
  | some id => exact unmarshalDecodeH_fine hb hd
  | none =>
    cases hr : W.resolve k <;> dsimp only
    case any => rw [anyDecodeH_eq]; exact fine_here
    case iface i => exact ifaceDecodeH_fine hb hd
    case ptr e =>
      cases hue : W.unmOf e with
      | some id => exact fine_here
      | none =>
        cases hre : W.resolve e <;> dsimp only
        case any | iface => rw [anyDecodeH_eq]; exact pk _
        all_goals first | exact pk _ | exact fine_here
    all_goals exact fine_here

theorem ptrDecodeH_fine {inner : Calls → Nat → Nat → Val → HR} {z : Val} {h : Calls} {c depth : Nat} {rv : Val}
    (hi : ∀ h c v, Fine M b h c (inner h c depth v)) : Fine M b h c (ptrDecodeH inner z b h c depth rv) := by
  unfold ptrDecodeH
  refine fine_onOkH fun x _ => fine_ite (fun _ => fine_onOkH fun _ _ => fine_here) fun _ => ?_
  split
  · exact hi h c z
  · exact hi h c _
  · exact fine_here

theorem fieldDecodeH_fine {W : World} {rec : Ty → Calls → Nat → Nat → Val → HR} {depth : Nat} {s : FieldSet} {h : Calls} {c : Nat} {rv : Val}
    (hrec : ∀ t h c v, Fine M b h c (rec t h c depth v)) : Fine M b h c (fieldDecodeH W rec b s h c depth rv) := by
  unfold fieldDecodeH
  split
  · split
    · exact fine_ite (fun _ => ptrDecodeH_fine fun _ _ _ => fine_here) fun _ => fine_here
    · exact fine_ite (fun _ => fine_here) fun _ => fine_here
  · exact hrec _ _ _ _

theorem decodeNonPtrH_fine {W : World} (hb : b.length < 2 ^ 63) {f : Nat}
    (hrec : ∀ t h c depth v, depth ≤ maxDepth → Fine M b h c (decodeH W M b f t h c depth v))
    {t : Ty} {h : Calls} {c depth : Nat} {rv : Val} (hd : depth ≤ maxDepth) :
    Fine M b h c (decodeNonPtrH W M (decodeH W M b f) b t h c depth rv) := by
  unfold decodeNonPtrH
  cases hu : W.unmOf t with
  | some id => exact unmarshalDecodeH_fine hb hd
  | none =>
    cases hr : W.resolve t <;> dsimp only
    case slice e =>
      refine fine_ite (fun _ => ?_) fun _ => sliceDecodeH_fine (fun hd h c v => decodeH_sound (t := e) hb hd) (fun hd h c v => hrec _ _ _ _ _ hd)
      unfold bytesDecodeH
      refine fine_onOkH fun x _ => fine_ite (fun _ => sliceDecodeH_fine (fun hd h c v => decodeH_sound (t := e) hb hd) (fun hd h c v => hrec _ _ _ _ _ hd)) fun _ =>
        fine_onOkH fun ⟨ob, c⟩ _ => ?_
      cases ob <;> exact fine_here
    case array n e => exact arrayDecodeH_fine hb (fun hd h c v => decodeH_sound (t := e) hb hd) (fun hd h c v => hrec _ _ _ _ _ hd)
    case map k v =>
      exact mapDecodeH_fine hb (fun hd h c => keyDecodeH_sound (k := k) hb hd) (fun hd h c => decodeH_sound (t := v) hb hd)
        (fun hd h c => keyDecodeH_fine hb hd) (fun hd h c => hrec _ _ _ _ _ hd)
    case struct id =>
      exact structDecodeH_fine hb (fun hd i f h c v => fieldDecodeH_sound hb (fun t h c v => decodeH_sound hb hd))
        (fun hd i f h c v => fieldDecodeH_fine (fun t h c v => hrec _ _ _ _ _ hd))
    case any => rw [anyDecodeH_eq]; exact fine_here
    case iface i => exact ifaceDecodeH_fine hb hd
    all_goals exact fine_here

theorem decodeH_fine {W : World} (hb : b.length < 2 ^ 63) {f : Nat} {t : Ty} {h : Calls} {c depth : Nat} {rv : Val}
    (hd : depth ≤ maxDepth) : Fine M b h c (decodeH W M b f t h c depth rv) := by
  induction f generalizing t h c depth rv with
  | zero => exact fine_here
  | succ f ih =>
    have hrec : ∀ t h c depth v, depth ≤ maxDepth → Fine M b h c (decodeH W M b f t h c depth v) := fun t h c depth v hd => ih hd
    unfold decodeH
    split
    · exact fine_ite (fun _ => fine_here) fun _ => ptrDecodeH_fine fun h c v => decodeNonPtrH_fine hb hrec hd
    · exact decodeNonPtrH_fine hb hrec hd

end

/-! ### Whole calls -/

theorem unmarshalH_fine {W : World} {M : Hooks} {fuel : Nat} {h : Calls} {data : Bytes} {t : Ty} {v : Val} (hb : data.length < 2 ^ 63) :
    ∃ cs, (unmarshalH W M fuel h data t v).1 = h ++ cs ∧ AllOk M h cs.dropLast ∧ CallsIn cs data := by
  have none : ∃ cs, h = h ++ cs ∧ AllOk M h cs.dropLast ∧ CallsIn cs data := ⟨[], by simp, trivial, within_nil⟩
  unfold unmarshalH
  split
  · exact none
  · split
    · exact decodeH_fine (M := M) hb (Nat.zero_le _) (W := W) (b := data) (t := t) (h := h) (c := 0) (depth := 0) (rv := v) (f := data.length + 1)
    all_goals exact none

theorem unmarshalH_done {W : World} {M : Hooks} {fuel : Nat} {h : Calls} {data : Bytes} {t : Ty} {v : Val} (hb : data.length < 2 ^ 63)
    (hok : (unmarshalH W M fuel h data t v).2.2 = .ok ()) :
    ∃ d cs, Lax maxDepth d ∧ d.text = data ∧ (unmarshalH W M fuel h data t v).1 = h ++ cs ∧ Handed W t d cs ∧ AllOk M h cs := by
  revert hok
  unfold unmarshalH
  split
  · simp
  · split
    · have := decodeH_sound (M := M) hb (Nat.zero_le maxDepth) (W := W) (b := data) (t := t) (h := h) (c := 0) (depth := 0) (rv := v) (f := data.length + 1)
      revert this
      rcases decodeH W M data (data.length + 1) t h 0 0 v with ⟨h', v', r⟩
      intro this hok
      rcases r with c | e | p | _ <;> simp [onOk] at hok
      obtain ⟨d, cs, hat, hl, rfl, hh, hok'⟩ := this _ _ _ rfl
      refine ⟨d, cs, hl, ?_, rfl, hh, hok'⟩
      have hc := validateEndBuf_ok.1 hok
      have := hat.1
      rw [← hc] at this
      simpa using this.symm
    all_goals simp

end Verif

import Verif.Spec.Scribble
import Verif.Proofs.Alias
import Verif.Proofs.Ahead
/-
Decoding a buffer that methods write to, against decoding one that stays.
-/
namespace Verif
open Spec

/-! ### Buffers -/

/-- Since cursor `lo`, where the buffer was `bs`, decoding went to `c`: nothing before `lo` was written, nor anything from `c` on. -/
structure St (b0 : Bytes) (lo : Nat) (bs b : Bytes) (c : Nat) : Prop where
  le : lo ≤ c
  ahead : SameFrom b b0 c
  before : b.take lo = bs.take lo

/-- The byte slices of `v` in the buffer lie before `e` and have the bytes of the input. -/
def KeptW (o : Nat) (b0 b : Bytes) (e : Nat) (ws : List Win) : Prop :=
  ∀ w ∈ ws, w.obj = o → w.off + w.len ≤ e ∧ (b.drop w.off).take w.len = (b0.drop w.off).take w.len

/-- The same, and interfaces hold none. -/
def Kept (o : Nat) (b0 b : Bytes) (e : Nat) (v : Val) : Prop := HeldFree v ∧ KeptW o b0 b e (wins v)

/-- What a decoder does from `lo` on, where the buffer was `bs`, next to the decoder with a constant buffer. -/
def SPost (o : Nat) (b0 : Bytes) (lo : Nat) (bs : Bytes) (x : SR) (y : DR) : Prop :=
  x.2 = y ∧ ∃ e, St b0 lo bs x.1 e ∧ Kept o b0 x.1 e y.1 ∧ ∀ c', y.2 = .ok c' → e ≤ c'

/-- The same for every place and destination. -/
def SDec (o : Nat) (b0 : Bytes) (D : Bytes → Nat → Val → SR) (D' : Nat → Val → DR) : Prop :=
  ∀ c b v, SameFrom b b0 c → Kept o b0 b c v → SPost o b0 c b (D b c v) (D' c v)

section Scribble
variable {o : Nat} {b0 : Bytes} {lo : Nat} {bs b : Bytes} {c c' : Nat} {v : Val}

theorem St.refl (h : SameFrom b b0 c) : St b0 c b b c := ⟨Nat.le_refl _, h, rfl⟩

theorem St.mono (h : St b0 lo bs b c) (hc : c ≤ c') : St b0 lo bs b c' := ⟨by have := h.le; omega, h.ahead.mono hc, h.before⟩

theorem take_take_le {a b : Bytes} {n k : Nat} (h : a.take n = b.take n) (hk : k ≤ n) : a.take k = b.take k := by
  have := congrArg (List.take k) h
  rwa [List.take_take, List.take_take, Nat.min_eq_left hk] at this

theorem St.trans {b' : Bytes} (h : St b0 lo bs b c) (h' : St b0 c b b' c') : St b0 lo bs b' c' :=
  ⟨by have := h.le; have := h'.le; omega, h'.ahead, (take_take_le h'.before h.le).trans h.before⟩

theorem window_take {a b : Bytes} {k off len : Nat} (h : a.take k = b.take k) (hk : off + len ≤ k) : (a.drop off).take len = (b.drop off).take len := by
  have := congrArg (List.drop off) (take_take_le h hk)
  simpa only [List.drop_take, Nat.add_sub_cancel_left] using this

theorem KeptW.mono {ws : List Win} {e e' : Nat} (h : KeptW o b0 b e ws) (he : e ≤ e') : KeptW o b0 b e' ws :=
  fun w hw ho => ⟨by have := (h w hw ho).1; omega, (h w hw ho).2⟩

theorem KeptW.write {ws : List Win} {b' : Bytes} (h : KeptW o b0 b c ws) (hb : b'.take c = b.take c) : KeptW o b0 b' c ws :=
  fun w hw ho => ⟨(h w hw ho).1, (window_take hb (h w hw ho).1).trans (h w hw ho).2⟩

theorem KeptW.sub {ws ws' : List Win} {e : Nat} (h : KeptW o b0 b e ws) (hs : ∀ w ∈ ws', w ∈ ws) : KeptW o b0 b e ws' := fun w hw => h w (hs w hw)

theorem KeptW.append {ws ws' : List Win} {e : Nat} (h : KeptW o b0 b e ws) (h' : KeptW o b0 b e ws') : KeptW o b0 b e (ws ++ ws') := by
  intro w hw
  rcases List.mem_append.1 hw with hw | hw
  · exact h w hw
  · exact h' w hw

theorem KeptW.nil {e : Nat} : KeptW o b0 b e [] := by simp [KeptW]

theorem KeptW.step {ws : List Win} {b' : Bytes} (h : KeptW o b0 b c ws) (hs : St b0 c b b' c') : KeptW o b0 b' c' ws := (h.write hs.before).mono hs.le

theorem Kept.mono {e e' : Nat} (h : Kept o b0 b e v) (he : e ≤ e') : Kept o b0 b e' v := ⟨h.1, h.2.mono he⟩
theorem Kept.step {b' : Bytes} (h : Kept o b0 b c v) (hs : St b0 c b b' c') : Kept o b0 b' c' v := ⟨h.1, h.2.step hs⟩
theorem Kept.dry {e : Nat} (h : wins v = []) : Kept o b0 b e v := ⟨heldFree_of_nil h, by rw [h]; exact KeptW.nil⟩

theorem mem_winsList {vs : List Val} {w : Win} : w ∈ winsList vs ↔ ∃ v ∈ vs, w ∈ wins v := by
  induction vs with
  | nil => simp [winsList]
  | cons x xs ih => simp [winsList, ih]

theorem KeptW.set {vs : List Val} {e i : Nat} (h : KeptW o b0 b e (winsList vs)) (hv : KeptW o b0 b e (wins v)) : KeptW o b0 b e (winsList (vs.set i v)) := by
  intro w hw
  obtain ⟨u, hu, hw'⟩ := mem_winsList.1 hw
  rcases List.mem_or_eq_of_mem_set hu with hu | hu
  · exact h w (mem_winsList.2 ⟨u, hu, hw'⟩)
  · exact hv w (hu ▸ hw')

theorem KeptW.get {vs : List Val} {e i : Nat} (h : KeptW o b0 b e (winsList vs)) (hv : vs[i]? = some v) : KeptW o b0 b e (wins v) :=
  h.sub fun _ hw => mem_winsList.2 ⟨v, List.mem_of_getElem? hv, hw⟩

theorem KeptW.insert {k v : Val} {es : List (Val × Val)} {e : Nat} (h : KeptW o b0 b e (winsEntries es)) (hk : wins k = []) (hv : KeptW o b0 b e (wins v)) :
    KeptW o b0 b e (winsEntries (mapInsert k v es)) := by
  intro w hw
  have h1 := List.count_pos_iff.2 hw
  have h2 := count_insert k v es w
  rw [hk] at h2
  by_cases h3 : w ∈ wins v
  · exact hv w h3
  · by_cases h4 : w ∈ winsEntries es
    · exact h w h4
    · rw [List.count_eq_zero.2 h3, List.count_eq_zero.2 h4] at h2
      simp at h2
      omega

/-! ### Steps -/

theorem sp_ok (h : St b0 lo bs b c) (k : Kept o b0 b c v) (hc : c ≤ c') : SPost o b0 lo bs (b, v, .ok c') (v, .ok c') :=
  ⟨rfl, c, h, k, by rintro _ ⟨⟩; exact hc⟩
theorem sp_err {e : Err} (h : St b0 lo bs b c) (k : Kept o b0 b c v) : SPost o b0 lo bs (b, v, .err e) (v, .err e) := ⟨rfl, c, h, k, by simp⟩
theorem sp_panic {e : Panic} (h : St b0 lo bs b c) (k : Kept o b0 b c v) : SPost o b0 lo bs (b, v, .panic e) (v, .panic e) := ⟨rfl, c, h, k, by simp⟩
theorem sp_div (h : St b0 lo bs b c) (k : Kept o b0 b c v) : SPost o b0 lo bs (b, v, .diverge) (v, .diverge) := ⟨rfl, c, h, k, by simp⟩
theorem sp_onOk {α : Type} {r r' : Res α} {K : α → SR} {K' : α → DR} (hr : r = r') (h : St b0 lo bs b c) (k : Kept o b0 b c v)
    (hk : ∀ a, r' = .ok a → SPost o b0 lo bs (K a) (K' a)) : SPost o b0 lo bs (onOkS b v r K) (onOk v r' K') := by
  subst hr
  cases r with
  | ok a => exact hk a rfl
  | err e => exact sp_err h k
  | panic p => exact sp_panic h k
  | diverge => exact sp_div h k
theorem sp_ite {p : Prop} [Decidable p] {x y : SR} {x' y' : DR} (hx : p → SPost o b0 lo bs x x') (hy : ¬ p → SPost o b0 lo bs y y') :
    SPost o b0 lo bs (if p then x else y) (if p then x' else y') := by
  by_cases h : p
  · simpa only [if_pos h] using hx h
  · simpa only [if_neg h] using hy h
theorem sp_has {x y : SR} {x' y' : DR} (h : St b0 lo bs b c) (i : Nat) (hx : SPost o b0 lo bs x x') (hy : SPost o b0 lo bs y y') :
    SPost o b0 lo bs (if (!hasByte b i) = true then x else y) (if (!hasByte b0 i) = true then x' else y') := by
  rw [h.ahead.hasByte]
  exact sp_ite (fun _ => hx) fun _ => hy

/-- A decoder that does not write. -/
theorem Leaf.scribble {D D' : Val → DR} (h : Leaf c D') (hD : D = D') (ha : SameFrom b b0 c) (k : Kept o b0 b c v) : SPost o b0 c b (b, D v) (D' v) := by
  subst hD
  obtain ⟨r, hr, h | ⟨s, hs, h⟩⟩ := h
  · rw [h]
    exact ⟨rfl, c, .refl ha, k, hr⟩
  · rw [h]
    exact ⟨rfl, c, .refl ha, .dry hs, hr⟩

theorem Dry.scribble {x y : DR} (h : Dry c y) (hD : x = y) (ha : SameFrom b b0 c) : SPost o b0 c b (b, x) y := by
  subst hD
  exact ⟨rfl, c, .refl ha, .dry h.1, h.2⟩

/-! ### Methods -/

theorem poke_length {bs : Bytes} (hc : c ≤ b.length) : (poke b c bs).length = b.length := by
  unfold poke
  simp only [List.length_append, List.length_take, List.length_drop]
  omega

theorem poke_st {ws : Bytes} {e : Nat} (h : SameFrom b b0 c) (hc : c + ws.length ≤ e) (he : e ≤ b0.length) : St b0 c b (poke b c ws) e := by
  have hl := h.len
  refine ⟨by omega, ⟨by rw [poke_length (by omega)]; exact hl, ?_⟩, ?_⟩
  · rw [← h.drop (show c ≤ e by omega)]
    unfold poke
    rw [List.take_of_length_le (show ws.length ≤ b.length - c by omega)]
    have h1 : (b.take c ++ ws).length = c + ws.length := by simp only [List.length_append, List.length_take]; omega
    have h2 : e = (b.take c ++ ws).length + (e - (c + ws.length)) := by omega
    rw [h2, ← List.drop_drop, List.drop_left, List.drop_drop, h1]
  · unfold poke
    rw [List.append_assoc, List.take_append_of_le_length (by simp only [List.length_take]; omega), List.take_take, Nat.min_self]

variable (hb : b0.length < 2 ^ 63)
include hb

theorem skip_src {d e : Nat} {src : Bytes} (hd : d ≤ maxDepth) (he : skipValue b0 c d = .ok e) (hs : sub b0 c e = .ok src) :
    c + src.length = e ∧ e ≤ b0.length ∧ src.head? ≠ some 34 := by
  obtain ⟨doc, -, hat⟩ := (skipValue_ok_iff hb hd).1 he
  have hat : At b0 c doc e := hat
  unfold sub at hs
  split at hs
  · rename_i hle
    cases hs
    refine ⟨by simp only [List.length_take, List.length_drop]; omega, hle.2, ?_⟩
    have h1 : (b0.drop c).head? ≠ some 34 := by
      rw [hat.1]
      cases doc <;> simp [Doc.text]
    have := hat.lt'
    rw [List.head?_take, if_neg (by omega)]
    exact h1
  · cases hs

omit hb in
theorem unquote_none {src : Bytes} (h : src.head? ≠ some 34) : unquoteBytes src = .ok none := by
  unfold unquoteBytes
  rw [if_pos (.inr (.inl h))]

theorem unmarshalDecodeS_keep {W : World} (hW : Keeping W) {S : Hands} (hS : Tidy W S) {id d : Nat} (hd : d ≤ maxDepth) {keep : Nat → Bytes → Val → Val}
    (hk : ∀ c e b src u, SameFrom b b0 c → sub b0 c e = .ok src → W.unmarshal id src = .ok u → Kept o b0 (poke b c (S.unm id src (b.drop e))) e (keep c src u)) :
    SDec o b0 (fun b c => unmarshalDecodeS W S id keep b c d) (fun c rv =>
      onOk rv (skipValue b0 c d) fun e =>
      onOk rv (sub b0 c e) fun src =>
      if src.head? = some 91 then (rv, .err (.typeError "array" c)) else
      if src.head? = some cLBrace then (rv, .err (.typeError "object" c)) else
      if src.head? = some cMinus ∨ (src.head?.any isDigit) = true then (rv, .err (.typeError "number" c)) else
      if src = [cN, cSemi] then (W.namedZero id, .ok e) else
      onOk rv (unquoteBytes src) fun o =>
      let src := o.getD src
      onOk rv ((W.unmarshal id src).mapErr (annotate c)) fun v => (keep c src v, .ok e)) := by
  intro c b v ha k
  have h := St.refl ha
  dsimp only
  unfold unmarshalDecodeS
  refine sp_onOk (ha.skipValue hb (Nat.le_refl _)) h k fun e he => sp_onOk (ha.sub (Nat.le_refl _) e) h k fun src hs => ?_
  obtain ⟨h1, h2, h3⟩ := skip_src hb hd he hs
  refine sp_ite (fun _ => sp_err h k) fun _ => sp_ite (fun _ => sp_err h k) fun _ => sp_ite (fun _ => sp_err h k) fun _ =>
    sp_ite (fun _ => sp_ok h (.dry (hW.zero (.named id))) (by omega)) fun _ => ?_
  rw [unquote_none h3]
  have hp : St b0 c b (poke b c (S.unm id src (b.drop e))) e := poke_st ha (by have := hS.unm id src (b.drop e); omega) h2
  refine sp_onOk rfl h k fun a ha' => ?_
  cases ha'
  exact sp_onOk rfl hp (k.step hp) fun u hu => sp_ok hp (hk c e b src u ha hs (Res.mapErr_eq_ok.1 hu)) (Nat.le_refl _)

theorem unmarshalDecodeS_post {W : World} (hW : Keeping W) {S : Hands} (hS : Tidy W S) {id d : Nat} (hd : d ≤ maxDepth) :
    SDec o b0 (fun b c => unmarshalDecodeS W S id (fun _ _ v => v) b c d) (fun c => unmarshalDecode W id b0 c d) :=
  unmarshalDecodeS_keep hb hW hS hd fun _ _ _ _ _ _ _ hu => .dry (hW.unmarshal _ _ _ hu)

omit hb in
theorem poke_window {src ws : Bytes} {e off len : Nat} (ha : SameFrom b b0 c) (hs : sub b0 c e = .ok src) (hw : ws.length ≤ src.length) (hc : c ≤ off) (he : off + len ≤ e)
    (h : ((ws ++ src.drop ws.length).drop (off - c)).take len = (src.drop (off - c)).take len) : ((poke b c ws).drop off).take len = (b0.drop off).take len := by
  obtain ⟨h1, h2, h3⟩ := sub_window hs
  have hl := ha.len
  have e0 : b0.drop c = src ++ b0.drop e := by
    have := List.take_append_drop src.length (b0.drop c)
    rw [h3, List.drop_drop, h1] at this
    exact this.symm
  have e1 : b.drop (c + ws.length) = src.drop ws.length ++ b0.drop e := by
    rw [ha.drop (by omega), ← List.drop_drop, e0, List.drop_append_of_le_length hw]
  have e2 : off = (b.take c).length + (off - c) := by rw [List.length_take]; omega
  have e3 : ∀ x : Bytes, x.length = src.length → ((x ++ b0.drop e).drop (off - c)).take len = (x.drop (off - c)).take len := by
    intro x hx
    rw [List.drop_append_of_le_length (by omega), List.take_append_of_le_length (by rw [List.length_drop]; omega)]
  have e4 : (poke b c ws).drop off = ((ws ++ src.drop ws.length) ++ b0.drop e).drop (off - c) := by
    unfold poke
    rw [List.take_of_length_le (show ws.length ≤ b.length - c by omega), List.append_assoc, e1, ← List.append_assoc ws]
    conv => lhs; rw [e2, ← List.drop_drop, List.drop_left]
  have e5 : b0.drop off = (src ++ b0.drop e).drop (off - c) := by
    rw [← e0, List.drop_drop]
    congr 1
    omega
  rw [e4, e5, e3 _ (by rw [List.length_append, List.length_drop]; omega), e3 _ rfl, h]

theorem unmarshalDecodeS_at {W : World} (hW : Keeping W) {S : Hands} (hS : Tidy W S) {id d : Nat} (hd : d ≤ maxDepth) :
    SDec o b0 (fun b c => unmarshalDecodeS W S id (W.kept id o) b c d) (fun c => unmarshalDecodeAt W id o b0 c d) :=
  unmarshalDecodeS_keep hb hW hS hd fun c e b src u ha hs hu => ⟨hW.held _ _ _ hu _ _, fun w hw ho => by
    obtain ⟨-, i1, i2⟩ := hW.inside _ _ _ hu _ _ w hw
    obtain ⟨h1, -, -⟩ := sub_window hs
    exact ⟨by omega, poke_window ha hs (hS.unm _ _ _) i1 (by omega) (hS.kept _ _ _ _ hu _ _ w hw)⟩⟩

theorem ifaceDecodeS_post {W : World} (hW : Keeping W) {S : Hands} (hS : Tidy W S) {d : Nat} (hd : d ≤ maxDepth) :
    SDec o b0 (fun b c => ifaceDecodeS W S b c d) (fun c => ifaceDecode W b0 c d) := by
  intro c b v ha k
  have h := St.refl ha
  dsimp only
  unfold ifaceDecodeS ifaceDecode
  have rest : SPost o b0 c b
      (onOkS b v (idx b c) fun x => if x = cN then onOkS b v (validateNull b c) fun _ => (b, .ifaceNil, .ok (c + 2)) else (b, v, .err (.typeError "interface" c)))
      (onOk v (idx b0 c) fun x => if x = cN then onOk v (validateNull b0 c) fun _ => (.ifaceNil, .ok (c + 2)) else (v, .err (.typeError "interface" c))) :=
    sp_onOk (ha.idx (Nat.le_refl _)) h k fun x _ => sp_ite (fun _ => sp_onOk (ha.validateNull (Nat.le_refl _)) h k fun _ _ => sp_ok h (.dry rfl) (by omega)) fun _ => sp_err h k
  cases v with
  | iface t u =>
    dsimp only
    cases W.dynUnm t with
    | false => exact rest
    | true =>
      simp only [if_true]
      unfold dynDecodeS dynDecode
      have hu : wins u = [] := k.1
      refine sp_onOk (ha.skipValue hb (Nat.le_refl _)) h k fun e he => sp_onOk (ha.sub (Nat.le_refl _) e) h k fun src hs => ?_
      obtain ⟨h1, h2, h3⟩ := skip_src hb hd he hs
      refine sp_ite (fun _ => sp_ok h (.dry rfl) (by omega)) fun _ => ?_
      rw [unquote_none h3]
      have hp : St b0 c b (poke b c (S.dyn t u src (b.drop e))) e := poke_st ha (by have := hS.dyn t u src (b.drop e); omega) h2
      have hw : wins (.iface t (W.unmarshalDyn t u src).1) = [] := hW.unmarshalDyn t u src hu
      refine sp_onOk rfl h k fun a ha' => ?_
      cases ha'
      exact sp_onOk rfl hp (.dry hw) fun _ _ => sp_ok hp (.dry hw) (Nat.le_refl _)
  | _ => exact rest

/-! ### Pointers and containers -/

omit hb in
theorem ptrDecodeS_post {D : Bytes → Nat → Nat → Val → SR} {D' : Nat → Nat → Val → DR} {d : Nat} (hD : SDec o b0 (fun b c => D b c d) (fun c => D' c d)) {z : Val} (hz : wins z = []) :
    SDec o b0 (fun b c => ptrDecodeS D z b c d) (fun c => ptrDecode D' z b0 c d) := by
  intro c b v ha k
  have h := St.refl ha
  dsimp only
  unfold ptrDecodeS ptrDecode
  refine sp_onOk (ha.idx (Nat.le_refl _)) h k fun x _ => sp_ite (fun _ => sp_onOk (ha.validateNull (Nat.le_refl _)) h k fun _ _ => sp_ok h (.dry rfl) (by omega)) fun _ => ?_
  have key : ∀ v0, Kept o b0 b c v0 →
      SPost o b0 c b (match D b c d v0 with | (b, v, r) => (b, .ptr v, r)) (match D' c d v0 with | (v, r) => (.ptr v, r)) := by
    intro v0 k0
    obtain ⟨h1, e, hs, hk, he⟩ := hD c b v0 ha k0
    dsimp only at h1 hs hk he
    rw [← h1] at hk he ⊢
    exact ⟨rfl, e, hs, hk, he⟩
  cases v with
  | ptrNil => exact key z (.dry hz)
  | ptr v0 => exact key v0 k
  | _ => exact sp_panic h k

omit hb in
theorem readInt_le {i : Nat} (h : readInt b c = .ok (i, c')) : c ≤ c' := by
  obtain ⟨_, -, -, -, h⟩ := readInt_sound h
  omega

omit hb in
theorem sliceLoopS_post {D : Bytes → Nat → Val → SR} {D' : Nat → Val → DR} (hD : SDec o b0 D D') {z : Val} (hz : wins z = []) {es f : Nat} {slice : List Val} {rv : Val}
    (h : St b0 lo bs b c) (hf : HeldFreeList slice) (hs : KeptW o b0 b c (winsList slice)) (k : Kept o b0 b c rv) :
    SPost o b0 lo bs (sliceLoopS D z es f b c slice rv) (sliceLoop D' z es b0 f c slice rv) := by
  induction f generalizing b c slice rv with
  | zero => exact sp_div h k
  | succ f ih =>
    unfold sliceLoopS sliceLoop
    refine sp_has h c (sp_err h k) (sp_onOk (h.ahead.readInt (Nat.le_refl _)) h k ?_)
    rintro ⟨i, c1⟩ hi
    have hp := readInt_le hi
    have h' := h.mono hp
    have k' := k.mono hp
    refine sp_has h' c1 (sp_err h k) (sp_ite (fun _ => sp_panic h k) fun _ => ?_)
    generalize hsl : (if decide (i ≥ slice.length) = true then slice ++ List.replicate (i + 1 - slice.length) z else slice) = sl
    have hsf : HeldFreeList sl := by
      rw [← hsl]
      split
      · rw [heldFreeList_iff] at hf ⊢
        intro v hv
        rcases List.mem_append.1 hv with hv | hv
        · exact hf v hv
        · rw [(List.mem_replicate.1 hv).2]; exact heldFree_of_nil hz
      · exact hf
    have hsw : KeptW o b0 b c1 (winsList sl) := by
      rw [← hsl]
      split
      · rw [winsList_append, winsList_replicate hz, List.append_nil]; exact hs.mono hp
      · exact hs.mono hp
    dsimp only
    rcases hget : sl[i]? with _ | v0
    · exact sp_panic h k
    · obtain ⟨h1, e, hst, hkv, he⟩ := hD c1 b v0 h'.ahead ⟨heldFreeList_iff.1 hsf v0 (List.mem_of_getElem? hget), hsw.get hget⟩
      dsimp only
      generalize D b c1 v0 = x at h1 hst hkv he
      obtain ⟨b', v, r⟩ := x
      dsimp only at h1 hst hkv
      rw [← h1] at hkv he ⊢
      have hst' := h'.trans hst
      have hf' : HeldFreeList (sl.set i v) := heldFree_set hsf hkv.1
      have hw' : KeptW o b0 b' e (winsList (sl.set i v)) := (hsw.step hst).set hkv.2
      have kfail : Kept o b0 b' e (if decide (i ≥ slice.length) = true then rv else .slice (sl.set i v)) := by
        split
        · exact k'.step hst
        · exact ⟨hf', hw'⟩
      refine sp_onOk rfl hst' kfail ?_
      rintro c2 rfl
      have hc2 := he c2 rfl
      have h2 := hst'.mono hc2
      have k2 : Kept o b0 b' c2 (.slice (sl.set i v)) := ⟨hf', hw'.mono hc2⟩
      exact sp_has h2 c2 (sp_err h2 k2) (sp_onOk (h2.ahead.idx (Nat.le_refl _)) h2 k2 fun y _ => sp_ite (fun _ => sp_ok h2 k2 (by omega)) fun _ =>
        ih h2 hf' (hw'.mono hc2) k2)

omit hb in
theorem sliceDecodeS_post {D : Bytes → Nat → Nat → Val → SR} {D' : Nat → Nat → Val → DR} {d : Nat}
    (hD : d + 1 ≤ maxDepth → SDec o b0 (fun b c => D b c (d + 1)) (fun c => D' c (d + 1))) {z : Val} (hz : wins z = []) {es : Nat} :
    SDec o b0 (fun b c => sliceDecodeS D z es b c d) (fun c => sliceDecode D' z es b0 c d) := by
  intro c b v ha k
  have h := St.refl ha
  dsimp only
  unfold sliceDecodeS sliceDecode
  refine sp_has h c (sp_err h k) (sp_ite (fun _ => by rw [ha.byteAt]; exact sp_err h k) fun hdp => sp_onOk (ha.idx (Nat.le_refl _)) h k fun x _ =>
    sp_ite (fun _ => sp_onOk (ha.validateNull (Nat.le_refl _)) h k fun _ _ => sp_ok h (.dry rfl) (by omega)) fun _ => sp_ite (fun _ => ?_) fun _ =>
    sp_ite (fun _ => sp_err h k) fun _ => sp_err h k)
  refine sp_has h _ (sp_err h k) (sp_onOk (ha.idx (by omega)) h k fun _ _ => sp_ite (fun _ => sp_err h k) fun _ =>
    sp_has h _ (sp_err h k) (sp_onOk (ha.idx (by omega)) h k fun _ _ => sp_ite (fun _ => sp_onOk (ha.validateEmptyArray (by omega)) h k fun _ _ =>
      sp_ok h (.dry rfl) (by omega)) fun _ => sp_onOk (ha.readLength (by omega)) h k ?_))
  rintro ⟨n, c1⟩ hn
  have := readLengthInt_le hn
  have h1 := h.mono (show c ≤ c1 + 1 by omega)
  dsimp only
  rw [ha.len]
  exact sp_has h c1 (sp_err h k) (sp_onOk (ha.idx (by omega)) h k fun _ _ => sp_ite (fun _ => sp_err h k) fun _ =>
    sp_ite (fun _ => sp_panic h k) fun _ => sliceLoopS_post (hD (by omega)) hz h1 trivial .nil (k.mono (by omega)))

theorem bytesDecodeS_post {D : Bytes → Nat → Nat → Val → SR} {D' : Nat → Nat → Val → DR} {d : Nat}
    (hD : d + 1 ≤ maxDepth → SDec o b0 (fun b c => D b c (d + 1)) (fun c => D' c (d + 1))) {z : Val} (hz : wins z = []) :
    SDec o b0 (fun b c => bytesDecodeS o D z b c d) (fun c => bytesDecodeAt o D' z b0 c d) := by
  intro c b v ha k
  have h := St.refl ha
  dsimp only
  unfold bytesDecodeS bytesDecodeAt
  refine sp_onOk (ha.idx (Nat.le_refl _)) h k fun x _ => sp_ite (fun _ => sliceDecodeS_post hD hz c b v ha k) fun _ =>
    sp_onOk (ha.stringBytes (Nat.le_refl _)) h k ?_
  rintro ⟨ob, c'⟩ hs
  have hp := (stringBytes_progress hb hs).1
  rcases (stringBytes_iff hb).1 hs with ⟨rfl, -⟩ | ⟨l, s, rfl, -, hat⟩
  · exact sp_ok h k (by omega)
  · obtain ⟨h1, h2, -, -⟩ := str_window hat
    refine sp_ok (h.mono (show c ≤ c' by omega)) ⟨trivial, ?_⟩ (Nat.le_refl _)
    intro w hw _
    simp only [wins, List.mem_singleton] at hw
    subst hw
    exact ⟨by dsimp only; omega, by rw [ha.drop (by dsimp only; omega)]⟩

theorem arrayLoopS_post {D : Bytes → Nat → Val → SR} {D' : Nat → Val → DR} (hD : SDec o b0 D D') {d : Nat} (hd : d ≤ maxDepth) {f : Nat} {vs : List Val}
    (h : St b0 lo bs b c) (hf : HeldFreeList vs) (hs : KeptW o b0 b c (winsList vs)) :
    SPost o b0 lo bs (arrayLoopS D (fun b c => skipValue b c d) f b c vs) (arrayLoop D' (fun c => skipValue b0 c d) b0 f c vs) := by
  induction f generalizing b c vs with
  | zero => exact sp_div h (v := .arr vs) ⟨hf, hs⟩
  | succ f ih =>
    have k : Kept o b0 b c (.arr vs) := ⟨hf, hs⟩
    unfold arrayLoopS arrayLoop
    refine sp_has h c (sp_err h k) (sp_onOk (h.ahead.readInt (Nat.le_refl _)) h k ?_)
    rintro ⟨i, c1⟩ hi
    have hp := readInt_le hi
    have h' := h.mono hp
    refine sp_has h' c1 (sp_err h k) ?_
    have cont : ∀ b' vs' r e, St b0 lo bs b' e → HeldFreeList vs' → KeptW o b0 b' e (winsList vs') → (∀ c', r = .ok c' → e ≤ c') → SPost o b0 lo bs
        (onOkS b' (.arr vs') r fun c =>
          if !hasByte b' c then (b', .arr vs', .err (.unexpectedEnd "array" c)) else
          onOkS b' (.arr vs') (idx b' c) fun x =>
          if x = cRBrace then (b', .arr vs', .ok (c + 1)) else arrayLoopS D (fun b c => skipValue b c d) f b' c vs')
        (onOk (.arr vs') r fun c =>
          if !hasByte b0 c then (.arr vs', .err (.unexpectedEnd "array" c)) else
          onOk (.arr vs') (idx b0 c) fun x =>
          if x = cRBrace then (.arr vs', .ok (c + 1)) else arrayLoop D' (fun c => skipValue b0 c d) b0 f c vs') := by
      intro b' vs' r e h' hf' hs' he
      refine sp_onOk rfl h' ⟨hf', hs'⟩ ?_
      rintro c2 rfl
      have hc2 := he c2 rfl
      have h2 := h'.mono hc2
      have k2 : Kept o b0 b' c2 (.arr vs') := ⟨hf', hs'.mono hc2⟩
      exact sp_has h2 c2 (sp_err h2 k2) (sp_onOk (h2.ahead.idx (Nat.le_refl _)) h2 k2 fun y _ => sp_ite (fun _ => sp_ok h2 k2 (by omega)) fun _ =>
        ih h2 hf' (hs'.mono hc2))
    rcases hget : vs[i]? with _ | v0
    · dsimp only
      rw [h'.ahead.skipValue hb (Nat.le_refl _)]
      exact cont b vs _ c1 h' hf (hs.mono hp) fun c' h => by have := (skip_progress hb hd h).1; omega
    · obtain ⟨h1, e, hst, hkv, he⟩ := hD c1 b v0 h'.ahead ⟨heldFreeList_iff.1 hf v0 (List.mem_of_getElem? hget), (hs.mono hp).get hget⟩
      dsimp only
      generalize D b c1 v0 = x at h1 hst hkv he
      obtain ⟨b', v, r⟩ := x
      dsimp only at h1 hst hkv
      rw [← h1] at hkv he ⊢
      exact cont b' (vs.set i v) r e (h'.trans hst) (heldFree_set hf hkv.1) (((hs.mono hp).step hst).set hkv.2) he

theorem arrayDecodeS_post {D : Bytes → Nat → Nat → Val → SR} {D' : Nat → Nat → Val → DR} {d : Nat}
    (hD : d + 1 ≤ maxDepth → SDec o b0 (fun b c => D b c (d + 1)) (fun c => D' c (d + 1))) {z : Val} (hz : wins z = []) {n : Nat} :
    SDec o b0 (fun b c => arrayDecodeS D z n b c d) (fun c => arrayDecode D' z n b0 c d) := by
  intro c b v ha k
  have h := St.refl ha
  dsimp only
  unfold arrayDecodeS arrayDecode
  refine sp_has h c (sp_err h k) (sp_ite (fun _ => by rw [ha.byteAt]; exact sp_err h k) fun hdp => sp_onOk (ha.idx (Nat.le_refl _)) h k fun x _ =>
    sp_ite (fun _ => sp_onOk (ha.validateNull (Nat.le_refl _)) h k fun _ _ => sp_ok h k (by omega)) fun _ => sp_ite (fun _ => ?_) fun _ => sp_err h k)
  have hzw : winsList (List.replicate n z) = [] := winsList_replicate hz n
  have kz : ∀ e, Kept o b0 b e (.arr (List.replicate n z)) := fun e => .dry hzw
  refine sp_has h _ (sp_err h k) (sp_onOk (ha.idx (by omega)) h k fun _ _ => sp_ite (fun _ => sp_err h k) fun _ =>
    sp_has h _ (sp_err h (kz _)) (sp_onOk (ha.idx (by omega)) h (kz _) fun _ _ => sp_ite (fun _ => sp_onOk (ha.validateEmptyArray (by omega)) h (kz _) fun _ _ =>
      sp_ok h (kz _) (by omega)) fun _ => sp_onOk (ha.readLength (by omega)) h (kz _) ?_))
  rintro ⟨m, c1⟩ hn
  have := readLengthInt_le hn
  have h1 := h.mono (show c ≤ c1 + 1 by omega)
  dsimp only
  rw [ha.len]
  exact sp_has h c1 (sp_err h (kz _)) (sp_onOk (ha.idx (by omega)) h (kz _) fun _ _ => sp_ite (fun _ => sp_err h (kz _)) fun _ =>
    arrayLoopS_post hb (hD (by omega)) (by omega) h1 (kz 0).1 (kz _).2)

omit hb in
theorem mapLoopS_post {keyDec valDec : Bytes → Nat → SR} {keyDec' valDec' : Nat → DR} (hk : ∀ c b, SameFrom b b0 c → SPost o b0 c b (keyDec b c) (keyDec' c))
    (hkd : ∀ c, Dry c (keyDec' c)) (hv : ∀ c b, SameFrom b b0 c → SPost o b0 c b (valDec b c) (valDec' c)) {f : Nat} {es : List (Val × Val)}
    (h : St b0 lo bs b c) (hf : HeldFreeEntries es) (hs : KeptW o b0 b c (winsEntries es)) :
    SPost o b0 lo bs (mapLoopS keyDec valDec f b c es) (mapLoop keyDec' valDec' b0 f c es) := by
  induction f generalizing b c es with
  | zero => exact sp_div h (v := .map es) ⟨hf, hs⟩
  | succ f ih =>
    have k : Kept o b0 b c (.map es) := ⟨hf, hs⟩
    unfold mapLoopS mapLoop
    refine sp_has h c (sp_err h k) ?_
    obtain ⟨h1, e, hst, -, he⟩ := hk c b h.ahead
    have hd := (hkd c).1
    generalize keyDec b c = x at h1 hst
    obtain ⟨b1, u, r⟩ := x
    dsimp only at h1 hst ⊢
    rw [← h1] at he hd ⊢
    have hst1 := h.trans hst
    have k1 := k.step hst
    refine sp_onOk rfl hst1 k1 ?_
    rintro c1 rfl
    have hc1 := he c1 rfl
    have h2 := hst1.mono hc1
    have k2 := k1.mono hc1
    refine sp_has h2 c1 (sp_err h2 k2) ?_
    obtain ⟨g1, e2, gst, gkv, ge⟩ := hv c1 b1 h2.ahead
    generalize valDec b1 c1 = x at g1 gst gkv
    obtain ⟨b2, v, r⟩ := x
    dsimp only at g1 gst gkv ⊢
    rw [← g1] at gkv ge ⊢
    have gst' := h2.trans gst
    have k3 := k2.step gst
    refine sp_onOk rfl gst' k3 ?_
    rintro c2 rfl
    have hc2 := ge c2 rfl
    have h4 := gst'.mono hc2
    have k4 := k3.mono hc2
    refine sp_ite (fun _ => sp_panic h4 k4) fun _ => ?_
    have hf' : HeldFreeEntries (mapInsert u v es) := heldFree_insert hf (heldFree_of_nil hd) gkv.1
    have hs' : KeptW o b0 b2 c2 (winsEntries (mapInsert u v es)) := KeptW.insert k4.2 hd (gkv.2.mono hc2)
    have k5 : Kept o b0 b2 c2 (.map (mapInsert u v es)) := ⟨hf', hs'⟩
    exact sp_has h4 c2 (sp_err h4 k5) (sp_onOk (h4.ahead.idx (Nat.le_refl _)) h4 k5 fun y _ => sp_ite (fun _ => sp_ok h4 k5 (by omega)) fun _ => ih h4 hf' hs')

theorem header_same {x : Byte} {e : Err} (ha : SameFrom b b0 c) : (if x = cO then skipClassName b c >>= fun e => .ok (e + 1) else if x = ca then .ok (c + 1) else .err e) =
    if x = cO then skipClassName b0 c >>= fun e => .ok (e + 1) else if x = ca then .ok (c + 1) else .err e := by
  rw [ha.skipClassName hb (Nat.le_refl _)]

theorem mapDecodeS_post {keyDec valDec : Bytes → Nat → Nat → SR} {keyDec' valDec' : Nat → Nat → DR} {d : Nat}
    (hk : d + 1 ≤ maxDepth → ∀ c b, SameFrom b b0 c → SPost o b0 c b (keyDec b c (d + 1)) (keyDec' c (d + 1))) (hkd : d + 1 ≤ maxDepth → ∀ c, Dry c (keyDec' c (d + 1)))
    (hv : d + 1 ≤ maxDepth → ∀ c b, SameFrom b b0 c → SPost o b0 c b (valDec b c (d + 1)) (valDec' c (d + 1))) :
    SDec o b0 (fun b c => mapDecodeS keyDec valDec b c d) (fun c => mapDecode keyDec' valDec' b0 c d) := by
  intro c b v ha k
  have h := St.refl ha
  dsimp only
  unfold mapDecodeS mapDecode
  refine sp_has h c (sp_err h k) (sp_ite (fun _ => by rw [ha.byteAt]; exact sp_err h k) fun hdp => sp_onOk (ha.idx (Nat.le_refl _)) h k fun x hx =>
    sp_ite (fun _ => sp_onOk (ha.validateNull (Nat.le_refl _)) h k fun _ _ => sp_ok h (.dry rfl) (by omega)) fun _ => sp_onOk (header_same hb ha) h k fun c1 hh => ?_)
  have p1 := header_progress hb hx hh
  refine sp_onOk (ha.readLength (by omega)) h k ?_
  rintro ⟨cnt, c2⟩ hm
  obtain ⟨_, _, -, -, -, p2⟩ := readLength_sound hm
  refine sp_has h c2 (sp_err h k) (sp_onOk (ha.idx (by omega)) h k fun _ _ => sp_ite (fun _ => sp_err h k) fun _ => ?_)
  rcases he : mapEntries v with _ | es
  · exact sp_panic h k
  · have hes : Kept o b0 b c (.map es) := by
      cases v <;> simp [mapEntries] at he
      · subst he; exact .dry rfl
      · subst he; exact k
    dsimp only
    rw [ha.len]
    exact sp_has h _ (sp_err h hes) (sp_onOk (ha.idx (by omega)) h hes fun _ _ => sp_ite (fun _ => sp_ok h hes (by omega)) fun _ =>
      mapLoopS_post (hk (by omega)) (hkd (by omega)) (hv (by omega)) (h.mono (by omega)) hes.1 (hes.2.mono (by omega)))

theorem structLoopS_post {sets : List FieldSet} {D : FieldSet → Bytes → Nat → Val → SR} {D' : FieldSet → Nat → Val → DR} (hD : ∀ s, SDec o b0 (D s) (D' s)) {d : Nat}
    (hd : d ≤ maxDepth) {f : Nat} {vs : List Val} (h : St b0 lo bs b c) (hf : HeldFreeList vs) (hs : KeptW o b0 b c (winsList vs)) :
    SPost o b0 lo bs (structLoopS sets D (fun b c => skipValue b c d) f b c vs) (structLoop sets D' (fun c => skipValue b0 c d) b0 f c vs) := by
  induction f generalizing b c vs with
  | zero => exact sp_div h (v := .struct vs) ⟨hf, hs⟩
  | succ f ih =>
    have k : Kept o b0 b c (.struct vs) := ⟨hf, hs⟩
    unfold structLoopS structLoop
    refine sp_has h c (sp_err h k) (sp_onOk (h.ahead.decodeKey (Nat.le_refl _) sets) h k ?_)
    rintro ⟨fld, c1⟩ hi
    have hp : c ≤ c1 := by
      simp only [decodeKey, Res.bind_eq_ok, Res.ok.injEq, Prod.mk.injEq] at hi
      obtain ⟨⟨ob, c'⟩, h, -, rfl⟩ := hi
      have := (stringBytes_progress hb h).1
      omega
    have h' := h.mono hp
    refine sp_has h' c1 (sp_err h k) ?_
    have cont : ∀ b' vs' r e, St b0 lo bs b' e → HeldFreeList vs' → KeptW o b0 b' e (winsList vs') → (∀ c', r = .ok c' → e ≤ c') → SPost o b0 lo bs
        (onOkS b' (.struct vs') r fun c =>
          if !hasByte b' c then (b', .struct vs', .err (.unexpectedEnd "object" c)) else
          onOkS b' (.struct vs') (idx b' c) fun x =>
          if x = cRBrace then (b', .struct vs', .ok (c + 1)) else structLoopS sets D (fun b c => skipValue b c d) f b' c vs')
        (onOk (.struct vs') r fun c =>
          if !hasByte b0 c then (.struct vs', .err (.unexpectedEnd "object" c)) else
          onOk (.struct vs') (idx b0 c) fun x =>
          if x = cRBrace then (.struct vs', .ok (c + 1)) else structLoop sets D' (fun c => skipValue b0 c d) b0 f c vs') := by
      intro b' vs' r e h' hf' hs' he
      refine sp_onOk rfl h' ⟨hf', hs'⟩ ?_
      rintro c2 rfl
      have hc2 := he c2 rfl
      have h2 := h'.mono hc2
      have k2 : Kept o b0 b' c2 (.struct vs') := ⟨hf', hs'.mono hc2⟩
      exact sp_has h2 c2 (sp_err h2 k2) (sp_onOk (h2.ahead.idx (Nat.le_refl _)) h2 k2 fun y _ => sp_ite (fun _ => sp_ok h2 k2 (by omega)) fun _ =>
        ih h2 hf' (hs'.mono hc2))
    rcases fld with _ | s
    · dsimp only
      rw [h'.ahead.skipValue hb (Nat.le_refl _)]
      exact cont b vs _ c1 h' hf (hs.mono hp) fun c' h => by have := (skip_progress hb hd h).1; omega
    · dsimp only
      rcases hget : vs[s.idx]? with _ | v0
      · exact sp_panic h k
      · obtain ⟨h1, e, hst, hkv, he⟩ := hD s c1 b v0 h'.ahead ⟨heldFreeList_iff.1 hf v0 (List.mem_of_getElem? hget), (hs.mono hp).get hget⟩
        dsimp only
        rw [← h1] at hkv he ⊢
        exact cont (D s b c1 v0).1 (vs.set s.idx (D s b c1 v0).2.1) (D s b c1 v0).2.2 e (h'.trans hst) (heldFree_set hf hkv.1) (((hs.mono hp).step hst).set hkv.2) he

theorem structDecodeS_post {sets : List FieldSet} {D : FieldSet → Bytes → Nat → Nat → Val → SR} {D' : FieldSet → Nat → Nat → Val → DR} {d : Nat}
    (hD : d + 1 ≤ maxDepth → ∀ s, SDec o b0 (fun b c => D s b c (d + 1)) (fun c => D' s c (d + 1))) :
    SDec o b0 (fun b c => structDecodeS sets D b c d) (fun c => structDecode sets D' b0 c d) := by
  intro c b v ha k
  have h := St.refl ha
  dsimp only
  unfold structDecodeS structDecode
  refine sp_has h c (sp_err h k) (sp_ite (fun _ => by rw [ha.byteAt]; exact sp_err h k) fun hdp => sp_onOk (ha.idx (Nat.le_refl _)) h k fun x hx =>
    sp_ite (fun _ => sp_onOk (ha.validateNull (Nat.le_refl _)) h k fun _ _ => sp_ok h k (by omega)) fun _ => sp_onOk (header_same hb ha) h k fun c1 hh => ?_)
  have p1 := header_progress hb hx hh
  refine sp_has h c1 (sp_err h k) (sp_onOk (ha.idx (by omega)) h k fun _ _ => sp_ite (fun _ => sp_err h k) fun _ => sp_onOk (ha.skipLength (by omega)) h k fun c2 hm => ?_)
  obtain ⟨_, -, -, p2⟩ := skipLen_sound hm
  refine sp_has h c2 (sp_err h k) (sp_onOk (ha.idx (by omega)) h k fun _ _ => sp_ite (fun _ => sp_err h k) fun _ =>
    sp_has h _ (sp_err h k) (sp_onOk (ha.idx (by omega)) h k fun _ _ => sp_ite (fun _ => sp_ok h k (by omega)) fun _ => ?_))
  rw [ha.len]
  cases v with
  | struct vs => exact structLoopS_post hb (hD (by omega)) (by omega) (h.mono (by omega)) k.1 (k.2.mono (by omega))
  | _ => exact sp_panic h k

/-! ### Dispatch -/

theorem anyDecodeS_post {W : World} {anyDec : Bytes → Nat → Nat → SR} {anyDec' : Nat → Nat → DR} {d : Nat}
    (hA : d + 1 ≤ maxDepth → ∀ c b, SameFrom b b0 c → SPost o b0 c b (anyDec b c (d + 1)) (anyDec' c (d + 1))) (hAd : ∀ c, d + 1 ≤ maxDepth → Dry c (anyDec' c (d + 1))) :
    SDec o b0 (fun b c => anyDecodeS W anyDec b c d) (fun c => anyDecode W anyDec' b0 c d) := by
  intro c b v ha k
  have h := St.refl ha
  have hl := Nat.le_refl c
  dsimp only
  unfold anyDecodeS anyDecode
  have store : ∀ (kd : Val → Val) (x : SR) (y : DR), SPost o b0 c b x y → wins y.1 = [] → (∀ v, wins v = [] → wins (kd v) = []) → SPost o b0 c b
      (match x with | (b, u, r) => onOkS b v r fun c => (b, kd u, .ok c)) (match y with | (u, r) => onOk v r fun c => (kd u, .ok c)) := by
    rintro kd ⟨b', u, r⟩ y ⟨h1, e, hst, -, he⟩ hw hkd
    dsimp only at h1 hst
    subst h1
    exact sp_onOk rfl hst (k.step hst) fun c2 hc2 => sp_ok hst (.dry (hkd _ hw)) (he c2 hc2)
  refine sp_onOk (ha.idx hl) h k fun x _ => sp_ite (fun _ => ?_) fun _ => sp_ite (fun _ => ?_) fun _ => sp_ite (fun _ => ?_) fun _ => sp_ite (fun _ => ?_) fun _ =>
    sp_ite (fun _ => ?_) fun _ => sp_ite (fun _ => ?_) fun _ => sp_ite (fun _ => ?_) fun _ => sp_err h k
  · have hkd : ∀ c, Dry c (stringDecode b0 c (.str [])) := fun c => (stringDecode_leaf hb).dry rfl
    refine store (.iface (.map .str .any)) _ _ (mapDecodeS_post hb (keyDec := fun b c _ => (b, stringDecode b c (.str []))) (keyDec' := fun c _ => stringDecode b0 c (.str []))
      (fun _ c b ha => (hkd c).scribble (by rw [ha.stringDecode (Nat.le_refl _)]) ha) (fun _ => hkd) hA c b .mapNil ha (.dry rfl)) ?_ fun _ h => h
    exact (mapDecode_dry (keyDec := fun c _ => stringDecode b0 c (.str [])) hb (fun c _ => hkd c) hAd (rv := .mapNil) rfl).1
  · have hkd : ∀ c, Dry c (anyKeyDecode b0 c) := fun c => anyKeyDecode_dry hb
    refine store (.iface (.map .any .any)) _ _ (mapDecodeS_post hb (keyDec := fun b c _ => (b, anyKeyDecode b c)) (keyDec' := fun c _ => anyKeyDecode b0 c)
      (fun _ c b ha => (hkd c).scribble (by rw [ha.anyKeyDecode (Nat.le_refl _)]) ha) (fun _ => hkd) hA c b .mapNil ha (.dry rfl)) ?_ fun _ h => h
    exact (mapDecode_dry (keyDec := fun c _ => anyKeyDecode b0 c) hb (fun c _ => hkd c) hAd (rv := .mapNil) rfl).1
  · have hx : Dry c (floatDecode W false b0 c (.f64 0)) := (floatDecode_leaf false).dry rfl
    rw [ha.floatDecode hl]
    exact store (.iface .f64) (b, _) _ (hx.scribble rfl ha) hx.1 fun _ h => h
  · refine sp_onOk (ha.readString (by omega)) h k ?_
    rintro ⟨s, e⟩ hs
    obtain ⟨_, -, -, h'⟩ := readString_sound hs
    exact sp_ok h (.dry rfl) (by omega)
  · have hx : Dry c (intDecode .i64 b0 c (.int 0)) := (intDecode_leaf .i64).dry rfl
    rw [ha.intDecode hl]
    exact store (.iface (.int .i64)) (b, _) _ (hx.scribble rfl ha) hx.1 fun _ h => h
  · exact sp_onOk (ha.readBool hl) h k fun _ _ => sp_ok h (.dry rfl) (by omega)
  · exact sp_onOk (ha.validateNull hl) h k fun _ _ => sp_ok h (.dry rfl) (by omega)

omit hb in
theorem ptrKeyDecodeS_post {x : SR} {y : DR} (ha : SameFrom b b0 c) (hx : SPost o b0 c b x y) : SPost o b0 c b (ptrKeyDecodeS x b c) (ptrKeyDecode y b0 c) := by
  have h := St.refl ha
  obtain ⟨rfl, e, hst, -, he⟩ := hx
  unfold ptrKeyDecodeS ptrKeyDecode
  exact sp_onOk (ha.idx (Nat.le_refl _)) h (.dry rfl) fun _ _ => sp_ite (fun _ => sp_onOk (ha.validateNull (Nat.le_refl _)) h (.dry rfl) fun _ _ => sp_ok h (.dry rfl) (by omega)) fun _ =>
    sp_onOk rfl hst (.dry rfl) fun _ _ => sp_panic hst (.dry rfl)

theorem keyDecodeS_post {W : World} (hW : Keeping W) {S : Hands} (hS : Tidy W S) {anyDec : Bytes → Nat → Nat → SR} {anyDec' : Nat → Nat → DR} {k : Ty} {d : Nat} (hd : d ≤ maxDepth)
    (hA : d + 1 ≤ maxDepth → ∀ c b, SameFrom b b0 c → SPost o b0 c b (anyDec b c (d + 1)) (anyDec' c (d + 1))) (hAd : ∀ c, d + 1 ≤ maxDepth → Dry c (anyDec' c (d + 1))) (ha : SameFrom b b0 c) :
    SPost o b0 c b (keyDecodeS W S anyDec k b c d) (keyDecode W anyDec' b0 k c d) := by
  have h := St.refl ha
  have hl := Nat.le_refl c
  have kz : Kept o b0 b c (W.zero k) := .dry (hW.zero k)
  have hi : SPost o b0 c b (b, invalidDecode c (W.zero k)) (invalidDecode c (W.zero k)) := sp_err h kz
  unfold keyDecodeS keyDecode
  rcases W.unmOf k with _ | id
  · cases W.resolve k with
    | str => exact (stringDecode_leaf hb).scribble (ha.stringDecode hl) ha kz
    | bool => exact boolDecode_leaf.scribble (ha.boolDecode hl) ha kz
    | int kd => exact (intDecode_leaf kd).scribble (ha.intDecode hl kd) ha kz
    | uint kd => exact (uintDecode_leaf kd).scribble (ha.uintDecode hl kd) ha kz
    | any => exact anyDecodeS_post hb hA hAd c b _ ha kz
    | iface id => exact ifaceDecodeS_post hb hW hS hd c b _ ha kz
    | ptr e =>
      dsimp only
      rcases W.unmOf e with _ | id
      · cases W.resolve e with
        | str => exact ptrKeyDecodeS_post ha ((stringDecode_leaf hb).scribble (ha.stringDecode hl) ha (.dry rfl))
        | bool => exact ptrKeyDecodeS_post ha (boolDecode_leaf.scribble (ha.boolDecode hl) ha (.dry rfl))
        | int kd => exact ptrKeyDecodeS_post ha ((intDecode_leaf .i64).scribble (ha.intDecode hl .i64) ha (.dry rfl))
        | uint kd => exact ptrKeyDecodeS_post ha ((uintDecode_leaf .u64).scribble (ha.uintDecode hl .u64) ha (.dry rfl))
        | any => exact ptrKeyDecodeS_post ha (anyDecodeS_post hb hA hAd c b _ ha (.dry rfl))
        | iface id => exact ptrKeyDecodeS_post ha (anyDecodeS_post hb hA hAd c b _ ha (.dry rfl))
        | _ => exact hi
      · exact hi
    | _ => exact hi
  · exact unmarshalDecodeS_post hb hW hS hd c b _ ha kz

theorem fieldDecodeS_post {W : World} (hW : Keeping W) {R : Ty → Bytes → Nat → Nat → Val → SR} {R' : Ty → Nat → Nat → Val → DR} {d : Nat}
    (hR : ∀ t, SDec o b0 (fun b c => R t b c d) (fun c => R' t c d)) (s : FieldSet) : SDec o b0 (fun b c => fieldDecodeS W R s b c d) (fun c => fieldDecode W R' b0 s c d) := by
  intro c b v ha k
  dsimp only
  unfold fieldDecodeS fieldDecode
  refine sp_ite (fun _ => ?_) fun _ => hR s.ty c b v ha k
  have hw : ∀ t, SDec o b0 (fun b c v => (b, wrappedDecode W t b c v)) (fun c v => wrappedDecode W t b0 c v) := fun t c b v ha k =>
    (wrappedDecode_leaf hb t).scribble (ha.wrappedDecode (Nat.le_refl _) W t) ha k
  cases W.resolve s.ty with
  | ptr e => exact sp_ite (fun _ => ptrDecodeS_post (D := fun b c _ v => (b, wrappedDecode W e b c v)) (D' := fun c _ v => wrappedDecode W e b0 c v) (hw e) (hW.zero e) c b v ha k) fun _ => sp_err (.refl ha) k
  | _ => exact sp_ite (fun _ => hw _ c b v ha k) fun _ => sp_err (.refl ha) k

theorem decodeNonPtrS_post {W : World} (hW : Keeping W) {S : Hands} (hS : Tidy W S) {R : Ty → Bytes → Nat → Nat → Val → SR} {R' : Ty → Nat → Nat → Val → DR}
    (hR : ∀ t d, d ≤ maxDepth → SDec o b0 (fun b c => R t b c d) (fun c => R' t c d)) (hdry : ∀ c d v, wins v = [] → Dry c (R' .any c d v)) {t : Ty} {d : Nat} (hd : d ≤ maxDepth) :
    SDec o b0 (fun b c => decodeNonPtrS W S o R t b c d) (fun c => decodeNonPtrAt W o R' b0 t c d) := by
  intro c b v ha k
  have hl := Nat.le_refl c
  dsimp only
  unfold decodeNonPtrS decodeNonPtrAt
  have hA : ∀ d, d ≤ maxDepth → ∀ c b, SameFrom b b0 c → SPost o b0 c b (R .any b c d .ifaceNil) (R' .any c d .ifaceNil) := fun d h c b ha => hR .any d h c b _ ha (.dry rfl)
  have hAd : ∀ d c, d ≤ maxDepth → Dry c (R' .any c d .ifaceNil) := fun d c _ => hdry _ _ _ rfl
  rcases W.unmOf t with _ | id
  · cases W.resolve t with
    | bool => exact boolDecode_leaf.scribble (ha.boolDecode hl) ha k
    | int kd => exact (intDecode_leaf kd).scribble (ha.intDecode hl kd) ha k
    | uint kd => exact (uintDecode_leaf kd).scribble (ha.uintDecode hl kd) ha k
    | f32 => exact (floatDecode_leaf true).scribble (ha.floatDecode hl W true) ha k
    | f64 => exact (floatDecode_leaf false).scribble (ha.floatDecode hl W false) ha k
    | str => exact (stringDecode_leaf hb).scribble (ha.stringDecode hl) ha k
    | slice e => exact sp_ite (fun _ => bytesDecodeS_post hb (hR e _) (hW.zero e) c b v ha k) fun _ => sliceDecodeS_post (hR e _) (hW.zero e) c b v ha k
    | array n e => exact arrayDecodeS_post hb (hR e _) (hW.zero e) c b v ha k
    | map kt e =>
      exact mapDecodeS_post hb (fun h c b ha => keyDecodeS_post hb hW hS h (hA _) (fun c h => hAd _ c h) ha) (fun h c => keyDecode_dry hb hW h (fun c h => hAd _ c h))
        (fun h c b ha => hR e _ h c b (W.zero e) ha (.dry (hW.zero e))) c b v ha k
    | struct id => exact structDecodeS_post hb (fun h s => fieldDecodeS_post hb hW (fun t => hR t _ h) s) c b v ha k
    | any => exact anyDecodeS_post hb (hA _) (fun c h => hAd _ c h) c b v ha k
    | iface id => exact ifaceDecodeS_post hb hW hS hd c b v ha k
    | other => exact sp_err (.refl ha) k
    | ptr e => exact sp_err (.refl ha) k
    | named id => exact sp_err (.refl ha) k
  · exact unmarshalDecodeS_at hb hW hS hd c b v ha k

theorem decodeS_post {W : World} (hW : Keeping W) {S : Hands} (hS : Tidy W S) (f : Nat) :
    ∀ t d, d ≤ maxDepth → SDec o b0 (fun b c => decodeS W S o f t b c d) (fun c => decodeAt W o b0 f t c d) := by
  induction f with
  | zero => exact fun t d _ c b v ha k => sp_div (.refl ha) k
  | succ f ih =>
    have hn : ∀ t d, d ≤ maxDepth → SDec o b0 (fun b c => decodeNonPtrS W S o (decodeS W S o f) t b c d) (fun c => decodeNonPtrAt W o (decodeAt W o b0 f) b0 t c d) :=
      fun t d hd => decodeNonPtrS_post hb hW hS ih (fun c d v hv => by rw [decodeAt_any]; exact decodeF_any_dry hb hv) hd
    intro t d hd c b v ha k
    dsimp only
    unfold decodeS decodeAt
    have h0 := hn t d hd c b v ha k
    cases W.unmOf t with
    | some id => exact h0
    | none =>
      cases W.resolve t with
      | ptr e => exact sp_ite (fun _ => sp_err (.refl ha) k) fun _ => ptrDecodeS_post (D := decodeNonPtrS W S o (decodeS W S o f) e) (hn e d hd) (hW.zero e) c b v ha k
      | _ => exact h0

end Scribble

end Verif

import Verif.Proofs.Scribble
import Verif.Props.Alias
/-
What `UnmarshalPHP` methods may write (C73). The argument of a method is a part of the buffer that is being decoded, and its capacity reaches to the end of it.
`S` says what methods write; `Tidy W S` that they write to no byte behind their argument, and to none that they keep. `Keeping W`: methods keep parts of their argument
that do not touch, or none.
-/
namespace Verif
open Spec

/-- C73, with the premise `Tidy W S`: whatever methods write to their argument, the program sees the value and the outcome that Model/Decode.lean gives, where nothing is
written. What is missing: methods that write behind their argument, by appending to it; the code does not keep them from it, see `C73_refused` and `C73_changed`. -/
theorem C73_partial (W : World) (hW : Keeping W) (S : Hands) (hS : Tidy W S) (fuel : Nat) (m : Arrays) (inp off n : Nat) (t : Ty) (v : Val)
    (hlen : (m.read inp off n).length < 2 ^ 63) (hv : HeldFree v) (hs : Separate m v) (m' : Arrays) (v' : Val) (r : Res Unit)
    (h : unmarshalS W S fuel m inp off n t v = (m', v', r)) : unmarshalInto W fuel (m.read inp off n) t (view m v) = (view m' v', r) := by
  have hA := C33_same W hW fuel m inp off n t v hlen hv hs
  have hP := C33_places W hW fuel m inp off n t v hlen hv
  unfold unmarshalS at h
  unfold unmarshalAt at hA hP
  dsimp only at h hA hP
  rw [show (m ++ [m.read inp off n]).length - 1 = m.length by simp] at hA hP
  generalize hsrc : m.read inp off n = src at *
  cases hc : compileD W fuel [] t with
  | ok a =>
    rw [hc] at h hA hP
    dsimp only at h
    simp only [onOk] at hA hP
    have k : Kept m.length src src 0 v := ⟨hv, fun w hw ho => by have := (hs.2 w hw).1; omega⟩
    obtain ⟨h1, e, hst, hk, he⟩ := decodeS_post (o := m.length) hlen hW hS (src.length + 1) t 0 (by simp [maxDepth]) 0 src v SameFrom.rfl' k
    dsimp only at h1 hst hk he
    rw [← h1] at hk he hA hP
    generalize decodeS W S m.length (src.length + 1) t src 0 0 v = x at h hst hk he hA hP
    obtain ⟨b, u, q⟩ := x
    dsimp only at h hst hk he hA hP
    have hr : (onOk u q fun c => (u, validateEndBuf b c)) = onOk u q fun c => (u, validateEndBuf src c) := by
      cases q with
      | ok c => simp only [onOk, hst.ahead.validateEndBuf (he c rfl)]
      | err e => rfl
      | panic p => rfl
      | diverge => rfl
    have hu : (onOk u q fun c => (u, validateEndBuf src c)).1 = u := by cases q <;> rfl
    simp only [Prod.mk.injEq] at h
    obtain ⟨rfl, h⟩ := h
    rw [hr] at h
    have hv' : v' = u := by rw [← hu, h]
    subst hv'
    rw [hA _ _ _ (by rw [← h]; rfl)]
    congr 1
    refine view_congr fun w hw => ?_
    have hww := hk.2 w hw
    rcases hP _ _ _ (by rw [← h]; rfl) w hw with ho | ho
    · have := (hs.2 w ho).1
      unfold Arrays.read
      simp only [List.getD_eq_getElem?_getD]
      rw [List.getElem?_append_left this, List.getElem?_append_left this]
    · unfold Arrays.read
      rw [ho]
      simpa [List.getD_eq_getElem?_getD] using (hww ho).2.symm
  | err e => rw [hc] at h hA; exact hA _ _ _ h
  | panic p => rw [hc] at h hA; exact hA _ _ _ h
  | diverge => rw [hc] at h hA; exact hA _ _ _ h

/-- C73: methods, even those that write behind their argument, change no array that exists before the call, the one with the input included. -/
theorem C73_input (W : World) (S : Hands) (fuel : Nat) (m : Arrays) (inp off n : Nat) (t : Ty) (v : Val) (i : Nat) (hi : i < m.length) :
    (unmarshalS W S fuel m inp off n t v).1[i]? = m[i]? := by
  unfold unmarshalS
  dsimp only
  split <;> simp only [List.getElem?_append_left hi]

open Demo

/-- A method that fills its argument with zeros. -/
def Demo.wiper : Hands := ⟨fun _ s _ => List.replicate s.length 0, fun _ _ s _ => List.replicate s.length 0⟩

theorem Demo.wiper_tidy : Tidy W wiper := ⟨fun _ s _ => by simp [wiper], fun _ _ s _ => by simp [wiper], by
  intro id s rest v h obj off w hw
  simp only [W] at h
  split at h
  · cases h; simp [W, wins] at hw
  · cases h⟩

/-- A method that appends `bs` to its argument, as far as the capacity goes. -/
def Demo.appender (bs : Bytes) : Hands := ⟨fun _ s rest => if bs.length ≤ rest.length then s ++ bs else s, fun _ _ s rest => if bs.length ≤ rest.length then s ++ bs else s⟩

/-- The premises of `C73_partial` are met: a `map[T]int` with wiped keys. -/
example : unmarshalInto W 3 (b! "a:2:{i:7;i:1;i:88;i:2;}") (.map (.named 0) (.int .int)) .mapNil = (.map [(.int 4, .int 1), (.int 5, .int 2)], .ok ()) :=
  C73_partial W copying wiper wiper_tidy 3 [b! "a:2:{i:7;i:1;i:88;i:2;}"] 0 0 23 (.map (.named 0) (.int .int)) .mapNil (by decide) trivial ⟨by simp [wins], by simp [wins]⟩
    [b! "a:2:{i:7;i:1;i:88;i:2;}", [97, 58, 50, 58, 123, 0, 0, 0, 0, 105, 58, 49, 59, 0, 0, 0, 0, 0, 105, 58, 50, 59, 125]] (.map [(.int 4, .int 1), (.int 5, .int 2)]) (.ok ()) (by rfl)

/-- Declared type 0 is `type Raw []byte`, whose method stores its argument; the other declared types are integers, whose method stores the length of the argument. -/
def Demo.WMix : World :=
  { W with
    named := fun id => if id = 0 then ⟨.slice (.uint .u8), true, .none⟩ else ⟨.int .int, true, .none⟩
    namedZero := fun id => if id = 0 then .sliceNil else .int 0
    unmarshal := fun id s => if id = 0 then .ok (bytesVal s) else .ok (.int s.length)
    kept := fun id obj off s v => if id = 0 then .win obj off s.length else v }

theorem Demo.mix_keeping : Keeping WMix where
  zero := by
    intro t
    induction t with
    | array n e ih => exact winsList_replicate ih n
    | struct id =>
      simp only [World.zero, WMix, W]
      unfold structZero
      split <;> rfl
    | named id =>
      simp only [World.zero, WMix]
      split <;> rfl
    | _ => rfl
  unmarshal := by
    intro id s v h
    simp only [WMix] at h
    split at h <;> cases h
    · exact wins_bytesVal s
    · rfl
  same := by
    intro id s v h m obj off hr
    simp only [WMix] at h ⊢
    split at h <;> cases h
    · rw [if_pos (by assumption)]; simp only [view, hr]
    · rw [if_neg (by assumption)]; rfl
  held := by
    intro id s v h obj off
    simp only [WMix] at h ⊢
    split at h <;> cases h
    · rw [if_pos (by assumption)]; trivial
    · rw [if_neg (by assumption)]; trivial
  apart := by
    intro id s v h obj off
    simp only [WMix] at h ⊢
    split at h <;> cases h
    · rw [if_pos (by assumption)]; simp [wins]
    · rw [if_neg (by assumption)]; simp [wins]
  inside := by
    intro id s v h obj off w hw
    simp only [WMix] at h hw
    split at h <;> cases h
    · rw [if_pos (by assumption)] at hw
      simp only [wins, List.mem_singleton] at hw
      subst hw
      exact ⟨rfl, Nat.le_refl _, Nat.le_refl _⟩
    · rw [if_neg (by assumption)] at hw
      simp [wins] at hw
  unmarshalDyn := fun _ _ _ h => h

/-- The method of `Raw` writes nothing, the others fill their argument with zeros. -/
def Demo.mixer : Hands := ⟨fun id s _ => if id = 0 then [] else List.replicate s.length 0, fun _ _ _ _ => []⟩

theorem Demo.mix_tidy : Tidy WMix mixer where
  unm := by
    intro id s rest
    simp only [mixer]
    split <;> simp
  dyn := by simp [mixer]
  kept := by
    intro id s rest v h obj off w hw
    simp only [WMix, mixer] at *
    by_cases hid : id = 0
    · simp [hid]
    · rw [if_neg hid] at h hw
      cases h
      simp [wins] at hw

/-- A `map[T]Raw`: the keys are wiped, the values kept. -/
example : unmarshalInto WMix 3 (b! "a:2:{i:7;i:1;i:88;N;}") (.map (.named 1) (.named 0)) .mapNil = (.map [(.int 4, bytesVal (b! "i:1;")), (.int 5, .sliceNil)], .ok ()) :=
  C73_partial WMix mix_keeping mixer mix_tidy 3 [b! "a:2:{i:7;i:1;i:88;N;}"] 0 0 21 (.map (.named 1) (.named 0)) .mapNil (by decide) trivial ⟨by simp [wins], by simp [wins]⟩
    [b! "a:2:{i:7;i:1;i:88;N;}", [97, 58, 50, 58, 123, 0, 0, 0, 0, 105, 58, 49, 59, 0, 0, 0, 0, 0, 78, 59, 125]] (.map [(.int 4, .win 1 9 4), (.int 5, .sliceNil)]) (.ok ()) (by rfl)

/-- Byte slices decoded before and after a method ran: `map[T][]byte`. -/
example : view (unmarshalS W wiper 3 [b! "a:2:{i:7;s:1:\"x\";i:88;s:1:\"y\";}"] 0 0 31 (.map (.named 0) (.slice (.uint .u8))) .mapNil).1
    (.map [(.int 4, .win 1 14 1), (.int 5, .win 1 27 1)]) = .map [(.int 4, bytesVal [120]), (.int 5, bytesVal [121])] := by rfl

/-- C73 is false for a method that appends one byte: a `[]T` is refused, because the byte goes where the `}` was. -/
theorem C73_refused : ∃ (inp : Bytes) (t : Ty) (v : Val) (e : Err), unmarshalInto W 3 inp t .sliceNil = (v, .ok ()) ∧
    (unmarshalS W (appender [10]) 3 [inp] 0 0 inp.length t .sliceNil).2.2 = .err e :=
  ⟨b! "a:1:{i:0;i:5;}", .slice (.named 0), _, _, by rfl, by rfl⟩

/-- C73 is false for a method that appends four bytes: in a `map[T]int` the value is another number than in the input. -/
theorem C73_changed : ∃ (inp : Bytes) (t : Ty), unmarshalInto W 3 inp t .mapNil = (.map [(.int 4, .int 1)], .ok ()) ∧
    (unmarshalS W (appender (b! "i:9;")) 3 [inp] 0 0 inp.length t .mapNil).2 = (.map [(.int 4, .int 9)], .ok ()) :=
  ⟨b! "a:1:{i:7;i:1;}", .map (.named 0) (.int .int), by rfl, by rfl⟩

end Verif

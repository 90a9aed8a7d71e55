import Verif.Proofs.Alias
import Verif.Props.Demo
/-
Sharing of memory (C33). The input is the `n` bytes at position `off` of array `inp`; `m` are the byte arrays of the program before the
call. `Keeping W`: UnmarshalPHP methods keep parts of their argument that do not touch, or none. `HeldFree v`: interfaces in the destination hold no decoded byte slices.
-/
namespace Verif
open Spec

/-- C33: every array that exists before the call, the one with the input included, is the same afterwards. -/
theorem C33_input (W : World) (fuel : Nat) (m : Arrays) (inp off n : Nat) (t : Ty) (v : Val) (i : Nat) (hi : i < m.length) :
    (unmarshalAt W fuel m inp off n t v).1[i]? = m[i]? := by
  simp only [unmarshalAt]
  rw [List.getElem?_append_left hi]

theorem view_snoc {m : Arrays} {v : Val} {x : Bytes} (h : ∀ w ∈ wins v, w.obj < m.length) : view (m ++ [x]) v = view m v :=
  view_congr fun w hw => by
    unfold Arrays.read
    simp only [List.getD_eq_getElem?_getD]
    rw [List.getElem?_append_left (h w hw)]

/-- C33: the program sees the value and the outcome that Model/Decode.lean gives (about which the other theorems are). -/
theorem C33_same (W : World) (hW : Keeping W) (fuel : Nat) (m : Arrays) (inp off n : Nat) (t : Ty) (v : Val)
    (hlen : (m.read inp off n).length < 2 ^ 63) (hv : HeldFree v) (hs : Separate m v) (m' : Arrays) (v' : Val) (r : Res Unit)
    (h : unmarshalAt W fuel m inp off n t v = (m', v', r)) : unmarshalInto W fuel (m.read inp off n) t (view m v) = (view m' v', r) := by
  obtain ⟨v1, r1, h1, h2, -⟩ := unmarshalAt_post hW (fuel := fuel) (t := t) hlen hv
  rw [h1] at h
  simp only [Prod.mk.injEq] at h
  obtain ⟨rfl, rfl, rfl⟩ := h
  rwa [view_snoc fun w hw => (hs.2 w hw).1] at h2

/-- C33: the destination refers to what it referred to before and to an array that did not exist before, not to the input. -/
theorem C33_places (W : World) (hW : Keeping W) (fuel : Nat) (m : Arrays) (inp off n : Nat) (t : Ty) (v : Val)
    (hlen : (m.read inp off n).length < 2 ^ 63) (hv : HeldFree v) (m' : Arrays) (v' : Val) (r : Res Unit)
    (h : unmarshalAt W fuel m inp off n t v = (m', v', r)) (w : Win) (hw : w ∈ wins v') : w ∈ wins v ∨ w.obj = m.length := by
  obtain ⟨v1, r1, h1, -, -, e, -, new, hf, hc⟩ := unmarshalAt_post hW (fuel := fuel) (t := t) hlen hv
  rw [h1] at h
  simp only [Prod.mk.injEq] at h
  obtain ⟨rfl, rfl, rfl⟩ := h
  have h3 := hc w
  have h4 := List.count_pos_iff.2 hw
  by_cases hv : w ∈ wins v
  · exact .inl hv
  · rw [List.count_eq_zero.2 hv] at h3
    exact .inr (hf.place w (List.count_pos_iff.1 (by omega))).1

theorem apart_irrefl {a : Win} (h : Win.Apart a a) : False := by
  rcases h with h | h | h
  · exact h rfl
  · omega
  · omega

theorem apart_of_mem {l : List Win} (h : l.Pairwise Win.Apart) : ∀ x ∈ l, ∀ y ∈ l, x ≠ y → Win.Apart x y := by
  induction h with
  | nil => simp
  | cons h1 _ ih =>
    intro x hx y hy hne
    rcases List.mem_cons.1 hx with hx | hx
    · rcases List.mem_cons.1 hy with hy | hy
      · exact absurd (hx.trans hy.symm) hne
      · rw [hx]; exact h1 _ hy
    · rcases List.mem_cons.1 hy with hy | hy
      · rw [hy]; exact apart_symm (h1 _ hx)
      · exact ih _ hx _ hy hne

theorem pairwise_of_count {ws vs new : List Win} (hv : vs.Pairwise Win.Apart) (hn : new.Pairwise Win.Apart) (hvn : ∀ a ∈ vs, ∀ b ∈ new, Win.Apart a b)
    (hc : ∀ w, ws.count w ≤ vs.count w + new.count w) : ws.Pairwise Win.Apart := by
  have h1 : (vs ++ new).Pairwise Win.Apart := List.pairwise_append.2 ⟨hv, hn, hvn⟩
  have h2 : ∀ w, ws.count w ≤ (vs ++ new).count w := fun w => by rw [List.count_append]; exact hc w
  generalize vs ++ new = l at h1 h2
  clear hc hvn hv hn
  have hone : ∀ w, l.count w ≤ 1 := by
    intro w
    clear h2
    induction h1 with
    | nil => simp
    | @cons x xs h _ ih =>
      rw [List.count_cons]
      split
      · rename_i he
        have he : x = w := by simpa using he
        subst he
        have : xs.count x = 0 := List.count_eq_zero.2 fun hm => apart_irrefl (h x hm)
        omega
      · exact ih
  induction ws with
  | nil => exact List.Pairwise.nil
  | cons x xs ih =>
    refine List.pairwise_cons.2 ⟨fun y hy => ?_, ih fun w => ?_⟩
    · have hx : x ∈ l := List.count_pos_iff.1 (by have := h2 x; rw [List.count_cons_self] at this; omega)
      have hy' : y ∈ l := List.count_pos_iff.1 (by have := h2 y; have := List.count_pos_iff.2 hy; rw [List.count_cons] at *; omega)
      refine apart_of_mem h1 x hx y hy' fun he => ?_
      subst he
      have := h2 x
      have := List.count_pos_iff.2 hy
      have := hone x
      rw [List.count_cons_self] at *
      omega
    · have := h2 w
      rw [List.count_cons] at this
      omega

/-- C33: no two byte slices in the destination have bytes in common. -/
theorem C33_separate (W : World) (hW : Keeping W) (fuel : Nat) (m : Arrays) (inp off n : Nat) (t : Ty) (v : Val)
    (hlen : (m.read inp off n).length < 2 ^ 63) (hv : HeldFree v) (hs : Separate m v) (m' : Arrays) (v' : Val) (r : Res Unit)
    (h : unmarshalAt W fuel m inp off n t v = (m', v', r)) : Separate m' v' ∧ HeldFree v' := by
  obtain ⟨v1, r1, h1, -, hh, e, -, new, hf, hc⟩ := unmarshalAt_post hW (fuel := fuel) (t := t) hlen hv
  rw [h1] at h
  simp only [Prod.mk.injEq] at h
  obtain ⟨rfl, rfl, rfl⟩ := h
  refine ⟨⟨pairwise_of_count hs.1 hf.apart (fun a ha b hb => .inl ?_) hc, fun w hw => ?_⟩, hh⟩
  · have := (hs.2 a ha).1
    have := (hf.place b hb).1
    omega
  · have h4 := List.count_pos_iff.2 hw
    have h3 := hc w
    by_cases hv : w ∈ wins v
    · have := hs.2 w hv
      simp only [List.getD_eq_getElem?_getD] at this ⊢
      rw [List.getElem?_append_left this.1]
      exact ⟨by simp; omega, this.2⟩
    · rw [List.count_eq_zero.2 hv] at h3
      have := hf.place w (List.count_pos_iff.1 (by omega))
      rw [this.1]
      exact ⟨by simp, by simpa [List.getD_eq_getElem?_getD] using this.2.2.2⟩

/-- C33: whatever is written later to arrays the destination did not refer to before the call, such as the input, its value stays. -/
theorem C33_later (W : World) (hW : Keeping W) (fuel : Nat) (m : Arrays) (inp off n : Nat) (t : Ty) (v : Val)
    (hlen : (m.read inp off n).length < 2 ^ 63) (hv : HeldFree v) (m' : Arrays) (v' : Val) (r : Res Unit)
    (h : unmarshalAt W fuel m inp off n t v = (m', v', r)) (m2 : Arrays)
    (h2 : ∀ i, i = m.length ∨ (∃ w ∈ wins v, w.obj = i) → m2[i]? = m'[i]?) : view m2 v' = view m' v' := by
  refine view_congr fun w hw => ?_
  have := C33_places W hW fuel m inp off n t v hlen hv m' v' r h w hw
  unfold Arrays.read
  simp only [List.getD_eq_getElem?_getD]
  rw [h2 w.obj]
  rcases this with h | h
  · exact .inr ⟨w, h, rfl⟩
  · exact .inl h

/-- C33: writing to one byte slice of a value changes that one and nothing else. -/
theorem C33_write (m : Arrays) (v v' : Val) (hs : Separate m v) (o a n : Nat) (bs : Bytes) (hn : bs.length = n)
    (h : Swap (.win o a n) (bytesVal bs) v v') : view (write m o a bs) v = view m v' := by
  have hw := hs.2 _ (swap_mem h)
  subst hn
  dsimp only at hw
  refine view_swap ?_ (fun w hap => read_write_other ?_ hw.2) h hs.1
  · simp only [view]
    rw [read_write_same hw.1 hw.2, view_eq_self]
    generalize bs = l
    simp only [bytesVal, wins]
    induction l with
    | nil => rfl
    | cons x xs ih => simpa [winsList, wins] using ih
  · rcases hap with h | h | h
    · exact .inl (Ne.symm h)
    · exact .inr (.inr (by dsimp only at h; omega))
    · exact .inr (.inl (by dsimp only at h; omega))

/-- C33: appending to a byte slice of a value gives the bytes and leaves the value alone, if the bytes go to a new array or before the
next byte slice of the value. What is missing: the code does not make sure of that, see `C33_append_counterexample`. -/
theorem C33_append_partial (m : Arrays) (v : Val) (hs : Separate m v) (o a n : Nat) (hw : ⟨o, a, n⟩ ∈ wins v) (bs : Bytes)
    (h : (m.getD o []).length < a + n + bs.length ∨ ∀ w ∈ wins v, w.obj = o → w.off ≤ a ∨ a + n + bs.length ≤ w.off) (m' : Arrays) (s : Val)
    (hap : appendTo m o a n bs = (m', s)) : view m' s = bytesVal (m.read o a n ++ bs) ∧ view m' v = view m v := by
  have hb := hs.2 _ hw
  dsimp only at hb
  have hrl : (m.read o a n).length = n := by simp only [Arrays.read, List.length_take, List.length_drop]; omega
  have hle : ∀ w ∈ wins v, w.obj = o → w.off ≤ a → w.off + w.len ≤ a + n := by
    intro w hm ho hl
    by_cases he : w = ⟨o, a, n⟩
    · subst he; exact Nat.le_refl _
    · rcases apart_of_mem hs.1 w hm _ hw he with h | h | h
      · exact absurd ho h
      · dsimp only at h; omega
      · dsimp only at h; omega
  unfold appendTo at hap
  split at hap
  · rename_i hin
    simp only [Prod.mk.injEq] at hap
    obtain ⟨rfl, rfl⟩ := hap
    have h' : ∀ w ∈ wins v, w.obj = o → w.off + w.len ≤ a + n ∨ a + n + bs.length ≤ w.off := by
      intro w hm ho
      rcases h with h | h
      · omega
      · rcases h w hm ho with h | h
        · exact .inl (hle w hm ho h)
        · exact .inr h
    constructor
    · have e1 : (write m o (a + n) bs).read o a n = m.read o a n := read_write_other (.inr (.inl (Nat.le_refl _))) hin
      have e2 : (write m o (a + n) bs).read o (a + n) bs.length = bs := read_write_same hb.1 hin
      have e3 : ∀ m : Arrays, m.read o a (n + bs.length) = m.read o a n ++ m.read o (a + n) bs.length := fun m => by
        simp only [Arrays.read]
        rw [List.take_add, List.drop_drop]
      simp only [view]
      rw [e3, e1, e2]
    · refine view_congr fun w hm => read_write_other ?_ hin
      by_cases ho : w.obj = o
      · exact .inr (h' w hm ho)
      · exact .inl ho
  · simp only [Prod.mk.injEq] at hap
    obtain ⟨rfl, rfl⟩ := hap
    constructor
    · simp only [view, Arrays.read]
      rw [show (m ++ [((m.getD o []).drop a).take n ++ bs]).getD m.length [] = ((m.getD o []).drop a).take n ++ bs by simp [List.getD_eq_getElem?_getD]]
      rw [List.drop_zero, List.take_of_length_le]
      rw [List.length_append]
      exact Nat.add_le_add_right (by rw [List.length_take]; omega) _
    · exact view_snoc fun w hw => (hs.2 w hw).1

namespace Demo

/-- The demo world keeps no arguments. -/
theorem copying : Keeping W where
  zero := by
    intro t
    induction t with
    | array n e ih => exact winsList_replicate ih n
    | struct id =>
      simp only [World.zero, W]
      unfold structZero
      split <;> rfl
    | named id =>
      simp only [World.zero, W]
      unfold namedZero
      split <;> rfl
    | _ => rfl
  unmarshal := by
    intro id s v h
    simp only [W] at h
    split at h
    · cases h; rfl
    · cases h
  same := by
    intro id s v h m obj off _
    simp only [W] at h
    split at h
    · cases h; rfl
    · cases h
  held := by
    intro id s v h obj off
    simp only [W] at h
    split at h
    · cases h; trivial
    · cases h
  apart := by
    intro id s v h obj off
    simp only [W] at h
    split at h
    · cases h; exact List.Pairwise.nil
    · cases h
  inside := by
    intro id s v h obj off w hw
    simp only [W] at h
    split at h
    · cases h; simp [W, wins] at hw
    · cases h
  unmarshalDyn := fun _ _ _ h => h

/-- `a:2:{i:0;s:2:"ab";i:1;s:2:"cd";}` -/
def two : Bytes := [97, 58, 50, 58, 123, 105, 58, 48, 59, 115, 58, 50, 58, 34, 97, 98, 34, 59, 105, 58, 49, 59, 115, 58, 50, 58, 34, 99, 100, 34, 59, 125]

/-- Decoding `two` into a nil `[][]byte`. -/
theorem two_at : unmarshalAt W 3 [two] 0 0 32 (.slice (.slice (.uint .u8))) .sliceNil = ([two, two], .slice [.win 1 14 2, .win 1 27 2], .ok ()) := by rfl

theorem two_separate : Separate [two, two] (.slice [.win 1 14 2, .win 1 27 2]) :=
  (C33_separate W copying 3 [two] 0 0 32 (.slice (.slice (.uint .u8))) .sliceNil (by decide) trivial ⟨by simp [wins], by simp [wins]⟩ _ _ _ two_at).1

/-- A world with `type Raw []byte` (every declared type), whose UnmarshalPHP stores its argument. -/
def WRaw : World :=
  { W with
    named := fun _ => ⟨.slice (.uint .u8), true, .none⟩
    namedZero := fun _ => .sliceNil
    unmarshal := fun _ s => .ok (bytesVal s)
    kept := fun _ obj off s _ => .win obj off s.length }

theorem wins_bytesVal (s : Bytes) : wins (bytesVal s) = [] := by
  simp only [bytesVal, wins]
  induction s with
  | nil => rfl
  | cons x xs ih => simpa [winsList, wins] using ih

/-- The method of `Raw` keeps its argument. -/
theorem raw_keeping : Keeping WRaw where
  zero := by
    intro t
    induction t with
    | array n e ih => exact winsList_replicate ih n
    | struct id =>
      simp only [World.zero, WRaw, W]
      unfold structZero
      split <;> rfl
    | _ => rfl
  unmarshal := by
    rintro id s v ⟨⟩
    exact wins_bytesVal s
  same := by
    rintro id s v ⟨⟩ m obj off h
    simp only [WRaw, view, h]
  held := fun _ _ _ _ _ _ => trivial
  apart := fun _ _ _ _ _ _ => by simp [WRaw, wins]
  inside := by
    intro id s v _ obj off w hw
    simp only [WRaw, wins, List.mem_singleton] at hw
    subst hw
    exact ⟨rfl, Nat.le_refl _, Nat.le_refl _⟩
  unmarshalDyn := fun _ _ _ h => h

/-- Decoding `two` into a nil `[]Raw`. -/
theorem raw_at : unmarshalAt WRaw 3 [two] 0 0 32 (.slice (.named 0)) .sliceNil = ([two, two], .slice [.win 1 9 9, .win 1 22 9], .ok ()) := by rfl

end Demo
open Demo

/-- The premises of `C33_same`, `C33_separate`, `C33_places` and `C33_later` are met. -/
example : unmarshalInto W 3 two (.slice (.slice (.uint .u8))) .sliceNil = (.slice [bytesVal [97, 98], bytesVal [99, 100]], .ok ()) :=
  C33_same W copying 3 [two] 0 0 32 _ .sliceNil (by decide) trivial ⟨by simp [wins], by simp [wins]⟩ _ _ _ two_at

/-- The same for a method that keeps its argument: the values are `s:2:"ab";` and `s:2:"cd";`, in places that do not touch. -/
example : unmarshalInto WRaw 3 two (.slice (.named 0)) .sliceNil = (.slice [bytesVal [115, 58, 50, 58, 34, 97, 98, 34, 59], bytesVal [115, 58, 50, 58, 34, 99, 100, 34, 59]], .ok ()) :=
  C33_same WRaw raw_keeping 3 [two] 0 0 32 _ .sliceNil (by decide) trivial ⟨by simp [wins], by simp [wins]⟩ _ _ _ raw_at

example : Separate [two, two] (.slice [.win 1 9 9, .win 1 22 9]) :=
  (C33_separate WRaw raw_keeping 3 [two] 0 0 32 (.slice (.named 0)) .sliceNil (by decide) trivial ⟨by simp [wins], by simp [wins]⟩ _ _ _ raw_at).1

/-- The input is overwritten; the decoded value stays. -/
example : view [List.replicate 32 0, two] (.slice [.win 1 14 2, .win 1 27 2]) = .slice [bytesVal [97, 98], bytesVal [99, 100]] :=
  C33_later W copying 3 [two] 0 0 32 (.slice (.slice (.uint .u8))) .sliceNil (by decide) trivial _ _ _ two_at _ (by
    rintro i (rfl | ⟨w, hw, -⟩)
    · rfl
    · simp [wins] at hw)

/-- Writing `x` `y` to the first byte slice. -/
example : view (write [two, two] 1 14 [120, 121]) (.slice [.win 1 14 2, .win 1 27 2]) = .slice [bytesVal [120, 121], bytesVal [99, 100]] :=
  (C33_write [two, two] _ _ two_separate 1 14 2 [120, 121] rfl (.slice (i := 0) rfl .here)).trans (by rfl)

/-- Appending `x` to the first byte slice. -/
example : view (appendTo [two, two] 1 14 2 [120]).1 (.slice [.win 1 14 2, .win 1 27 2]) = .slice [bytesVal [97, 98], bytesVal [99, 100]] :=
  (C33_append_partial [two, two] _ two_separate 1 14 2 (by simp [wins, winsList]) [120] (.inr (by simp [wins, winsList])) _ _ rfl).2.trans (by rfl)

/-- C33 is false: appending twelve bytes to the first of two decoded byte slices changes the second, from `cd` to `xd`. -/
theorem C33_append_counterexample : ∃ (m m' : Arrays) (v v' s : Val) (bs : Bytes) (o a n : Nat),
    unmarshalAt W 3 m 0 0 32 (.slice (.slice (.uint .u8))) .sliceNil = (m', v, .ok ()) ∧ v = .slice [.win o a n, v'] ∧
    (appendTo m' o a n bs).2 = s ∧ view m' v' = bytesVal [99, 100] ∧ view (appendTo m' o a n bs).1 v' = bytesVal [120, 100] :=
  ⟨[two], [two, two], _, .win 1 27 2, _, List.replicate 12 120, 1, 14, 2, two_at, rfl, rfl, by rfl, by rfl⟩

end Verif

import Verif.Proofs.EncDet
/-
The text of a value does not depend on the addresses around it, except through the recursion checks.
-/
namespace Verif
open Spec

variable {W : World} {h : Heap}

/-- Changing the addresses around a value by a relation that is kept when both sides are extended. -/
theorem encG_restack {ok ok' : Ty → Prop} {G G' : Stack → Nat → Bool → Prop} {R : Stack → Stack → Prop} (hok : ∀ t, ok t → ok' t)
    (hpush : ∀ st st' x, R st st' → R (x :: st) (x :: st')) (hG : ∀ st st' a k, R st st' → G st a k → G' st' a k)
    {m : Mode} {st st' : Stack} {p : Path} {t : Ty} {v : GV} {tx : Bytes} (he : EncG W h ok G m st p t v tx) (hr : R st st') :
    EncG W h ok' G' m st' p t v tx := by
  induction he generalizing st' with
  | marshaler a b => exact .marshaler a b
  | bytesNil => exact .bytesNil
  | bytes a => exact .bytes a
  | plain a b c _ ih => exact .plain a b c (ih hr)
  | ptrNil a b c d => exact .ptrNil a b c d
  | ptrStruct a b c d _ ih => exact .ptrStruct a b c (hG _ _ _ _ hr d) (ih (hpush _ _ _ hr))
  | ptrKind a b c _ ih => exact .ptrKind a b c (ih hr)
  | ptrTyped a b c d e f _ ih => exact .ptrTyped a b c d e f (ih hr)
  | ptrIface a b c _ ih => exact .ptrIface a b c (ih hr)
  | scalar a => exact .scalar a
  | struct a b _ ih => exact .struct a b fun j w hj => ih j w hj hr
  | array a b _ ih => exact .array a b fun j w hj => ih j w hj hr
  | sliceNil a => exact .sliceNil a
  | slice a b c _ ih => exact .slice a (hG _ _ _ _ hr b) c fun j w hj => ih j w hj (hpush _ _ _ hr)
  | mapNil a => exact .mapNil a
  | map a b c d _ ih => exact .map a (hG _ _ _ _ hr b) c d fun j x y hj => ih j x y hj (hpush _ _ _ hr)
  | iface a _ ih => exact .iface a (ih hr)
  | heldNil a => exact .heldNil a
  | heldScalar a b => exact .heldScalar a b
  | heldConcreteSlice a b c d e _ ih => exact .heldConcreteSlice a b c (hG _ _ _ _ hr d) (hok _ e) (ih (hpush _ _ _ hr))
  | heldSliceNil a b c d => exact .heldSliceNil a b c (hG _ _ _ _ hr d)
  | heldSlice a b c d e _ ih => exact .heldSlice a b c (hG _ _ _ _ hr d) e fun j w hj => ih j w hj (hpush _ _ _ hr)
  | heldMapNil a b c d => exact .heldMapNil a b c (hG _ _ _ _ hr d)
  | heldMap a b c d e f g _ ih => exact .heldMap a b c d (hG _ _ _ _ hr e) f g fun j x y hj => ih j x y hj (hpush _ _ _ hr)
  | heldConcreteMap a b c d e f g h _ ih =>
    exact .heldConcreteMap a b c d (hG _ _ _ _ hr e) f (fun x => hok _ (g x)) h fun j x y hj => ih j x y hj (hpush _ _ _ hr)
  | heldStruct a b c _ ih => exact .heldStruct a b (hok _ c) (ih hr)
  | fieldPlain a _ ih => exact .fieldPlain a (ih hr)
  | fieldPtrNil a => exact .fieldPtrNil a
  | fieldPtrStruct a b c _ ih => exact .fieldPtrStruct a b (hG _ _ _ _ hr c) (ih (hpush _ _ _ hr))
  | fieldPtr a b _ ih => exact .fieldPtr a b (ih hr)
  | fieldStr a b => exact .fieldStr a b
  | fieldStrPtr a b => exact .fieldStrPtr a b

/-- Without recursion checks the addresses around a value are irrelevant. -/
theorem encT_any_stack {m : Mode} {st st' : Stack} {p : Path} {t : Ty} {v : GV} {tx : Bytes} (he : EncT W h m st p t v tx) :
    EncT W h m st' p t v tx :=
  encG_restack (R := fun _ _ => True) (fun _ h => h) (fun _ _ _ _ => trivial) (fun _ _ _ _ _ _ => trivial) he trivial

/-- Recursion checks dropped. -/
theorem encC_encT {m : Mode} {st : Stack} {p : Path} {t : Ty} {v : GV} {tx : Bytes} (he : EncC W h m st p t v tx) : EncT W h m st p t v tx :=
  encG_mono (fun _ h => h) (fun _ _ _ _ => trivial) he

theorem depthOf_outer (st : Stack) (a : Nat) : depthOf (st ++ [(a, true)]) = depthOf st + 1 := by
  simp [depthOf, List.filter_append]

theorem seenOf_outer (st : Stack) (a x : Nat) (hx : x ∈ seenOf st) : x ∈ seenOf (st ++ [(a, true)]) := by
  induction st with
  | nil => cases hx
  | cons y st ih =>
    obtain ⟨b, c⟩ := y
    simp only [List.cons_append, seenOf, depthOf_outer] at hx ⊢
    by_cases hc : c && decide (depthOf st + 1 ≤ 1000)
    · rw [if_pos hc] at hx
      split
      · exact ih hx
      · exact List.mem_cons_of_mem _ (ih hx)
    · rw [if_neg hc] at hx
      rw [if_neg (by
        simp only [Bool.and_eq_true, decide_eq_true_eq] at hc ⊢
        exact fun h => hc ⟨h.1, by omega⟩)]
      rcases List.mem_cons.1 hx with rfl | hx
      · exact List.mem_cons_self
      · exact List.mem_cons_of_mem _ (ih hx)

/-- What passes the recursion checks inside a pointer also passes them outside of it. -/
theorem encC_inside {m : Mode} {st : Stack} {p : Path} {t : Ty} {v : GV} {tx : Bytes} {a : Nat} (he : EncC W h m (st ++ [(a, true)]) p t v tx) :
    EncC W h m st p t v tx := by
  refine encG_restack (R := fun s s' => s = s' ++ [(a, true)]) (fun _ h => h) (fun _ _ _ h => by rw [h]; rfl) ?_ he rfl
  rintro _ st' b k rfl hf
  rcases hf with ⟨h1, h2⟩ | hf
  · exact .inl ⟨h1, by rw [depthOf_outer] at h2; omega⟩
  · exact .inr fun hx => hf (seenOf_outer _ _ _ hx)

end Verif

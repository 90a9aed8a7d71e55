import Verif.Model.Reader
import Verif.Proofs.Ahead
/-
What the readers of Model/Reader.lean come to is what the functions of Model/Lex.lean and Model/Decode.lean return.
-/
namespace Verif
namespace Reader

variable {α β : Type} {b : Bytes}

theorem outcome_bind (x : Reader α) (f : α → Reader β) : (x.bind f).outcome b = (f (x.outcome b)).outcome b := by
  induction x with
  | done a => rfl
  | look i k ih => exact ih _

theorem seen_bind (x : Reader α) (f : α → Reader β) : (x.bind f).seen b = x.seen b ++ (f (x.outcome b)).seen b := by
  induction x with
  | done a => rfl
  | look i k ih =>
    simp only [bind, seen, outcome, ih]
    split <;> simp

theorem outcome_andThen (x : Reader (Res α)) (f : α → Reader (Res β)) : (x.andThen f).outcome b = x.outcome b >>= fun a => (f a).outcome b := by
  unfold andThen
  rw [outcome_bind]
  cases x.outcome b <;> rfl

theorem outcome_onOk (rv : Val) (x : Reader (Res α)) (f : α → Reader (Val × Res β)) :
    (x.onOk rv f).outcome b = Verif.onOk rv (x.outcome b) fun a => (f a).outcome b := by
  unfold onOk
  rw [outcome_bind]
  cases x.outcome b <;> rfl

theorem outcome_byte (i : Nat) : (byte i).outcome b = idx b i := by
  unfold byte idx
  simp only [outcome]
  cases b[i]? <;> rfl

theorem outcome_done (a : α) : (done a).outcome b = a := rfl

theorem outcome_ite {p : Prop} {_ : Decidable p} (x y : Reader α) : (if p then x else y).outcome b = if p then x.outcome b else y.outcome b := by split <;> rfl

theorem outcome_bytes : ∀ {n i : Nat}, i + n ≤ b.length → (bytes i n).outcome b = (b.drop i).take n
  | 0, i, _ => by simp [bytes, outcome]
  | n + 1, i, h => by
    have hi : i < b.length := by omega
    simp only [bytes, outcome, outcome_bind, outcome_bytes (show i + 1 + n ≤ b.length by omega), List.getElem?_eq_getElem hi, Option.toList_some]
    rw [List.drop_eq_getElem_cons hi, List.take_succ_cons]
    rfl

end Reader

open Reader

section Lex
variable {b : Bytes}

theorem out_scan {p : Byte → Bool} : ∀ {f c : Nat}, b.length - c ≤ f → (scanR p f c).outcome b = c + spanLen p (b.drop c)
  | 0, c, h => by simp [scanR, outcome, List.drop_eq_nil_of_le (show b.length ≤ c by omega), spanLen]
  | f + 1, c, h => by
    simp only [scanR, outcome]
    by_cases hc : c < b.length
    · rw [List.getElem?_eq_getElem hc, List.drop_eq_getElem_cons hc]
      simp only [spanLen]
      split
      · rw [out_scan (show b.length - (c + 1) ≤ f by omega)]
        omega
      · rfl
    · rw [List.getElem?_eq_none (by omega), List.drop_eq_nil_of_le (by omega)]
      rfl

theorem out_has (c : Nat) : hasByteR b.length c = hasByte b c := rfl
theorem out_hasBytes (c s : Int) : hasBytesR b.length c s = hasBytes b c s := rfl

theorem out_fetch {x : Reader (Res ((Nat × Nat) × Nat))} :
    (fetch x).outcome b = x.outcome b >>= fun p => (Reader.bytes p.1.1 (p.1.2 - p.1.1)).outcome b |> fun t => .ok (t, p.2) := by
  unfold fetch
  simp only [outcome_andThen, outcome_bind, outcome_done]

theorem sub_fetch {lo hi e : Nat} :
    ((subR b.length lo hi >>= fun w => Res.ok (w, e)) >>= fun p => (Reader.bytes p.1.1 (p.1.2 - p.1.1)).outcome b |> fun t => .ok (t, p.2)) =
      sub b lo hi >>= fun t => .ok (t, e) := by
  unfold subR sub
  split
  · simp only [Res.bind_ok]
    rw [outcome_bytes (by omega)]
  · rfl

theorem out_skipLength (c : Nat) : (skipLengthR b.length c).outcome b = skipLengthWithBothColon b c := by
  unfold skipLengthR skipLengthWithBothColon scanDigits
  simp only [outcome_ite, outcome_andThen, outcome_byte, outcome_done, outcome_bind, out_scan (Nat.le_refl _)]
  rfl

theorem res_bind_bind {α β γ : Type} {x : Res α} {f : α → Res β} {g : β → Res γ} : (x >>= f) >>= g = x >>= fun a => f a >>= g := by
  cases x <;> rfl

theorem res_ite {α β : Type} {p : Prop} {_ : Decidable p} {x y : Res α} {f : α → Res β} : (if p then x else y) >>= f = if p then x >>= f else y >>= f := by split <;> rfl

theorem out_readLength (c : Nat) : (readLengthR b.length c).outcome b = readLength b c := by
  unfold readLengthR readLength
  simp only [outcome_andThen, out_fetch, out_skipLength, outcome_done, res_bind_bind]
  refine congrArg _ (funext fun e => ?_)
  rw [← res_bind_bind, ← res_bind_bind, sub_fetch, res_bind_bind]
  rfl

theorem out_skipClassName (c : Nat) : (skipClassNameR b.length c).outcome b = skipClassName b c := by
  unfold skipClassNameR skipClassName
  simp only [outcome_ite, outcome_andThen, outcome_byte, outcome_done, out_readLength]
  rfl

theorem out_readString (c : Nat) : (fetch (readStringR b.length c)).outcome b = readString b c := by
  unfold readStringR readString
  simp only [out_fetch, outcome_ite, outcome_andThen, outcome_byte, outcome_done, out_readLength, res_bind_bind, res_ite, Res.bind_err]
  refine congrArg _ (funext fun ⟨l, e⟩ => ?_)
  dsimp only
  simp only [← res_bind_bind, sub_fetch]
  rfl

theorem out_readInteger (c : Nat) : (fetch (readIntegerR b.length c)).outcome b = readIntegerBytes b c := by
  unfold readIntegerR readIntegerBytes scanDigits
  simp only [out_fetch, outcome_ite, outcome_andThen, outcome_byte, outcome_done, outcome_bind, out_scan (Nat.le_refl _), res_bind_bind, res_ite, Res.bind_err]
  simp only [← res_bind_bind, sub_fetch]
  rfl

theorem out_readFloat (c : Nat) : (fetch (readFloatR b.length c)).outcome b = readFloatBytes b c := by
  unfold readFloatR readFloatBytes scanToSemi
  simp only [out_fetch, outcome_ite, outcome_andThen, outcome_byte, outcome_done, outcome_bind, out_scan (Nat.le_refl _), res_bind_bind, res_ite, Res.bind_err]
  simp only [← res_bind_bind, sub_fetch]
  rfl

theorem out_end {γ : Type} {x : Reader (Res ((Nat × Nat) × Nat))} {g : Nat → Res γ} :
    (x.outcome b >>= fun p => g p.2) = (fetch x).outcome b >>= fun p => g p.2 := by
  rw [out_fetch]
  cases x.outcome b <;> rfl

theorem out_readBool (c : Nat) : (readBoolR b.length c).outcome b = readBool b c := by
  unfold readBoolR readBool
  simp only [outcome_ite, outcome_andThen, outcome_byte, outcome_done]
  rfl

theorem out_validateNull (c : Nat) : (validateNullR b.length c).outcome b = validateNull b c := by
  unfold validateNullR validateNull
  simp only [outcome_ite, outcome_andThen, outcome_byte, outcome_done]

theorem out_validateEmptyArray (c : Nat) : (validateEmptyArrayR b.length c).outcome b = validateEmptyArray b c := by
  unfold validateEmptyArrayR validateEmptyArray
  simp only [outcome_ite, outcome_andThen, outcome_byte, outcome_done]

theorem out_readInt (c : Nat) : (readIntR b.length c).outcome b = readInt b c := by
  unfold readIntR readInt
  rw [outcome_andThen, out_readInteger]
  rfl

theorem out_skipInt (c : Nat) : (skipIntR b.length c).outcome b = skipInt b c := by
  unfold skipIntR skipInt
  rw [outcome_andThen, ← out_readInteger]
  exact out_end

theorem out_skipString (c : Nat) : (skipStringR b.length c).outcome b = skipString b c := by
  unfold skipStringR skipString
  simp only [outcome_ite, outcome_andThen, outcome_byte, outcome_done, ← out_readString]
  simp only [out_end (g := Res.ok)]
  rfl

theorem out_skipPairs {skip : Nat → Res Nat} {skipR : Nat → Reader (Res Nat)} (h : ∀ c, (skipR c).outcome b = skip c) :
    ∀ {m c : Nat}, (skipPairsR skipR m c).outcome b = skipPairs skip m c
  | 0, c => rfl
  | m + 1, c => by simp only [skipPairsR, skipPairs, outcome_andThen, h, out_skipPairs h]

theorem out_skipArray {skip : Nat → Res Nat} {skipR : Nat → Reader (Res Nat)} (h : ∀ c, (skipR c).outcome b = skip c) (c d : Nat) :
    (skipArrayR skipR b.length c d).outcome b = skipArray skip b c d := by
  unfold skipArrayR skipArray
  simp only [outcome_ite, outcome_andThen, outcome_byte, outcome_done, out_readLength, out_skipPairs h]
  rfl

theorem out_skipValueF : ∀ {f c d : Nat}, (skipValueFR f b.length c d).outcome b = skipValueF f b c d
  | 0, c, d => rfl
  | f + 1, c, d => by
    simp only [skipValueFR, skipValueF, outcome_ite, outcome_andThen, outcome_byte, outcome_done, out_skipClassName, out_skipString, out_skipInt, out_readBool,
      out_validateNull, out_skipArray (fun c => out_skipValueF (f := f) (c := c) (d := d + 1)), out_end (g := Res.ok), out_readFloat]
    rfl

theorem out_skipValue (c d : Nat) : (skipValueR b.length c d).outcome b = skipValue b c d := out_skipValueF

/-! ### Scalars -/

theorem out_intBytes (c : Nat) : (intBytesR b.length c).outcome b = intBytes b c := by
  unfold intBytesR intBytes
  simp only [outcome_ite, outcome_andThen, outcome_byte, outcome_done, out_validateNull, out_readInteger]
  rfl

theorem out_floatBytes (c : Nat) : (floatBytesR b.length c).outcome b = floatBytes b c := by
  unfold floatBytesR floatBytes
  simp only [outcome_ite, outcome_andThen, outcome_byte, outcome_done, out_validateNull, out_readFloat]
  rfl

theorem out_stringBytes (c : Nat) : (stringBytesR b.length c).outcome b = stringBytes b c := by
  unfold stringBytesR stringBytes
  simp only [outcome_ite, outcome_andThen, outcome_byte, outcome_done, out_validateNull, out_readString]
  rfl

theorem onOk_cong {α β : Type} {rv : Val} {r : Res α} {f g : α → Val × Res β} (h : ∀ a, r = .ok a → f a = g a) : onOk rv r f = onOk rv r g := by
  cases r with
  | ok a => exact h a rfl
  | _ => rfl

theorem out_int (k : IKind) (c : Nat) (rv : Val) : (intDecodeR k b.length c rv).outcome b = intDecode k b c rv := by
  unfold intDecodeR intDecode
  rw [outcome_onOk, out_intBytes]
  refine onOk_cong ?_
  rintro ⟨ob, c'⟩ -
  cases ob <;> rfl

theorem out_uint (k : UKind) (c : Nat) (rv : Val) : (uintDecodeR k b.length c rv).outcome b = uintDecode k b c rv := by
  unfold uintDecodeR uintDecode
  rw [outcome_onOk, out_intBytes]
  refine onOk_cong ?_
  rintro ⟨ob, c'⟩ -
  cases ob <;> rfl

theorem out_float (W : World) (is32 : Bool) (c : Nat) (rv : Val) : (floatDecodeR W is32 b.length c rv).outcome b = floatDecode W is32 b c rv := by
  unfold floatDecodeR floatDecode
  rw [outcome_onOk, out_floatBytes]
  refine onOk_cong ?_
  rintro ⟨ob, c'⟩ -
  cases ob <;> rfl

theorem out_bool (c : Nat) (rv : Val) : (boolDecodeR b.length c rv).outcome b = boolDecode b c rv := by
  unfold boolDecodeR boolDecode
  simp only [outcome_ite, outcome_onOk, outcome_byte, outcome_done, out_validateNull, out_readBool]
  rfl

theorem out_string (c : Nat) (rv : Val) : (stringDecodeR b.length c rv).outcome b = stringDecode b c rv := by
  unfold stringDecodeR stringDecode
  rw [outcome_onOk, out_stringBytes]
  refine onOk_cong ?_
  rintro ⟨ob, c'⟩ -
  cases ob <;> rfl

theorem out_wrapped (W : World) (t : Ty) (c : Nat) (rv : Val) : (wrappedDecodeR W t b.length c rv).outcome b = wrappedDecode W t b c rv := by
  unfold wrappedDecodeR wrappedDecode
  rw [outcome_onOk, out_stringBytes]
  refine onOk_cong ?_
  rintro ⟨ob, c'⟩ -
  cases ob <;> rfl

/-! ### Pointers, slices and arrays -/

theorem out_ptr {inner : Nat → Nat → Val → DR} {innerR : Nat → Nat → Val → Reader DR} (h : ∀ c d v, (innerR c d v).outcome b = inner c d v) (z : Val) (c d : Nat)
    (rv : Val) : (ptrDecodeR innerR z b.length c d rv).outcome b = ptrDecode inner z b c d rv := by
  unfold ptrDecodeR ptrDecode
  rw [outcome_onOk, outcome_byte]
  refine onOk_cong fun x _ => ?_
  rw [outcome_ite, outcome_onOk, out_validateNull]
  split
  · rfl
  · cases rv <;> simp only [outcome_bind, outcome_done, h]

theorem out_sliceLoop {dec : Nat → Val → DR} {decR : Nat → Val → Reader DR} (h : ∀ c v, (decR c v).outcome b = dec c v) (z : Val) (es : Nat) :
    ∀ {f c : Nat} {sl : List Val} {rv : Val}, (sliceLoopR decR z es b.length f c sl rv).outcome b = sliceLoop dec z es b f c sl rv
  | 0, c, sl, rv => rfl
  | f + 1, c, sl, rv => by
    unfold sliceLoopR sliceLoop
    rw [outcome_ite, outcome_onOk, out_readInt]
    refine ite_same (fun _ => rfl) fun _ => onOk_cong ?_
    rintro ⟨i, c1⟩ -
    dsimp only
    rw [outcome_ite, outcome_ite]
    refine ite_same (fun _ => rfl) fun _ => ite_same (fun _ => rfl) fun _ => ?_
    generalize (if decide (i ≥ sl.length) = true then sl ++ List.replicate (i + 1 - sl.length) z else sl) = sl1
    cases sl1[i]? with
    | none => rfl
    | some v0 =>
      simp only [outcome_bind, h]
      rw [outcome_onOk, outcome_done]
      refine onOk_cong fun c2 _ => ?_
      rw [outcome_ite, outcome_onOk, outcome_byte]
      refine ite_same (fun _ => rfl) fun _ => onOk_cong fun x _ => ?_
      rw [outcome_ite]
      exact ite_same (fun _ => rfl) fun _ => out_sliceLoop h z es

theorem onOk_byteAt {c : Nat} {rv : Val} (h : ¬ (!hasByteR b.length c) = true) :
    (onOk rv (idx b c) fun x => (rv, .err (.maxDepth x c)) : DR) = (rv, .err (.maxDepth (byteAt b c) c)) := by
  have hc : c < b.length := by simpa [hasByteR] using h
  simp only [idx, byteAt, List.getElem?_eq_getElem hc, Option.getD_some, onOk]

theorem out_slice {dec : Nat → Nat → Val → DR} {decR : Nat → Nat → Val → Reader DR} (h : ∀ c d v, (decR c d v).outcome b = dec c d v) (z : Val) (es c d : Nat)
    (rv : Val) : (sliceDecodeR decR z es b.length c d rv).outcome b = sliceDecode dec z es b c d rv := by
  unfold sliceDecodeR sliceDecode
  simp only [outcome_ite, outcome_onOk, outcome_byte, outcome_done, out_validateNull, out_validateEmptyArray, out_readLength,
    out_sliceLoop (fun c v => h c (d + 1) v)]
  exact ite_same (fun _ => rfl) fun h1 => ite_same (fun _ => onOk_byteAt h1) fun _ => rfl

theorem out_bytesDecode {dec : Nat → Nat → Val → DR} {decR : Nat → Nat → Val → Reader DR} (h : ∀ c d v, (decR c d v).outcome b = dec c d v) (z : Val) (c d : Nat)
    (rv : Val) : (bytesDecodeR decR z b.length c d rv).outcome b = bytesDecode dec z b c d rv := by
  unfold bytesDecodeR bytesDecode
  rw [outcome_onOk, outcome_byte]
  refine onOk_cong fun x _ => ?_
  rw [outcome_ite, out_slice h, outcome_onOk, out_stringBytes]
  refine ite_same (fun _ => rfl) fun _ => onOk_cong ?_
  rintro ⟨ob, c'⟩ -
  cases ob <;> rfl

theorem out_arrayLoop {dec : Nat → Val → DR} {decR : Nat → Val → Reader DR} {skip : Nat → Res Nat} {skipR : Nat → Reader (Res Nat)}
    (h : ∀ c v, (decR c v).outcome b = dec c v) (hs : ∀ c, (skipR c).outcome b = skip c) :
    ∀ {f c : Nat} {vs : List Val}, (arrayLoopR decR skipR b.length f c vs).outcome b = arrayLoop dec skip b f c vs
  | 0, c, vs => rfl
  | f + 1, c, vs => by
    unfold arrayLoopR arrayLoop
    rw [outcome_ite, outcome_onOk, out_readInt]
    refine ite_same (fun _ => rfl) fun _ => onOk_cong ?_
    rintro ⟨i, c1⟩ -
    dsimp only
    rw [outcome_ite]
    refine ite_same (fun _ => rfl) fun _ => ?_
    cases vs[i]? with
    | some v0 =>
      simp only [outcome_bind, h, outcome_done]
      rw [outcome_onOk, outcome_done]
      refine onOk_cong fun c2 _ => ?_
      rw [outcome_ite, outcome_onOk, outcome_byte]
      refine ite_same (fun _ => rfl) fun _ => onOk_cong fun x _ => ?_
      rw [outcome_ite]
      exact ite_same (fun _ => rfl) fun _ => out_arrayLoop h hs
    | none =>
      simp only [outcome_bind, hs, outcome_done]
      rw [outcome_onOk, outcome_done]
      refine onOk_cong fun c2 _ => ?_
      rw [outcome_ite, outcome_onOk, outcome_byte]
      refine ite_same (fun _ => rfl) fun _ => onOk_cong fun x _ => ?_
      rw [outcome_ite]
      exact ite_same (fun _ => rfl) fun _ => out_arrayLoop h hs

theorem out_array {dec : Nat → Nat → Val → DR} {decR : Nat → Nat → Val → Reader DR} (h : ∀ c d v, (decR c d v).outcome b = dec c d v) (z : Val) (l c d : Nat)
    (rv : Val) : (arrayDecodeR decR z l b.length c d rv).outcome b = arrayDecode dec z l b c d rv := by
  unfold arrayDecodeR arrayDecode
  simp only [outcome_ite, outcome_onOk, outcome_byte, outcome_done, out_validateNull, out_validateEmptyArray, out_readLength,
    out_arrayLoop (fun c v => h c (d + 1) v) (fun c => out_skipValue c (d + 1))]
  exact ite_same (fun _ => rfl) fun h1 => ite_same (fun _ => onOk_byteAt h1) fun _ => rfl

/-! ### Maps and interfaces -/

theorem out_mapLoop {keyDec valDec : Nat → DR} {keyR valR : Nat → Reader DR} (hk : ∀ c, (keyR c).outcome b = keyDec c) (hv : ∀ c, (valR c).outcome b = valDec c) :
    ∀ {f c : Nat} {es : List (Val × Val)}, (mapLoopR keyR valR b.length f c es).outcome b = mapLoop keyDec valDec b f c es
  | 0, c, es => rfl
  | f + 1, c, es => by
    unfold mapLoopR mapLoop
    simp only [outcome_ite, outcome_bind, hk, hv, outcome_onOk, outcome_done, outcome_byte, out_mapLoop hk hv]
    rfl

theorem out_start (c : Nat) (x : Byte) (e : Err) : (startR b.length c x e).outcome b =
    if x = cO then skipClassName b c >>= fun e => .ok (e + 1) else if x = ca then .ok (c + 1) else .err e := by
  unfold startR
  simp only [outcome_ite, outcome_andThen, outcome_done, out_skipClassName]

theorem out_map {keyDec valDec : Nat → Nat → DR} {keyR valR : Nat → Nat → Reader DR} (hk : ∀ c d, (keyR c d).outcome b = keyDec c d)
    (hv : ∀ c d, (valR c d).outcome b = valDec c d) (c d : Nat) (rv : Val) : (mapDecodeR keyR valR b.length c d rv).outcome b = mapDecode keyDec valDec b c d rv := by
  unfold mapDecodeR mapDecode
  simp only [outcome_ite, outcome_onOk, outcome_byte, outcome_done, out_validateNull, out_start, out_readLength]
  refine ite_same (fun _ => rfl) fun h1 => ite_same (fun _ => onOk_byteAt h1) fun _ => onOk_cong fun x _ => ite_same (fun _ => rfl) fun _ => onOk_cong fun c1 _ => onOk_cong ?_
  rintro ⟨l, c2⟩ -
  refine ite_same (fun _ => rfl) fun _ => onOk_cong fun x _ => ite_same (fun _ => rfl) fun _ => ?_
  cases mapEntries rv with
  | none => rfl
  | some es =>
    simp only [outcome_ite, outcome_onOk, outcome_byte, outcome_done, out_mapLoop (fun c => hk c (d + 1)) (fun c => hv c (d + 1))]
    rfl

theorem out_anyKey (c : Nat) : (anyKeyDecodeR b.length c).outcome b = anyKeyDecode b c := by
  unfold anyKeyDecodeR anyKeyDecode
  simp only [outcome_ite, outcome_onOk, outcome_byte, outcome_done, outcome_bind, out_string, out_int]

theorem out_any (W : World) {anyDec : Nat → Nat → DR} {anyR : Nat → Nat → Reader DR} (h : ∀ c d, (anyR c d).outcome b = anyDec c d) (c d : Nat) (rv : Val) :
    (anyDecodeR W anyR b.length c d rv).outcome b = anyDecode W anyDec b c d rv := by
  unfold anyDecodeR anyDecode
  simp only [outcome_ite, outcome_onOk, outcome_byte, outcome_done, outcome_bind, out_int, out_float, out_readString, out_readBool, out_validateNull,
    out_map (fun c _ => out_string c (.str [])) h, out_map (fun c _ => out_anyKey c) h]

theorem out_argument (c d : Nat) : (argumentR b.length c d).outcome b = skipValue b c d >>= fun e => sub b c e >>= fun t => .ok (t, e) := by
  unfold argumentR
  simp only [out_fetch, outcome_andThen, outcome_done, out_skipValue, res_bind_bind]
  simp only [← res_bind_bind, sub_fetch]

theorem onOk_bind {α β γ : Type} {rv : Val} {r : Res α} {f : α → Res β} {g : β → Val × Res γ} : onOk rv (r >>= f) g = onOk rv r fun a => onOk rv (f a) g := by
  cases r <;> rfl

theorem out_dyn (W : World) (t : Ty) (v : Val) (c d : Nat) (rv : Val) : (dynDecodeR W t v b.length c d rv).outcome b = dynDecode W t v b c d rv := by
  unfold dynDecodeR dynDecode
  rw [outcome_onOk, out_argument, onOk_bind]
  simp only [onOk_bind]
  rfl

theorem out_iface (W : World) (c d : Nat) (rv : Val) : (ifaceDecodeR W b.length c d rv).outcome b = ifaceDecode W b c d rv := by
  unfold ifaceDecodeR ifaceDecode
  cases rv
  case iface t v =>
    dsimp only
    cases W.dynUnm t
    · simp only [Bool.false_eq_true, if_false, outcome_ite, outcome_onOk, outcome_byte, outcome_done, out_validateNull]
    · exact out_dyn ..
  all_goals simp only [outcome_ite, outcome_onOk, outcome_byte, outcome_done, out_validateNull]

theorem out_unmarshalDecode (W : World) (id c d : Nat) (rv : Val) : (unmarshalDecodeR W id b.length c d rv).outcome b = unmarshalDecode W id b c d rv := by
  unfold unmarshalDecodeR unmarshalDecode
  rw [outcome_onOk, out_argument, onOk_bind]
  simp only [onOk_bind]
  rfl

/-! ### Structs -/

theorem out_decodeKey (sets : List FieldSet) (c : Nat) : (decodeKeyR sets b.length c).outcome b = decodeKey sets b c := by
  unfold decodeKeyR decodeKey
  simp only [outcome_andThen, outcome_done, out_stringBytes]

theorem out_structLoop {sets : List FieldSet} {dec : FieldSet → Nat → Val → DR} {decR : FieldSet → Nat → Val → Reader DR} {skip : Nat → Res Nat}
    {skipR : Nat → Reader (Res Nat)} (h : ∀ s c v, (decR s c v).outcome b = dec s c v) (hs : ∀ c, (skipR c).outcome b = skip c) :
    ∀ {f c : Nat} {vs : List Val}, (structLoopR sets decR skipR b.length f c vs).outcome b = structLoop sets dec skip b f c vs
  | 0, c, vs => rfl
  | f + 1, c, vs => by
    have tail : ∀ (vs : List Val) (r : Res Nat), (Reader.onOk (.struct vs) (done r) fun c =>
        if !hasByteR b.length c then done (.struct vs, .err (.unexpectedEnd "object" c)) else
        (Reader.byte c).onOk (.struct vs) fun x =>
        if x = cRBrace then done (.struct vs, .ok (c + 1)) else structLoopR sets decR skipR b.length f c vs).outcome b =
        onOk (.struct vs) r fun c =>
        if !hasByte b c then (.struct vs, .err (.unexpectedEnd "object" c)) else
        onOk (.struct vs) (idx b c) fun x =>
        if x = cRBrace then (.struct vs, .ok (c + 1)) else structLoop sets dec skip b f c vs := by
      intro vs r
      simp only [outcome_onOk, outcome_done, outcome_ite, outcome_byte, out_structLoop h hs]
      rfl
    unfold structLoopR structLoop
    rw [outcome_ite, outcome_onOk, out_decodeKey]
    refine ite_same (fun _ => rfl) fun _ => onOk_cong ?_
    rintro ⟨fld, c1⟩ -
    dsimp only
    rw [outcome_ite]
    refine ite_same (fun _ => rfl) fun _ => ?_
    cases fld with
    | some s =>
      dsimp only
      cases vs[s.idx]? with
      | some v0 => simp only [outcome_bind, h, outcome_done, tail]
      | none => simp only [outcome_bind, outcome_done, tail]
    | none => simp only [outcome_bind, hs, outcome_done, tail]

theorem out_struct (sets : List FieldSet) {dec : FieldSet → Nat → Nat → Val → DR} {decR : FieldSet → Nat → Nat → Val → Reader DR}
    (h : ∀ s c d v, (decR s c d v).outcome b = dec s c d v) (c d : Nat) (rv : Val) :
    (structDecodeR sets decR b.length c d rv).outcome b = structDecode sets dec b c d rv := by
  unfold structDecodeR structDecode
  simp only [outcome_ite, outcome_onOk, outcome_byte, outcome_done, out_validateNull, out_start, out_skipLength]
  have hl := fun {f c : Nat} {vs : List Val} => out_structLoop (b := b) (sets := sets) (fun s c v => h s c (d + 1) v) (fun c => out_skipValue c (d + 1)) (f := f) (c := c) (vs := vs)
  cases rv
  case struct vs =>
    simp only [hl]
    exact ite_same (fun _ => rfl) fun h1 => ite_same (fun _ => onOk_byteAt h1) fun _ => rfl
  all_goals exact ite_same (fun _ => rfl) fun h1 => ite_same (fun _ => onOk_byteAt h1) fun _ => rfl

/-! ### Dispatch -/

theorem out_ptrKey {scratch : DR} {scratchR : Reader DR} (h : scratchR.outcome b = scratch) (c : Nat) :
    (ptrKeyDecodeR scratchR b.length c).outcome b = ptrKeyDecode scratch b c := by
  unfold ptrKeyDecodeR ptrKeyDecode
  simp only [outcome_ite, outcome_onOk, outcome_byte, outcome_done, out_validateNull, outcome_bind, h]

theorem out_key (W : World) {anyDec : Nat → Nat → DR} {anyR : Nat → Nat → Reader DR} (h : ∀ c d, (anyR c d).outcome b = anyDec c d) (k : Ty) (c d : Nat) :
    (keyDecodeR W anyR b.length k c d).outcome b = keyDecode W anyDec b k c d := by
  unfold keyDecodeR keyDecode
  cases W.unmOf k with
  | some id => exact out_unmarshalDecode ..
  | none =>
    dsimp only
    cases W.resolve k
    case str => exact out_string ..
    case bool => exact out_bool ..
    case int => exact out_int ..
    case uint => exact out_uint ..
    case any => exact out_any W h ..
    case iface => exact out_iface ..
    case ptr e =>
      dsimp only
      cases W.unmOf e with
      | some id => rfl
      | none =>
        dsimp only
        cases W.resolve e
        case str => exact out_ptrKey (out_string ..) c
        case bool => exact out_ptrKey (out_bool ..) c
        case int => exact out_ptrKey (out_int ..) c
        case uint => exact out_ptrKey (out_uint ..) c
        case any => exact out_ptrKey (out_any W h ..) c
        case iface => exact out_ptrKey (out_any W h ..) c
        all_goals rfl
    all_goals rfl

theorem out_field (W : World) {rec : Ty → Nat → Nat → Val → DR} {recR : Ty → Nat → Nat → Val → Reader DR} (h : ∀ t c d v, (recR t c d v).outcome b = rec t c d v)
    (s : FieldSet) (c d : Nat) (rv : Val) : (fieldDecodeR W recR b.length s c d rv).outcome b = fieldDecode W rec b s c d rv := by
  unfold fieldDecodeR fieldDecode
  rw [outcome_ite]
  refine ite_same (fun _ => ?_) fun _ => h ..
  cases W.resolve s.ty <;> dsimp only <;> rw [outcome_ite]
  case ptr e => exact ite_same (fun _ => out_ptr (fun c _ v => out_wrapped W e c v) ..) fun _ => rfl
  all_goals exact ite_same (fun _ => out_wrapped ..) fun _ => rfl

theorem out_nonPtr (W : World) {rec : Ty → Nat → Nat → Val → DR} {recR : Ty → Nat → Nat → Val → Reader DR} (h : ∀ t c d v, (recR t c d v).outcome b = rec t c d v)
    (t : Ty) (c d : Nat) (rv : Val) : (decodeNonPtrR W recR b.length t c d rv).outcome b = decodeNonPtr W rec b t c d rv := by
  unfold decodeNonPtrR decodeNonPtr
  cases W.unmOf t with
  | some id => exact out_unmarshalDecode ..
  | none =>
    dsimp only
    cases W.resolve t
    case bool => exact out_bool ..
    case int => exact out_int ..
    case uint => exact out_uint ..
    case f32 => exact out_float ..
    case f64 => exact out_float ..
    case str => exact out_string ..
    case slice e =>
      dsimp only
      rw [outcome_ite]
      exact ite_same (fun _ => out_bytesDecode (h e) ..) fun _ => out_slice (h e) ..
    case array l e => exact out_array (h e) ..
    case map k v => exact out_map (fun c d => out_key W (fun c d => h .any c d .ifaceNil) k c d) (fun c d => h v c d (W.zero v)) ..
    case struct id => exact out_struct _ (fun s c d v => out_field W h s c d v) ..
    case any => exact out_any W (fun c d => h .any c d .ifaceNil) ..
    case iface => exact out_iface ..
    all_goals rfl

theorem out_decode (W : World) : ∀ {f : Nat} {t : Ty} {c d : Nat} {rv : Val}, (decodeFR W b.length f t c d rv).outcome b = decodeF W b f t c d rv
  | 0, t, c, d, rv => rfl
  | f + 1, t, c, d, rv => by
    have h := fun t c d v => out_decode W (f := f) (t := t) (c := c) (d := d) (rv := v)
    unfold decodeFR decodeF
    cases W.unmOf t with
    | some id => exact out_nonPtr W h ..
    | none =>
      cases W.resolve t
      case ptr e =>
        dsimp only
        rw [outcome_ite]
        exact ite_same (fun _ => rfl) fun _ => out_ptr (fun c d v => out_nonPtr W h _ c d v) ..
      all_goals exact out_nonPtr W h ..

theorem out_validateEnd (c : Nat) : (validateEndBufR b.length c).outcome b = validateEndBuf b c := by
  unfold validateEndBufR validateEndBuf
  simp only [outcome_ite, outcome_andThen, outcome_byte, outcome_done]

/-- The reader of a whole call comes to what the call does. -/
theorem out_unmarshal (W : World) (fuel : Nat) (t : Ty) (v : Val) : (unmarshalR W fuel b.length t v).outcome b = unmarshalInto W fuel b t v := by
  unfold unmarshalR unmarshalInto
  simp only [outcome_onOk, outcome_done, outcome_bind, out_decode, out_validateEnd]

end Lex
end Verif

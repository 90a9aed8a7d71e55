import Verif.Props.Demo
import Verif.Proofs.LooksDec
/-
C74: every byte of the input is looked at at most five times, and nothing else of the input matters.
-/
namespace Verif
open Demo

/-- The reader of a call comes to what the call comes to: `unmarshalR` has only the length of the input, and asks for every byte that it uses. -/
theorem C74_reads (W : World) (fuel : Nat) (data : Bytes) (t : Ty) (v : Val) :
    (unmarshalR W fuel data.length t v).outcome data = unmarshalInto W fuel data t v := out_unmarshal W fuel t v

example : (unmarshalR W 9 (b! "a:1:{i:0;b:1;}").length (.slice .bool) .sliceNil).outcome (b! "a:1:{i:0;b:1;}") = (.slice [.bool true], .ok ()) := by krfl

/-- **C74.** No byte of the input is looked at more than five times, whatever the input, the destination and the outcome are. -/
theorem C74 (W : World) (fuel : Nat) {data : Bytes} (hlen : data.length < 2 ^ 63) (t : Ty) (v : Val) (i : Nat) :
    ((unmarshalR W fuel data.length t v).seen data).count i ≤ 5 := unmarshalR_looks hlen W fuel t v i

/-- The looks of an input `b:1;`: its first byte twice, the others once. -/
example : (unmarshalR W 9 4 .bool (.bool false)).seen (b! "b:1;") = [0, 0, 1, 2, 3] := by krfl

/-- Five cannot be made four: the second key of this map is looked at when '}' is looked for, as the key of a pointer type, as an interface, as an integer or
`N`, and as an integer. -/
example : ((unmarshalR W 9 (b! "a:2:{N;i:1;i:2;i:3;}").length (.map (.ptr .any) (.int .i64)) .mapNil).seen (b! "a:2:{N;i:1;i:2;i:3;}")).count 11 = 5 := by krfl

/-- All looks together. -/
theorem C74_total (W : World) (fuel : Nat) {data : Bytes} (hlen : data.length < 2 ^ 63) (t : Ty) (v : Val) :
    ((unmarshalR W fuel data.length t v).seen data).length ≤ 5 * data.length := length_of_counts seen_inside (C74 W fuel hlen t v)

example : ((unmarshalR W 9 (b! "a:1:{i:0;b:1;}").length (.slice .bool) .sliceNil).seen (b! "a:1:{i:0;b:1;}")).length = 22 := by krfl

/-- Only the length of the input and the bytes looked at matter: another input of the same length that has the same bytes at those positions is looked at in the
same order and gives the same value and the same outcome. -/
theorem C74_only (W : World) (fuel : Nat) {data data' : Bytes} (t : Ty) (v : Val) (hlen : data'.length = data.length)
    (h : ∀ i ∈ (unmarshalR W fuel data.length t v).seen data, data'[i]? = data[i]?) :
    unmarshalInto W fuel data' t v = unmarshalInto W fuel data t v ∧
      (unmarshalR W fuel data'.length t v).seen data' = (unmarshalR W fuel data.length t v).seen data := by
  have := outcome_agree hlen h
  rw [← C74_reads, ← C74_reads, hlen]
  exact this

/-- The content of a string that is skipped is not looked at: the value of the unknown key `z` of this object. -/
example : ∀ i ∈ (unmarshalR W 9 (b! "a:1:{s:1:\"z\";s:3:\"abc\";}").length (.struct 0) (W.zero (.struct 0))).seen (b! "a:1:{s:1:\"z\";s:3:\"abc\";}"),
    (b! "a:1:{s:1:\"z\";s:3:\"x;y\";}")[i]? = (b! "a:1:{s:1:\"z\";s:3:\"abc\";}")[i]? := by
  have h : (unmarshalR W 9 (b! "a:1:{s:1:\"z\";s:3:\"abc\";}").length (.struct 0) (W.zero (.struct 0))).seen (b! "a:1:{s:1:\"z\";s:3:\"abc\";}") =
    [0, 1, 1, 2, 3, 3, 4, 5, 5, 6, 7, 8, 8, 7, 9, 11, 12, 10, 13, 13, 14, 15, 16, 16, 15, 17, 21, 22, 23] := by krfl
  rw [h]
  decide

end Verif

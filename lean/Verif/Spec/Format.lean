import Verif.Model.Base
/-
Independent specification of the PHP serialization format (https://www.php.net/serialize):
decimal numerals, document trees, their text, and well-formedness. Nothing here comes from /repo.
-/
namespace Verif.Spec

open Verif (Bytes Byte)

/-- ASCII '0'..'9'. -/
def IsDigit (c : Byte) : Prop := 48 ≤ c.toNat ∧ c.toNat ≤ 57

instance : DecidablePred IsDigit := fun c => inferInstanceAs (Decidable (48 ≤ c.toNat ∧ c.toNat ≤ 57))

/-- Value of a digit string read as a decimal number, most significant digit first. -/
def digitsVal (ds : Bytes) : Nat := ds.foldl (fun acc c => acc * 10 + (c.toNat - 48)) 0

/-- A non-empty string of digits. -/
def IsDigits (ds : Bytes) : Prop := ds ≠ [] ∧ ∀ c ∈ ds, IsDigit c

/-- An integer text: optional '-' and digits, together with its mathematical value. -/
inductive IntText : Bytes → Int → Prop
  | pos {ds} : IsDigits ds → IntText ds (digitsVal ds)
  | neg {ds} : IsDigits ds → IntText (45 :: ds) (-(digitsVal ds : Int))

/-- `txt` is a decimal numeral (leading zeros allowed) for `n`, and `n` fits a signed 64-bit number. -/
def LenText (txt : Bytes) (n : Nat) : Prop := IsDigits txt ∧ digitsVal txt = n ∧ n < 2 ^ 63

/-- Canonical decimal numeral of `n`, with enough fuel. -/
def natTextF : Nat → Nat → Bytes
  | 0, n => [UInt8.ofNat (48 + n % 10)]
  | f + 1, n => if n < 10 then [UInt8.ofNat (48 + n)] else natTextF f (n / 10) ++ [UInt8.ofNat (48 + n % 10)]

/-- Canonical decimal numeral of a natural number. -/
def natText (n : Nat) : Bytes := natTextF n n

/-- Canonical decimal numeral of an integer. -/
def intText : Int → Bytes
  | .ofNat n => natText n
  | .negSucc n => 45 :: natText (n + 1)

/-- A document: the tree structure of a serialized text, keeping the texts of numbers, lengths and counts. -/
inductive Doc where
  | null
  | bool (b : Bool)
  /-- text between `i:` and `;` -/
  | int (txt : Bytes)
  /-- text between `d:` and `;` -/
  | float (txt : Bytes)
  | str (len : Bytes) (s : Bytes)
  | arr (cnt : Bytes) (es : List (Doc × Doc))
  | obj (clen : Bytes) (cls : Bytes) (cnt : Bytes) (es : List (Doc × Doc))

mutual
/-- The text of a document. -/
def Doc.text : Doc → Bytes
  | .null => [78, 59]                                  -- N;
  | .bool b => [98, 58, if b then 49 else 48, 59]      -- b:1;
  | .int t => [105, 58] ++ t ++ [59]                   -- i:5;
  | .float t => [100, 58] ++ t ++ [59]                 -- d:0.5;
  | .str len s => [115, 58] ++ len ++ [58, 34] ++ s ++ [34, 59]   -- s:3:"abc";
  | .arr cnt es => [97, 58] ++ cnt ++ [58, 123] ++ pairsText es ++ [125]  -- a:1:{kv}
  | .obj clen cls cnt es =>                            -- O:3:"cls":1:{kv}
    [79, 58] ++ clen ++ [58, 34] ++ cls ++ [34, 58] ++ cnt ++ [58, 123] ++ pairsText es ++ [125]
/-- The text of a list of key/value pairs. -/
def pairsText : List (Doc × Doc) → Bytes
  | [] => []
  | (k, v) :: es => k.text ++ v.text ++ pairsText es
end

/-- `Strict n d`: document `d` is well-formed (lengths and counts are exact) and nests at most `n` containers. -/
inductive Strict : Nat → Doc → Prop
  | null {n} : Strict n .null
  | bool {n b} : Strict n (.bool b)
  | int {n t i} : IntText t i → Strict n (.int t)
  | float {n t} : t ≠ [] → (59 : Byte) ∉ t → Strict n (.float t)
  | str {n len s} : LenText len s.length → Strict n (.str len s)
  | arr {n cnt es} : LenText cnt es.length →
      (∀ k v, (k, v) ∈ es → Strict n k) → (∀ k v, (k, v) ∈ es → Strict n v) → Strict (n + 1) (.arr cnt es)
  | obj {n clen cls cnt es} : LenText clen cls.length → LenText cnt es.length →
      (∀ k v, (k, v) ∈ es → Strict n k) → (∀ k v, (k, v) ∈ es → Strict n v) →
      Strict (n + 1) (.obj clen cls cnt es)

/-- `Lax n d`: like `Strict`, but declared counts of containers may be any numeral. -/
inductive Lax : Nat → Doc → Prop
  | null {n} : Lax n .null
  | bool {n b} : Lax n (.bool b)
  | int {n t i} : IntText t i → Lax n (.int t)
  | float {n t} : t ≠ [] → (59 : Byte) ∉ t → Lax n (.float t)
  | str {n len s} : LenText len s.length → Lax n (.str len s)
  | arr {n cnt es} : IsDigits cnt →
      (∀ k v, (k, v) ∈ es → Lax n k) → (∀ k v, (k, v) ∈ es → Lax n v) → Lax (n + 1) (.arr cnt es)
  | obj {n clen cls cnt es} : LenText clen cls.length → IsDigits cnt →
      (∀ k v, (k, v) ∈ es → Lax n k) → (∀ k v, (k, v) ∈ es → Lax n v) →
      Lax (n + 1) (.obj clen cls cnt es)

mutual
/-- Number of containers nested in each other in a document. -/
def Doc.depth : Doc → Nat
  | .arr _ es => pairsDepth es + 1
  | .obj _ _ _ es => pairsDepth es + 1
  | _ => 0
/-- The largest depth among keys and values. -/
def pairsDepth : List (Doc × Doc) → Nat
  | [] => 0
  | (k, v) :: es => max (max k.depth v.depth) (pairsDepth es)
end

end Verif.Spec

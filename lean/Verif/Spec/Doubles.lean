import Verif.Model.Json.Types
import Mathlib.Data.Rat.Defs
import Mathlib.Algebra.Order.Field.Rat
import Mathlib.Algebra.Order.Group.Unbundled.Abs
/-
  Decimal numerals, IEEE 754 doubles, and what the C library does with them, as exact rational numbers.
-/
namespace Reflect.Json

/-! ### decimal numerals -/

/-- an ASCII decimal digit -/
def isDec (c : Byte) : Bool := 48 ≤ c.toNat && c.toNat ≤ 57

/-- the number that decimal digits stand for -/
def digitsValue (ds : Bytes) : Nat := ds.foldl (fun n c => 10 * n + (c.toNat - 48)) 0

/-- the exponent of a numeral: nothing, or `e` or `E`, an optional sign, and digits -/
def exponent : Bytes → Option Int
  | [] => some 0
  | c :: ds =>
    if c = 101 ∨ c = 69 then
      match ds with
      | 43 :: ds => if ds ≠ [] ∧ ds.all isDec then some (digitsValue ds) else none
      | 45 :: ds => if ds ≠ [] ∧ ds.all isDec then some (-(digitsValue ds : Int)) else none
      | ds => if ds ≠ [] ∧ ds.all isDec then some (digitsValue ds) else none
    else none

/-- the fraction of a numeral: the digits behind a point; and what follows -/
def fraction : Bytes → Bytes × Bytes
  | 46 :: s => (s.takeWhile isDec, s.dropWhile isDec)
  | s => ([], s)

/-- the absolute value of a numeral without a sign -/
def unsigned (s : Bytes) : Option ℚ :=
  let i := s.takeWhile isDec
  let p := fraction (s.dropWhile isDec)
  if i = [] then none
  else (exponent p.2).map fun (e : Int) => digitsValue (i ++ p.1) * (10 : ℚ) ^ (e - (p.1.length : Int))

/-- the number a decimal numeral stands for -/
def numeral : Bytes → Option ℚ
  | 45 :: s => (unsigned s).map (- ·)
  | s => unsigned s

/-! ### doubles -/

/-- the sign bit -/
def signBit (x : UInt64) : Bool := 2 ^ 63 ≤ x.toNat
/-- the biased exponent -/
def expBits (x : UInt64) : Nat := x.toNat / 2 ^ 52 % 2 ^ 11
/-- the fraction -/
def fracBits (x : UInt64) : Nat := x.toNat % 2 ^ 52

/-- neither infinite nor NaN -/
def IsFinite (x : UInt64) : Prop := expBits x < 2047

/-- the absolute value of a double -/
def magnitude (x : UInt64) : ℚ :=
  if expBits x = 0 then fracBits x * (2 : ℚ) ^ (-1074 : Int) else (2 ^ 52 + fracBits x) * (2 : ℚ) ^ ((expBits x : Int) - 1075)

/-- the number a double is -/
def real (x : UInt64) : ℚ := if signBit x then - magnitude x else magnitude x

/-- in the range of the doubles that have full precision -/
def Normal (v : ℚ) : Prop := (2 : ℚ) ^ (-1022 : Int) ≤ |v| ∧ |v| ≤ (2 ^ 53 - 1) * (2 : ℚ) ^ (971 : Int)

/-- no double is nearer to `v` than `x` -/
def Nearest (x : UInt64) (v : ℚ) : Prop := IsFinite x ∧ ∀ y, IsFinite y → |real x - v| ≤ |real y - v|

/-! ### the C library -/

/-- `Rounded r D X`: rounded to twelve significant digits, `r` is `D`, a number of twelve digits, times `10^(X-11)`.
Here `k` is the exponent of `r`, and rounding may carry. -/
def Rounded (r : ℚ) (D : Nat) (X : Int) : Prop :=
  ∃ (k : Int) (n : Nat), (10 : ℚ) ^ k ≤ r ∧ r < (10 : ℚ) ^ (k + 1) ∧ |n * (10 : ℚ) ^ (k - 11) - r| ≤ (10 : ℚ) ^ (k - 11) / 2 ∧
    10 ^ 11 ≤ n ∧ ((n < 10 ^ 12 ∧ D = n ∧ X = k) ∨ (n = 10 ^ 12 ∧ D = 10 ^ 11 ∧ X = k + 1))

/-- without the zeros at the end -/
def noZeros (s : Bytes) : Bytes := (s.reverse.dropWhile (· = 48)).reverse

/-- a fraction, if there is one, with the point -/
def pointed (f : Bytes) : Bytes := if f = [] then [] else 46 :: f

/-- What `%1.12g` writes of `D * 10^(X-11)` (C17 7.21.6.1): in fixed notation if `-4 ≤ X < 12`, otherwise with an exponent
of at least two digits; zeros at the end of the fraction are left out. -/
def gText (neg : Bool) (D : Nat) (X : Int) : Bytes :=
  (if neg then [45] else []) ++
  (if -4 ≤ X ∧ X < 12 then
    if 0 ≤ X then (decDigits D).take (X.toNat + 1) ++ pointed (noZeros ((decDigits D).drop (X.toNat + 1)))
    else 48 :: pointed (noZeros (List.replicate (-X - 1).toNat 48 ++ decDigits D))
  else (decDigits D).take 1 ++ pointed (noZeros ((decDigits D).drop 1)) ++
    101 :: (if X < 0 then 45 else 43) :: (if X.natAbs < 10 then [48] else []) ++ decDigits X.natAbs)

/-- The C library converts correctly: `std::stod` gives the nearest double, and what it gives depends on the number only;
`snprintf("%1.12g")` rounds the number to twelve digits, and writes `0`, `-0`, `inf`, `-inf`, `nan` or `-nan` if there are
none. -/
structure Correct (env : Env) : Prop where
  reads : ∀ s v, numeral s = some v → Normal v → ∃ x, env.stod s = .ok x ∧ Nearest x v
  same : ∀ s t v, numeral s = some v → numeral t = some v → Normal v → env.stod s = env.stod t
  prints : ∀ x, IsFinite x → magnitude x ≠ 0 → ∃ D X, Rounded (magnitude x) D X ∧ env.fmtG x = gText (signBit x) D X
  zero : ∀ x, magnitude x = 0 → env.fmtG x = (if signBit x then [45] else []) ++ [48]
  other : ∀ x, ¬ IsFinite x → ∃ t, (t = [105, 110, 102] ∨ t = [110, 97, 110]) ∧ env.fmtG x = (if signBit x then [45] else []) ++ t

/-- a number of at most twelve significant digits -/
def Twelve (v : ℚ) : Prop := ∃ (d : Nat) (q : Int), 0 < d ∧ d < 10 ^ 12 ∧ |v| = d * (10 : ℚ) ^ q

end Reflect.Json

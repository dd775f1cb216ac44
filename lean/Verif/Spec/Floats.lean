import Mathlib.Data.Rat.Defs
import Mathlib.Algebra.Order.Field.Rat
/-
  Floating point numbers in the binary formats of IEEE 754, as exact rational numbers: from the lowest bit on, `fb` bits of
  fraction, `eb` bits of exponent and a sign.  `float` is 8 and 23, `double` is 11 and 52.
-/
namespace Reflect

def ieeeExp (eb fb c : Nat) : Nat := c / 2 ^ fb % 2 ^ eb
def ieeeFrac (fb c : Nat) : Nat := c % 2 ^ fb

/-- neither infinite nor NaN -/
def IeeeFinite (eb fb c : Nat) : Prop := ieeeExp eb fb c < 2 ^ eb - 1

/-- with the full precision of the format -/
def IeeeNormal (eb fb c : Nat) : Prop := 1 ≤ ieeeExp eb fb c ∧ ieeeExp eb fb c < 2 ^ eb - 1

/-- the exponent of the last place of the numbers whose biased exponent is `e` -/
def ieeePlace (eb fb e : Nat) : Int := (e : Int) - (2 ^ (eb - 1) - 1 : Nat) - (fb : Int)

/-- the absolute value -/
def ieeeAbs (eb fb c : Nat) : ℚ :=
  if ieeeExp eb fb c = 0 then ieeeFrac fb c * (2 : ℚ) ^ ieeePlace eb fb 1
  else (2 ^ fb + ieeeFrac fb c) * (2 : ℚ) ^ ieeePlace eb fb (ieeeExp eb fb c)

/-- the number -/
def ieee (eb fb c : Nat) : ℚ := if c / 2 ^ (eb + fb) % 2 = 1 then - ieeeAbs eb fb c else ieeeAbs eb fb c

end Reflect

import Verif.Model.Numbers
import Verif.Model.Traits
/-
  The traits "min" and "max" of reflected numbers (src/types/primitives.tcc:22-23, 36-37):

      #define reflectLimit(name) type_->addTrait(#name, std::numeric_limits<T_>::name())
      reflectLimit(min); reflectLimit(max);

  Floating point numbers are their bits, in the formats of IEEE 754.
-/
namespace Reflect

/-- the bits of `std::numeric_limits<T>::min()` -/
def NumT.minBits (w : Nat) (signed : Bool) : Nat := if signed then NumT.bits w (-2 ^ (w - 1)) else 0

/-- the bits of `std::numeric_limits<T>::max()` -/
def NumT.maxBits (w : Nat) (signed : Bool) : Nat := NumT.bits w (if signed then 2 ^ (w - 1) - 1 else 2 ^ w - 1)

/-- `reflectLimit(name)`, primitives.tcc:22-23: the number is a temporary that the template `addTrait(trait, T&&)` is given -/
def Prog.addLimit (p : Prog) (hp : Heap) (m : Traits) (t : Ty) (name : Name) (c : Nat) : Res (Heap × Traits) :=
  p.addTraitOf (hp.newObj (fun _ => c) 1).1 m name t.rref (hp.newObj (fun _ => c) 1).2

/-- primitives.tcc:36-37, given the bits of `std::numeric_limits<T_>::min()` and `std::numeric_limits<T_>::max()` -/
def Prog.addLimitsOf (p : Prog) (hp : Heap) (m : Traits) (t : Ty) (lo hi : Nat) : Res (Heap × Traits) :=
  match p.addLimit hp m t "min".toList lo with
  | .error e => .error e
  | .ok (hp', m') => p.addLimit hp' m' t "max".toList hi

/-- primitives.tcc:36-37 for integers -/
def Prog.addLimits (p : Prog) (hp : Heap) (m : Traits) (t : Ty) (w : Nat) (signed : Bool) : Res (Heap × Traits) :=
  p.addLimitsOf hp m t (NumT.minBits w signed) (NumT.maxBits w signed)

/-- the bits of `std::numeric_limits<T>::min()` of a floating point type with `eb` bits of exponent and `fb` of fraction: the
least exponent of a normal number, and no fraction (C++17 21.3.4.1: "for floating types with subnormal numbers, returns the
minimum positive normalized value") -/
def NumT.floatMinBits (fb : Nat) : Nat := 2 ^ fb

/-- the bits of `std::numeric_limits<T>::max()` of such a type: the greatest exponent of a finite number and the greatest
fraction -/
def NumT.floatMaxBits (eb fb : Nat) : Nat := (2 ^ eb - 2) * 2 ^ fb + (2 ^ fb - 1)

/-- primitives.tcc:36-37 for floating point numbers -/
def Prog.addFloatLimits (p : Prog) (hp : Heap) (m : Traits) (t : Ty) (eb fb : Nat) : Res (Heap × Traits) :=
  p.addLimitsOf hp m t (NumT.floatMinBits fb) (NumT.floatMaxBits eb fb)

end Reflect

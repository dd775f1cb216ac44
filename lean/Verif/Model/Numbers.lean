import Verif.Model.Vector
/-
  The one function of reflected numbers, `operator+` (src/types/primitives.tcc:40-42):

      reflectCustom(operator+) (const T_& obj, T_ value) { return obj + value; };

  The lambda returns what C++ makes of `obj + value`: both are promoted first ([conv.prom]), so for types narrower than `int` the
  sum is an `int`; a sum of signed numbers that does not fit is undefined ([expr.pre]), one of unsigned numbers wraps
  ([basic.fundamental]).

  A number is an object of one cell with its bits, the negative ones in two's complement. Floating point addition is
  a parameter: what the machine makes of the bits.
-/
namespace Reflect

/-- an arithmetic type of C++; `width` and `signed` as `std::numeric_limits` has them, `bool` has one bit -/
inductive NumT where
  | int (width : Nat) (signed : Bool)
  | float (add : Nat → Nat → Nat)

/-- the width of `int` -/
def intWidth : Nat := 32

namespace NumT

/-- the number that the bits `c` are -/
def value (w : Nat) (signed : Bool) (c : Nat) : Int :=
  if signed ∧ 2 ^ (w - 1) ≤ c then (c : Int) - 2 ^ w else c

/-- the bits of a number; those beyond the width are cut off -/
def bits (w : Nat) (v : Int) : Nat := (v % 2 ^ w).toNat

/-- integral promotion: `int` has all values of the narrower types -/
def promoted : NumT → NumT
  | int w s => if w < intWidth then int intWidth true else int w s
  | float add => float add

/-- the bits of the sum of two numbers of the same type, as one of its promoted type -/
def sum (t : NumT) (c d : Nat) : Res Nat :=
  match t, t.promoted with
  | int w s, int w' s' =>
    let v := value w s c + value w s d
    if s' ∧ (v < -2 ^ (w' - 1) ∨ 2 ^ (w' - 1) ≤ v) then .error .ub else .ok (bits w' v)
  | float add, _ => .ok (add c d)
  | _, _ => .error .ub

end NumT

/-- `obj + value`, primitives.tcc:40-42 -/
def numPlus (t : NumT) (hp : Heap) (a b : Nat) : Res (Heap × BRet) :=
  if hp.Ok a 1 ∧ hp.Ok b 1 then
    match t.sum (hp.mem a) (hp.mem b) with
    | .error e => .error e
    | .ok c =>
      let r := hp.newObj (fun _ => c) 1
      .ok (r.1, .obj r.2)
  else .error .ub

/-- `v.call<Value>("operator+", x)` for one number after the other, each to the sum so far -/
def Prog.addAll (p : Prog) (fuel : Nat) : Heap → Handle → List Actual → Res (Heap × Handle)
  | hp, v, [] => .ok (hp, v)
  | hp, v, x :: xs =>
    match p.callMethod fuel hp v "operator+".toList p.valueArg [x] with
    | .ok (hp', some (.val u)) => p.addAll fuel hp' u xs
    | .ok _ => .error .ub
    | .error e => .error e

end Reflect

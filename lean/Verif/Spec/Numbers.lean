import Verif.Model.Numbers
/-
  The integers of C++: which numbers a type has, and which bits stand for which number.
-/
namespace Reflect

/-- the integer type of `w` bits has the number `v` -/
def HasInt (w : Nat) (signed : Bool) (v : Int) : Prop :=
  if signed then -2 ^ (w - 1) ≤ v ∧ v < 2 ^ (w - 1) else 0 ≤ v ∧ v < 2 ^ w

instance (w : Nat) (s : Bool) (v : Int) : Decidable (HasInt w s v) := by unfold HasInt; infer_instance

/-- The cell `c` holds the number `v` of that type: `w` bits, of which those of negative numbers are those of `v + 2 ^ w`. -/
def IntCell (w : Nat) (signed : Bool) (c : Nat) (v : Int) : Prop :=
  HasInt w signed v ∧ (c : Int) = if v < 0 then v + 2 ^ w else v

/-- the sums after each of the numbers -/
def runningSums : Int → List Int → List Int
  | _, [] => []
  | s, v :: vs => (s + v) :: runningSums (s + v) vs

end Reflect

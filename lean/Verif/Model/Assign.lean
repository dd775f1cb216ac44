import Verif.Model.Value
/-
  Calling a member function of a value and assigning through a value: src/value.tcc:110-140, with the
  assignment operators that src/dsl/plumbing.h:157-190 registers.

  Simplification: the C++ assignment operators of the reflected classes copy the cells; a move
  assignment leaves in each cell of the source what the arbitrary function `moved` says.
-/
namespace Reflect

namespace Heap

/-- `obj = other`, plumbing.h:161-163, for objects of `n` cells at `a` and `b` -/
def assignObj (h : Heap) (n a b : Nat) : Res Heap :=
  if h.Ok a n ∧ h.Ok b n then
    .ok { h with mem := fun x => if a ≤ x ∧ x < a + n then h.mem (b + (x - a)) else h.mem x }
  else .error .ub

/-- `obj = std::move(other)`, plumbing.h:181-183 -/
def moveAssignObj (h : Heap) (moved : Nat → Nat) (n a b : Nat) : Res Heap :=
  if h.Ok a n ∧ h.Ok b n then
    .ok { h with mem := fun x => if a ≤ x ∧ x < a + n then h.mem (b + (x - a))
                          else if b ≤ x ∧ x < b + n then moved (h.mem x) else h.mem x }
  else .error .ub

end Heap

variable (p : Prog)

/-- `Value::call<Ret>(fn, args...)`, value.tcc:110-117: the overloads come from the type of the value,
    which is then the first argument. -/
def Prog.callMethod (fuel : Nat) (hp : Heap) (v : Handle) (name : Name) (want : Arg) (as : List Actual) :
    Res (Heap × Option BArg) :=
  match p.w.functionF p.w.fuel v.arg.type name with
  | .error x => .error x
  | .ok o => p.callOv fuel hp o want (.dyn v :: as)

/-- `Argument::make<void>()` -/
def Prog.voidArg : Arg := ⟨p.w.voidT, .copy, false⟩

/-- `Value::assign(arg)`, value.tcc:134-140 -/
def Prog.assign (fuel : Nat) (hp : Heap) (v : Handle) (x : Actual) : Res Heap :=
  (p.callMethod fuel hp v "operator=".toList p.voidArg [x]).map (·.1)

end Reflect

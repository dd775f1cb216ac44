import Verif.Model.Assign
/-
  The operators of `Value`: src/value.h:41-72, 124-167 and src/value.cpp:126-139. They call the function
  of the same name of the value's type.
-/
namespace Reflect

variable (p : Prog)

/-- `reflectValueOpUnary/Binary/Nary`, value.h:44-55, 65-70: `call<Value>(#op, args...)`. The macros are
    used for `+= -= *= /= %= &= |= ^= <<= >>= ++ -- + - * / % ~ & | ^ << >> () []` and unary `*`. -/
def Prog.valueOp (fuel : Nat) (hp : Heap) (v : Handle) (op : Name) (as : List Actual) :
    Res (Heap × Option BArg) :=
  p.callMethod fuel hp v op p.valueArg as

/-- `call<bool>(op, args...)`; the one cell of the `bool` handed back says which it is. -/
def Prog.callBool (boolT : Ty) (fuel : Nat) (hp : Heap) (v : Handle) (op : Name) (as : List Actual) :
    Res (Heap × Bool) :=
  match p.callMethod fuel hp v op ⟨boolT, .copy, false⟩ as with
  | .error x => .error x
  | .ok (hp', some (.obj a _)) => .ok (hp', hp'.mem a ≠ 0)
  | .ok _ => .error .ub

/-- `reflectValueOpBool`, value.h:57-63, used for `&& || == != < > <= >=`: `call<bool>(#op, arg)`. Being
    an overloaded operator, `&&` and `||` always evaluate both sides. -/
def Prog.boolOp (boolT : Ty) (fuel : Nat) (hp : Heap) (v : Handle) (op : Name) (x : Actual) :
    Res (Heap × Bool) :=
  p.callBool boolT fuel hp v op [x]

/-- `Value::operator bool`, value.cpp:135-139. -/
def Prog.asBool (boolT : Ty) (fuel : Nat) (hp : Heap) (v : Handle) : Res (Heap × Bool) :=
  p.callBool boolT fuel hp v "operator bool()".toList []

/-- `Value::operator!`, value.cpp:126-133. -/
def Prog.notOp (boolT : Ty) (fuel : Nat) (hp : Heap) (v : Handle) : Res (Heap × Bool) :=
  match p.w.hasFunctionF p.w.fuel v.arg.type "operator!".toList with
  | .error x => .error x
  | .ok true => p.callBool boolT fuel hp v "operator!".toList []
  | .ok false => match p.asBool boolT fuel hp v with
    | .error x => .error x
    | .ok (hp', b) => .ok (hp', !b)

end Reflect

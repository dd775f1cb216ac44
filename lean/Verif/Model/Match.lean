import Verif.Model.Basic
/-
  Argument matching: src/argument.cpp, src/argument.h, src/argument.tcc, src/ref_type.h,
  src/clean_type.h and the tests of src/function.cpp:51-107.

  The matching code consults the type graph through two questions only, `isParentOf` and
  `hasConverter` (src/type.cpp:24-50), and compares types by address with `type<void>()` and
  `type<Value>()`. `Env` packages those answers; `Model/TypeGraph.lean` computes them from type
  declarations. All theorems about matching hold for every `Env`.
-/
namespace Reflect

/-- the address of a registered type; same notion as in `Model/Registry.lean` -/
abbrev Ty := Nat

/-- `RefType`, ref_type.h:17-22. -/
inductive RefType where
  | copy | lvalue | rvalue
  deriving DecidableEq, Repr

/-- `Match`, argument.h:19-24. -/
inductive Match where
  | none | part | exact
  deriving DecidableEq, Repr

/-- `Argument`, argument.h:34-66. The default constructor (argument.cpp:43-44) leaves the reference
    kind indeterminate; no `Arg` of the model is built that way except the one of `Value()`, see
    `Model/Value.lean`. -/
structure Arg where
  type : Ty
  ref : RefType
  isConst : Bool
  deriving DecidableEq, Repr

/-- What matching asks of the type graph. -/
structure Env where
  /-- `type<void>()` -/
  voidT : Ty
  /-- `type<Value>()` -/
  valueT : Ty
  /-- `child a b`: `a->isChildOf(b)`, i.e. `b->isParentOf(a)`; type.cpp:24-43 -/
  child : Ty → Ty → Bool
  /-- `conv a b`: `a->hasConverter(b)`; type.cpp:45-50 -/
  conv : Ty → Ty → Bool

/-- `combine`, argument.cpp:18-23. -/
def combine (a b : Match) : Match :=
  if a = .none ∨ b = .none then .none
  else if a = .part ∨ b = .part then .part
  else .exact

namespace Arg

/-- argument.cpp:51-56 -/
def isVoid (e : Env) (a : Arg) : Bool := a.type = e.voidT
/-- argument.cpp:58-63 -/
def isConstRef (a : Arg) : Bool := a.isConst && a.ref = .lvalue
/-- argument.cpp:65-71 -/
def isTemporary (a : Arg) : Bool := a.ref = .rvalue || a.ref = .copy
/-- argument.cpp:73-79 -/
def isLValueRef (a : Arg) : Bool := !a.isConst && a.ref = .lvalue

end Arg

/-- `testConstConversion`, ref_type.h:65-68. -/
def testConstConversion (fromConst toConst : Bool) : Bool := fromConst == toConst || toConst

/-- `Argument::isConvertibleTo`, argument.cpp:91-132. `a` is `*this`. The statements are in the order
    of the code; `isExact` is the local of line 102. -/
def isConvertibleTo (e : Env) (a target : Arg) : Match :=
  if a = target then .exact
  else if xor (a.type = e.valueT) (target.type = e.valueT) then .exact
  else if e.conv a.type target.type then
    if target.ref ≠ .lvalue then .part else .none
  else if target.ref ≠ .copy ∧ testConstConversion a.isConst target.isConst = false then .none
  else
    let isExact : Bool := target.ref = .copy && a.ref = .rvalue
    if target.ref = .lvalue ∧ target.isConst = false ∧ (a.isConst = true ∨ a.ref ≠ .lvalue) then .none
    else if target.ref = .rvalue ∧ a.ref ≠ .rvalue then .none
    else if e.child a.type target.type = false then .none
    else if isExact then .exact
    else if a.isConst = target.isConst ∧ a.ref = target.ref then .exact
    else .part

/-- `Function::testReturn`, function.cpp:51-72: `value` is what the caller wants, `target` what the
    function returns. -/
def testReturn (e : Env) (value target : Arg) : Match :=
  if value.type = e.voidT then .exact
  else if target.type = e.voidT then
    if value.type ≠ e.valueT then .none
    else if value.ref = .lvalue then .none
    else .exact
  else if isConvertibleTo e target value = .none then .none
  else if target.isTemporary && value.isConstRef then .none
  else .exact

/-- The loop of function.cpp:82-88, from accumulator `m`. -/
def testArgumentsLoop (e : Env) : Match → List Arg → List Arg → Match
  | m, v :: vs, t :: ts =>
    let m' := combine m (isConvertibleTo e v t)
    if m' = .none then .none else testArgumentsLoop e m' vs ts
  | m, _, _ => m

/-- `Function::testArguments`, function.cpp:74-89. -/
def testArguments (e : Env) (value target : List Arg) : Match :=
  if value.length ≠ target.length then .none
  else testArgumentsLoop e .exact value target

/-! ### C++ types and `Argument::make` -/

/-- The C++ types an argument can be made of: a class or primitive, `const`, pointers and
    references. -/
inductive CxxTy where
  | obj (name : Name)
  | const (t : CxxTy)
  | ptr (t : CxxTy)
  | lref (t : CxxTy)
  | rref (t : CxxTy)
  deriving DecidableEq, Repr

namespace CxxTy

/-- `std::remove_reference` -/
def removeRef : CxxTy → CxxTy
  | lref t => removeRef t
  | rref t => removeRef t
  | t => t

/-- `std::remove_cv` at the top level -/
def removeConst : CxxTy → CxxTy
  | const t => removeConst t
  | t => t

/-- `CleanType<T>::type`, clean_type.h:17-28, applied through `typeId<T>()` (registry.h): references
    and const are removed at every level, because the id of a pointer is built from the id of its
    pointee (types/pointer.h:28). -/
def clean : CxxTy → CxxTy
  | obj n => obj n
  | const t => clean t
  | ptr t => ptr (clean t)
  | lref t => clean t
  | rref t => clean t

/-- `makeRefType<T>()`, ref_type.h:31-37. -/
def refType : CxxTy → RefType
  | rref _ => .rvalue
  | lref _ => .lvalue
  | _ => .copy

/-- `isConst<T>()`, ref_type.h:51-56. -/
def isConst (t : CxxTy) : Bool :=
  match t.removeRef with
  | const _ => true
  | _ => false

end CxxTy

/-- `Argument::make<T>()`, argument.tcc:17-27. `ids` is the registry: it maps a cleaned type to its
    address. -/
def Arg.make (ids : CxxTy → Ty) (t : CxxTy) : Arg :=
  { type := ids t.clean, ref := t.refType, isConst := t.isConst }

end Reflect

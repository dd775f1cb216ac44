import Verif.Model.TypeGraph
/-
  Describing the member functions and operators of a class: src/dsl/operators.h, src/dsl/function.h,
  src/function_type.h.

  What the compiler knows of a class is a table from names to the member functions declared under that
  name, as name lookup and access control leave them. Simplifications: member templates and
  ref-qualified or volatile members are not in the table (`&T::f` of a class that has them is either
  ill formed, and then the class is described as one without a unique member of the name, or outside
  `FunctionType`, and then nothing compiles).
-/
namespace Reflect

/-- A member function `Ret (Obj::*)(Args...)` or `Ret (Obj::*)(Args...) const`. `obj` is the class that
    declares it, which for an inherited member is not the class being described. -/
structure Member where
  obj : Ty
  ret : Arg
  isConst : Bool
  args : List Arg
  body : Nat
  deriving DecidableEq, Repr

/-- `FunctionType<Ret(Obj::*)(Args...)>::Arguments` and the `const` one, function_type.h:101-123: the
    object comes first, by (const) lvalue reference. -/
def Member.params (m : Member) : List Arg := ⟨m.obj, .lvalue, m.isConst⟩ :: m.args

/-- `Function(name, &T::f)`, function.tcc:118-126 through type.tcc:19-24. -/
def Member.fn (name : Name) (m : Member) : Fn := Fn.make name m.ret m.params m.body

/-- The member functions of a class, by name. -/
abbrev Members := Name → List Member

/-- `reflectOp(op, name)` with `reflectOpFn`, operators.h:27-37: registers `&T::op` when
    `decltype(&T::op)` is well formed, i.e. when exactly one member has the name, and nothing
    otherwise. -/
def reflectOp (c : Members) (op : Name) : List TypeOp :=
  match c op with
  | [m] => [.addFunction op (m.fn op)]
  | _ => []

/-- `reflectOp(op, name)` with `reflectOpTypedFn`, operators.h:44-55: registers the member with
    exactly the signature `ret (T::*)(args)`, if there is one. -/
def reflectOpTyped (c : Members) (op : Name) (t : Ty) (ret : Arg) (args : List Arg) : List TypeOp :=
  match (c op).find? (fun m => m.obj = t ∧ m.ret = ret ∧ m.isConst = false ∧ m.args = args) with
  | some m => [.addFunction op (m.fn op)]
  | none => []

/-- `reflectOpAssign()`, operators.h:81-93. -/
def opAssign : List Name := ["operator+=".toList, "operator-=".toList, "operator*=".toList,
  "operator/=".toList, "operator%=".toList, "operator&=".toList, "operator|=".toList,
  "operator^=".toList, "operator<<=".toList, "operator>>=".toList]

/-- `reflectOpArithmetic()`, operators.h:131-144. -/
def opArithmetic : List Name := ["operator+".toList, "operator-".toList, "operator*".toList,
  "operator/".toList, "operator%".toList, "operator~".toList, "operator&".toList,
  "operator|".toList, "operator^".toList, "operator<<".toList, "operator>>".toList]

/-- `reflectOpLogical()`, operators.h:155-160. -/
def opLogical : List Name := ["operator!".toList, "operator&&".toList, "operator||".toList]

/-- `reflectOpComparaison()`, operators.h:174-182. -/
def opComparison : List Name := ["operator==".toList, "operator!=".toList, "operator<".toList,
  "operator>".toList, "operator<=".toList, "operator>=".toList]

/-- `reflectOpOther()`, operators.h:193-198. -/
def opOther : List Name := ["operator()".toList, "operator[]".toList, "operator*".toList]

/-- the macro that registers the operators of a list, in order -/
def reflectOps (c : Members) (ops : List Name) : List TypeOp := ops.flatMap (reflectOp c)

/-- `reflectOpIncDec()`, operators.h:100-111: `T& (T::*)()` and `T (T::*)(int)`. -/
def reflectOpIncDec (c : Members) (t intT : Ty) : List TypeOp :=
  reflectOpTyped c "operator++".toList t ⟨t, .lvalue, false⟩ [] ++
  reflectOpTyped c "operator--".toList t ⟨t, .lvalue, false⟩ [] ++
  reflectOpTyped c "operator++".toList t ⟨t, .copy, false⟩ [⟨intT, .copy, false⟩] ++
  reflectOpTyped c "operator--".toList t ⟨t, .copy, false⟩ [⟨intT, .copy, false⟩]

/-- `reflectOperators()`, operators.h:205-213. -/
def reflectOperators (c : Members) (t intT : Ty) : List TypeOp :=
  reflectOps c opAssign ++ reflectOpIncDec c t intT ++ reflectOps c opArithmetic ++
  reflectOps c opLogical ++ reflectOps c opComparison ++ reflectOps c opOther

/-- `reflectFn(f)`, function.h:64-65: `&T::f`, which does not compile unless the class has exactly one
    member of the name. -/
def reflectFn (c : Members) (f : Name) : Option TypeOp :=
  match c f with
  | [m] => some (.addFunction f (m.fn f))
  | _ => none

end Reflect

import Verif.Model.Alloc
/-
  What is recorded of a C++ callable: `FunctionType`, src/function_type.h, `reflectReturn` and
  `reflectArguments`, src/function.tcc:17-60, `Function::Function`, src/function.tcc:118-126; `reflectFn`,
  `reflectFnTyped`, `reflectCustom` and `reflectCons`, src/dsl/function.h:29-98; `Type::construct`,
  src/type.tcc:31-38. How it is then called is `Prog.run`, Model/Value.lean.

  The parameter types are those of the function's type: C++ drops the `const` of a parameter taken by value.
-/
namespace Reflect

/-- The callables `Function` accepts. Others (ref-qualified members, functors with several or generic call
    operators) do not compile. -/
inductive Callable where
  /-- `Ret (*)(Args...)` -/
  | global (ret : CxxTy) (args : List CxxTy)
  /-- `Ret (Obj::*)(Args...)`, const or not -/
  | member (obj : CxxTy) (isConst : Bool) (ret : CxxTy) (args : List CxxTy)
  /-- an object with one `operator()`, const or not: lambdas, `std::function` -/
  | functor (isConst : Bool) (ret : CxxTy) (args : List CxxTy)

namespace Callable

/-- `FunctionType<Fn>::Return`, function_type.h:35, 47, 80, 95, 112, 124. -/
def ret : Callable → CxxTy
  | global r _ => r
  | member _ _ r _ => r
  | functor _ r _ => r

/-- `FunctionType<Fn>::Arguments`, function_type.h:36, 48, 81, 96, 113, 125: the object comes first. -/
def args : Callable → List CxxTy
  | global _ as => as
  | member o false _ as => .lref o :: as
  | member o true _ as => .lref (.const o) :: as
  | functor _ _ as => as

end Callable

/-- `Function(name, fn)`, function.tcc:118-126; `ids` is the registry, see `Arg.make`. -/
def Callable.reflect (ids : CxxTy → Ty) (name : Name) (c : Callable) (body : Nat) : Fn :=
  Fn.make name (Arg.make ids c.ret) (c.args.map (Arg.make ids)) body

/-- The lambda of `reflectConstructor<T, Args...>`, dsl/function.h:29-35. -/
def consCallable (t : CxxTy) (args : List CxxTy) : Callable := .functor true t args

/-- `reflectCons(Args...)`, dsl/function.h:29-38, on the type `t` with the name `id`. -/
def consOp (ids : CxxTy → Ty) (id : Name) (t : CxxTy) (args : List CxxTy) (body : Nat) : TypeOp :=
  .addFunction id ((consCallable t args).reflect ids id body)

/-- `Type::construct(args...)`, type.tcc:31-38. -/
def Prog.constructWith (p : Prog) (fuel : Nat) (hp : Heap) (t : Ty) (as : List Actual) : Res (Heap × Option BArg) :=
  p.typeCall fuel hp t (p.w.ty t).id p.valueArg as

end Reflect

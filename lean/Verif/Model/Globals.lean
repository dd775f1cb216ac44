import Verif.Model.Scope
import Verif.Model.Assign
import Verif.Model.StdTypes
/-
  Global functions and variables: src/dsl/scope.h:52-84 and src/scope.tcc:19-31.

  The global scope is the tree of Model/Scope with the overload sets of Model/Overloads in it. The bodies
  of a variable's two lambdas are modelled on the memory of Model/Value: `return *var` copies the cells of
  the variable into a temporary, `*var = other` copies the cells of `other` into the variable.
-/
namespace Reflect

/-- `Overloads::add`, overloads.cpp:16-29, as the scope uses it (scope.cpp:316) -/
def addOv (e : Env) (o : List Fn) (f : Fn) : Res (List Fn) :=
  match Overloads.add e o f with
  | (o', .ok ()) => .ok o'
  | (_, .error x) => .error x

/-- `Scope::addFunction(name, rawFn)`, scope.tcc:19-23: the function is called by the last component. -/
def addGlobal (e : Env) (t : Scope.Tree Fn) (name : Name) (ret : Arg) (args : List Arg) (body : Nat) :
    Scope.Tree Fn × Res Unit :=
  match Scope.tail name with
  | .error x => (t, .error x)
  | .ok (last, _) => Scope.addFunction (addOv e) t name (Fn.make last ret args body)

/-- `reflectGlobalFunction`, dsl/scope.h:56-60: the scope handed to it is ignored, the name is taken from the
    global scope. -/
def globalFn (e : Env) (t : Scope.Tree Fn) (name : Name) (ret : Arg) (args : List Arg) (body : Nat) :
    Scope.Tree Fn × Res Unit :=
  addGlobal e t name ret args body

/-- `reflectGlobalVar(name, T*)`, dsl/scope.h:73-78; `get` and `set` number the two lambdas. -/
def globalVar (e : Env) (t : Scope.Tree Fn) (name : Name) (ty : Ty) (get set : Nat) :
    Scope.Tree Fn × Res Unit :=
  match addGlobal e t name ty.val [] get with
  | (t', .error x) => (t', .error x)
  | (t', .ok ()) => addGlobal e t' name (Ty.val e.voidT) [ty.cref] set

/-- `reflectGlobalVar(name, const T*)`, dsl/scope.h:80-84. -/
def globalConst (e : Env) (t : Scope.Tree Fn) (name : Name) (ty : Ty) (get : Nat) :
    Scope.Tree Fn × Res Unit :=
  addGlobal e t name ty.val [] get

/-- `[=] { return *var; }`, dsl/scope.h:76, 83, for the variable of type `ty` at `a` -/
def getBody (p : Prog) (ty : Ty) (a : Nat) (hp : Heap) (_ : List BArg) : Res (Heap × BRet) :=
  match hp.copyObj (p.size ty) a with
  | .error x => .error x
  | .ok (hp', b) => .ok (hp', .obj b)

/-- `[=] (const T& other) { *var = other; }`, dsl/scope.h:77 -/
def setBody (p : Prog) (ty : Ty) (a : Nat) (hp : Heap) : List BArg → Res (Heap × BRet)
  | [.obj b _] => match hp.assignObj (p.size ty) a b with
    | .error x => .error x
    | .ok hp' => .ok (hp', .void)
  | _ => .error .ub

/-- `Scope::call<Ret>(fn, args...)`, scope.tcc:25-31. -/
def Prog.callGlobal (p : Prog) (fuel : Nat) (hp : Heap) (t : Scope.Tree Fn) (name : Name) (want : Arg)
    (as : List Actual) : Res (Heap × Option BArg) :=
  match (Scope.function t name).2 with
  | .error x => .error x
  | .ok o => p.callOv fuel hp o want as

end Reflect

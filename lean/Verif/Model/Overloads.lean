import Verif.Model.Match
/-
  Functions and overload sets: src/function.cpp:91-107, src/function.tcc:118-170, src/overloads.cpp,
  src/overloads.tcc.

  A wrapped callable is a number (`body`) together with the arity of the `ValueFunction` object that
  holds it. What the body does is modelled in `Model/Value.lean`; here only which one is invoked, and
  with how many arguments.
-/
namespace Reflect

/-- `Function`, function.h:28-70. `arity` is the `N` of the `ValueFunction<N>` behind `void* fn`
    (value_function.h:53-56,141-147). -/
structure Fn where
  name : Name
  ret : Arg
  args : List Arg
  body : Nat
  arity : Nat
  deriving DecidableEq, Repr

/-- The constructor `Function(name, fn)`, function.tcc:118-126, with `makeValueFunction`,
    value_function.h:153-161: arity and arguments both come from `FunctionType<Fn>`, whose `ArgCount`
    is the length of `Arguments` in each of its six specialisations (function_type.h:29-123). -/
def Fn.make (name : Name) (ret : Arg) (args : List Arg) (body : Nat) : Fn :=
  { name, ret, args, body, arity := args.length }

namespace Fn

/-- `Function::test(ret, args)`, function.cpp:100-107; `testParams` (function.tcc:142-153) and
    `test<Fn>()` (129-140) do the same with arguments made from C++ types or values. -/
def test (e : Env) (f : Fn) (ret : Arg) (args : List Arg) : Match :=
  combine (testReturn e ret f.ret) (testArguments e args f.args)

/-- `Function::test(other)`, function.cpp:91-98. -/
def testFn (e : Env) (f other : Fn) : Match :=
  combine (testReturn e other.ret f.ret) (testArguments e other.args f.args)

/-- What an invocation does: the body that runs and the number of arguments it is handed.
    `static_cast<ValueFunction<N>*>(fn)` (function.tcc:165-166) to another `N` than the object's is
    undefined behaviour. -/
def invoke (f : Fn) (nargs : Nat) : Res (Nat × Nat) :=
  if nargs = f.arity then .ok (f.body, nargs) else .error .ub

/-- `Function::call`, function.tcc:155-170, up to the invocation. -/
def call (e : Env) (f : Fn) (ret : Arg) (args : List Arg) : Res (Nat × Nat) :=
  if f.test e ret args = .none then .error .err else f.invoke args.length

end Fn

/-- `Overloads`, overloads.h: the registered functions, oldest first. -/
abbrev Overloads := List Fn

namespace Overloads

/-- `Overloads::add`, overloads.cpp:16-29. -/
def add (e : Env) (o : Overloads) (f : Fn) : Overloads × Res Unit :=
  if o.any (fun other => f.testFn e other = .exact) then (o, .error .err)
  else (o ++ [f], .ok ())

/-- `Overloads::test(fn)`, overloads.cpp:31-39. -/
def testFn (e : Env) (o : Overloads) (f : Fn) : Bool :=
  o.any fun other => f.testFn e other ≠ .none

/-- `Overloads::test(ret, args)`, overloads.cpp:41-49. -/
def test (e : Env) (o : Overloads) (ret : Arg) (args : List Arg) : Bool :=
  o.any fun f => f.test e ret args ≠ .none

/-- `Overloads::get(ret, args)`, overloads.cpp:51-61. -/
def get (e : Env) (o : Overloads) (ret : Arg) (args : List Arg) : Res Fn :=
  match o.find? fun f => f.test e ret args ≠ .none with
  | some f => .ok f
  | none => .error .err

/-- The loop of overloads.tcc:47-66: state is (bestFn, ambiguous). -/
def selectLoop (e : Env) (ret : Arg) (args : List Arg) :
    Overloads → Option Fn → Bool → Option Fn × Bool
  | [], best, amb => (best, amb)
  | f :: fs, best, amb =>
    let m := f.test e ret args
    if m = .none then selectLoop e ret args fs best amb
    else if best.isSome ∧ m = .part then selectLoop e ret args fs best true
    else if m = .exact then (some f, false)
    else selectLoop e ret args fs (some f) amb

/-- The choice made by `Overloads::call`, overloads.tcc:42-82. -/
def select (e : Env) (o : Overloads) (ret : Arg) (args : List Arg) : Res Fn :=
  match selectLoop e ret args o none false with
  | (none, _) => .error .err
  | (some _, true) => .error .err
  | (some f, false) => .ok f

/-- `Overloads::call`, overloads.tcc:42-85. -/
def call (e : Env) (o : Overloads) (ret : Arg) (args : List Arg) : Res (Nat × Nat) :=
  match o.select e ret args with
  | .error x => .error x
  | .ok f => f.call e ret args

/-- A registration history: refused functions leave the set as it was. -/
def build (e : Env) (fs : List Fn) : Overloads :=
  fs.foldl (fun o f => (add e o f).1) []

end Overloads

end Reflect

import Verif.Model.TypeGraph
/-
  Values, casts and the run-time half of a reflected call: src/value.{h,tcc,cpp}, src/cast.{h,cpp},
  src/value_function.h:59-134, src/function.tcc:155-170, src/type.tcc:33-47.

  Memory is a map from addresses to cells; an object of type `t` at `a` occupies `[a, a + size t)`.
  Addresses are handed out upwards and never reused (lifetimes are modelled in
  `Model/Ownership.lean`). Address 0 is the null pointer. Reading an object outside the allocated
  range `[1, next)` is undefined behaviour.

  The code obtains a base class sub-object by `static_cast<T*>(void*)` (value.tcc:93,106), i.e. at
  the address of the derived object; the model does the same.

  Simplifications: C++ copy and move constructors of the reflected classes copy the cells; a move
  constructor leaves in each cell of the source what the arbitrary function `moved` says.
  Parameters are bound left to right (C++ leaves the order open). Function bodies are arbitrary
  functions of the heap and of what they are handed.
-/
namespace Reflect

-- Addresses are natural numbers.

/-- memory: contents and the first address never handed out -/
structure Heap where
  mem : Nat → Nat
  next : Nat

/-- `Value`, value.h:76-174: `arg`, `value_` and `storage` (the address of the owned object). -/
structure Handle where
  arg : Arg
  addr : Nat
  owner : Option Nat
  deriving DecidableEq

/-- what a wrapped function is handed for one parameter -/
inductive BArg where
  /-- an object; `mutable` when the parameter is not a reference to const -/
  | obj (a : Nat) (mutable : Bool)
  /-- a parameter of type `Value` -/
  | val (h : Handle)
  deriving DecidableEq

/-- what a wrapped function gives back -/
inductive BRet where
  | void
  /-- the object returned, or referred to by the reference returned -/
  | obj (a : Nat)
  | val (h : Handle)
  deriving DecidableEq

/-- a program: type table, sizes and C++ capabilities of the types, function bodies -/
structure Prog where
  w : World
  size : Ty → Nat
  caps : Ty → Caps
  /-- the contents of a moved-from cell -/
  moved : Ty → Nat → Nat
  /-- the indeterminate reference kind of a default constructed `Argument` (argument.cpp:43-44) -/
  junk : RefType
  impl : Nat → Heap → List BArg → Res (Heap × BRet)

/-! ### objects -/

namespace Heap

/-- the object of `n` cells at `a` may be accessed -/
def Ok (h : Heap) (a : Nat) (n : Nat) : Prop := 0 < a ∧ a + n ≤ h.next

instance (h : Heap) (a : Nat) (n : Nat) : Decidable (h.Ok a n) := by unfold Ok; infer_instance

/-- a new object of `n` cells with the contents of the one at `a`: `T(const T&)` -/
def copyObj (h : Heap) (n : Nat) (a : Nat) : Res (Heap × Nat) :=
  if h.Ok a n then
    .ok ({ mem := fun x => if h.next ≤ x ∧ x < h.next + n then h.mem (a + (x - h.next)) else h.mem x
           next := h.next + n + 1 }, h.next)
  else .error .ub

/-- a new object with the contents of the one at `a`, which is left moved-from: `T(T&&)` -/
def moveObj (h : Heap) (moved : Nat → Nat) (n : Nat) (a : Nat) : Res (Heap × Nat) :=
  if h.Ok a n then
    .ok ({ mem := fun x => if h.next ≤ x ∧ x < h.next + n then h.mem (a + (x - h.next))
                  else if a ≤ x ∧ x < a + n then moved (h.mem x) else h.mem x
           next := h.next + n + 1 }, h.next)
  else .error .ub

end Heap

variable (p : Prog)

/-- `Argument::make<Value>()` -/
def Prog.valueArg : Arg := ⟨p.w.valueT, .copy, false⟩

/-- `Value()`, value.cpp:17-18. -/
def Prog.voidHandle : Handle := ⟨⟨p.w.voidT, p.junk, false⟩, 0, none⟩

/-- `store`, value.tcc:41-61, for an object of type `t` at `a`; `isConst` is that of the C++ type. -/
def Prog.store (hp : Heap) (t : Ty) (isConst : Bool) (a : Nat) : Res (Heap × Nat) :=
  if !isConst && (p.caps t).moveConstructible then hp.moveObj (p.moved t) (p.size t) a
  else if (p.caps t).copyConstructible then hp.copyObj (p.size t) a
  else .error .err

/-- `Value(T&& value)`, value.tcc:63-81, for an object at `a` whose C++ type and value category are
    `arg`; `make(T&&)` only yields lvalues and rvalues (ref_type.h:39-44). -/
def Prog.wrap (hp : Heap) (arg : Arg) (a : Nat) : Res (Heap × Handle) :=
  if arg.ref = .lvalue then .ok (hp, ⟨arg, a, none⟩)
  else match p.store hp arg.type arg.isConst a with
    | .error x => .error x
    | .ok (hp', a') => .ok (hp', ⟨⟨arg.type, .lvalue, false⟩, a', some a'⟩)

namespace Handle

/-- `Value::toConst`, value.cpp:108-115. -/
def toConst (h : Handle) : Handle := { h with arg := ⟨h.arg.type, .rvalue, true⟩ }

/-- `Value::rvalue`, value.cpp:117-124. -/
def rvalue (h : Handle) : Handle := { h with arg := ⟨h.arg.type, .rvalue, h.arg.isConst⟩ }

/-- `Value::as<T>()`, value.tcc:83-94: the address of the `T`, and whether the reference is mutable. -/
def as (p : Prog) (h : Handle) (t : Ty) : Res (Nat × Bool) :=
  if p.w.env.child h.arg.type t then .ok (h.addr, true) else .error .err

/-- `Value::get<T>()`, value.tcc:96-107. -/
def get (p : Prog) (h : Handle) (t : Ty) : Res (Nat × Bool) :=
  if p.w.env.child h.arg.type t then .ok (h.addr, false) else .error .err

/-- `Value::field(name)`, value.tcc:119-132, up to the final cast. -/
def field (p : Prog) (h : Handle) (name : Name) : Res Handle :=
  match p.w.fieldF p.w.fuel h.arg.type name with
  | .error x => .error x
  | .ok f => .ok ⟨⟨f.arg.type, .lvalue, f.arg.isConst || h.arg.isConst⟩, h.addr + f.offset, none⟩

end Handle

/-! ### casts -/

/-- how a function is run: `ValueFunction::operator()`; parameter of the definitions below to keep
    them free of mutual recursion -/
abbrev Runner := Heap → Fn → List Handle → Res (Heap × Handle)

/-- `Overloads::call<Value>(value)`, overloads.tcc:42-85, with one argument of type `Value`: an overload
    is tested against `value.argument()`, the description of what the value holds, whether the value is
    `Value&`, `const Value&` or `Value&&` (function.tcc:74-96, 142-153). -/
def Prog.callDyn (rec : Runner) (hp : Heap) (o : Overloads) (v : Handle) : Res (Heap × Handle) :=
  match o.select p.w.env p.valueArg [v.arg] with
  | .error x => .error x
  | .ok f => rec hp f [v]

/-- `type->construct(value)`, type.tcc:33-47. -/
def Prog.construct (rec : Runner) (hp : Heap) (t : Ty) (v : Handle) : Res (Heap × Handle) :=
  match p.w.functionF p.w.fuel t (p.w.ty t).id with
  | .error x => .error x
  | .ok o => p.callDyn rec hp o v

/-- `value.convert<Value>(target)`, value.tcc:143-149, with function.tcc:155-170. -/
def Prog.convert (rec : Runner) (hp : Heap) (v : Handle) (target : Ty) : Res (Heap × Handle) :=
  match p.w.converter v.arg.type target with
  | .error x => .error x
  | .ok f => if f.test p.w.env p.valueArg [v.arg] = .none then .error .err else rec hp f [v]

/-- `reflect::cast`, cast.cpp:86-94, with `lref` (16-35), `rref` (37-50) and `copy` (52-65). -/
def Prog.castV (rec : Runner) (hp : Heap) (v : Handle) (target : Arg) : Res (Heap × Handle) :=
  match target.ref with
  | .lvalue =>
    if p.w.env.child v.arg.type target.type = true ∧
        (target.isConst = true ∨ (v.arg.isConst = false ∧ v.arg.ref = .lvalue)) then .ok (hp, v)
    else .error .err
  | .rvalue =>
    if p.w.isMovable target.type then
      if p.w.env.child v.arg.type target.type then .ok (hp, v)
      else if p.w.env.conv v.arg.type target.type then p.convert rec hp v target.type
      else .error .err
    else .error .err
  | .copy =>
    if p.w.isCopiable target.type then
      if p.w.env.child v.arg.type target.type then p.construct rec hp target.type v
      else if p.w.env.conv v.arg.type target.type then p.convert rec hp v target.type
      else .error .err
    else .error .err

/-- `ret` of `Cast<Value, Target>`, cast.h:74-106: what the caller of the cast
    obtains from the value `r` made by `reflect::cast`. -/
def Prog.castRet (hp : Heap) (r : Handle) (target : Arg) : Res (Heap × BArg) :=
  match target.ref with
  | .lvalue => match r.as p target.type with
    | .error x => .error x
    | .ok (a, m) => .ok (hp, .obj a (m && !target.isConst))
  | .rvalue =>
    if (p.caps target.type).moveConstructible then
      match r.as p target.type with
      | .error x => .error x
      | .ok (a, _) => match hp.moveObj (p.moved target.type) (p.size target.type) a with
        | .error x => .error x
        | .ok (hp', a') => .ok (hp', .obj a' true)
    else if (p.caps target.type).copyConstructible then
      match r.get p target.type with
      | .error x => .error x
      | .ok (a, _) => match hp.copyObj (p.size target.type) a with
        | .error x => .error x
        | .ok (hp', a') => .ok (hp', .obj a' true)
    else .error .err
  | .copy =>
    if (p.caps target.type).copyConstructible then
      match r.get p target.type with
      | .error x => .error x
      | .ok (a, _) => match hp.copyObj (p.size target.type) a with
        | .error x => .error x
        | .ok (hp', a') => .ok (hp', .obj a' true)
    else .error .err

/-- `cast<Target>(value)`, cast.h:52-66 and 122-130: `Value` itself passes through,
    every other target goes through `Cast<Value, Target>`. A reference to `Value` is not `Value`. -/
def Prog.castTo (rec : Runner) (hp : Heap) (v : Handle) (target : Arg) : Res (Heap × BArg) :=
  if target = p.valueArg then .ok (hp, .val v)
  else match p.castV rec hp v target with
    | .error x => .error x
    | .ok (hp', r) => p.castRet hp' r target

/-- the arguments of `fn(cast<Args>(values)...)`, value_function.h:105-131 -/
def Prog.bind (rec : Runner) : Heap → List Handle → List Arg → Res (Heap × List BArg)
  | hp, v :: vs, t :: ts =>
    match p.castTo rec hp v t with
    | .error x => .error x
    | .ok (hp', b) => match Prog.bind rec hp' vs ts with
      | .error x => .error x
      | .ok (hp'', bs) => .ok (hp'', b :: bs)
  | hp, _, _ => .ok (hp, [])

/-- `Value(call(...))` or `Value()` for void, value_function.h:85-102. A function that returns a
    `Value` has it moved through. -/
def Prog.wrapRet (hp : Heap) (ret : Arg) : BRet → Res (Heap × Handle)
  | .void => .ok (hp, p.voidHandle)
  | .val h => .ok (hp, h)
  | .obj a => p.wrap hp ret a

/-- `ValueFunctionImpl::operator()`, value_function.h:77-131. Fuel bounds the nesting of calls made
    by conversions; C++ has no bound but the stack. -/
def Prog.run : Nat → Runner
  | 0, _, _, _ => .error .diverge
  | fuel + 1, hp, f, vs =>
    match p.bind (Prog.run fuel) hp vs f.args with
    | .error x => .error x
    | .ok (hp', bs) => match p.impl f.body hp' bs with
      | .error x => .error x
      | .ok (hp'', r) => p.wrapRet hp'' f.ret r

/-! ### calls -/

/-- one argument of `call<Ret>(args...)` in the caller's C++ code -/
inductive Actual where
  /-- an object of a reflected C++ type, lvalue or rvalue -/
  | native (arg : Arg) (a : Nat)
  /-- a `Value`, `const Value` or `Value&&` -/
  | dyn (h : Handle)

/-- what an overload is tested against, function.tcc:72-111: `Argument::make(arg)` for an object,
    `value.argument()` for a `Value` -/
def Actual.arg : Actual → Arg
  | .native arg _ => arg
  | .dyn h => h.arg

/-- `cast<Value>(args)...`, function.tcc:168, cast.h:110-130 -/
def Prog.toHandles : Heap → List Actual → Res (Heap × List Handle)
  | hp, [] => .ok (hp, [])
  | hp, .dyn h :: as => match Prog.toHandles hp as with
    | .error x => .error x
    | .ok (hp', hs) => .ok (hp', h :: hs)
  | hp, .native arg a :: as => match p.wrap hp arg a with
    | .error x => .error x
    | .ok (hp', h) => match Prog.toHandles hp' as with
      | .error x => .error x
      | .ok (hp'', hs) => .ok (hp'', h :: hs)

/-- `retCast<Ret>(ret)`, cast.h:172-185: `void` drops the value. -/
def Prog.retCast (rec : Runner) (hp : Heap) (r : Handle) (want : Arg) : Res (Heap × Option BArg) :=
  if want.type = p.w.voidT then .ok (hp, none)
  else match p.castTo rec hp r want with
    | .error x => .error x
    | .ok (hp', b) => .ok (hp', some b)

/-- `Function::call<Ret>(args...)`, function.tcc:155-170. -/
def Prog.callFn (fuel : Nat) (hp : Heap) (f : Fn) (want : Arg) (as : List Actual) :
    Res (Heap × Option BArg) :=
  if f.test p.w.env want (as.map Actual.arg) = .none then .error .err
  else match p.toHandles hp as with
    | .error x => .error x
    | .ok (hp', vs) => match p.run fuel hp' f vs with
      | .error x => .error x
      | .ok (hp'', r) => p.retCast (p.run fuel) hp'' r want

/-- `Overloads::call<Ret>(args...)`, overloads.tcc:42-85. -/
def Prog.callOv (fuel : Nat) (hp : Heap) (o : Overloads) (want : Arg) (as : List Actual) :
    Res (Heap × Option BArg) :=
  match o.select p.w.env want (as.map Actual.arg) with
  | .error x => .error x
  | .ok f => p.callFn fuel hp f want as

/-- `isCastable`, cast.cpp:81-84, through cast.h:58-60. The specialisation for `Value` (cast.h:125)
    always answers true. -/
def Prog.isCastable (v : Handle) (target : Arg) : Bool :=
  target = p.valueArg || isConvertibleTo p.w.env v.arg target ≠ .none

/-- `Value::copy`, value.cpp:86-94. -/
def Prog.copy (fuel : Nat) (hp : Heap) (v : Handle) : Res (Heap × Handle) :=
  if p.w.isCopiable v.arg.type then p.construct (p.run fuel) hp v.arg.type v else .error .err

/-- `Value::move`, value.cpp:96-106; the receiver becomes `Value()`. -/
def Prog.move (fuel : Nat) (hp : Heap) (v : Handle) : Res (Heap × Handle) :=
  if p.w.isMovable v.arg.type then p.construct (p.run fuel) hp v.arg.type v.rvalue
  else .error .err

end Reflect

import Verif.Model.Basic
/-
  Lifetimes. First the storage of `Value` (src/value.h:169-174, src/value.cpp:17-69,108-124,
  src/value.tcc:63-81,119-132), then the wrapped functions of `Function` (src/function.cpp:19-49,
  src/value_function.cpp).

  A program is a list of operations on variables, numbered in order of creation. An operation on a
  variable that does not exist (not created yet, or out of scope) is not a C++ program; the model
  ignores it.

  `std::shared_ptr<void>` is modelled by its use count: copying increments it, releasing decrements
  it and runs the deleter when it reaches zero.
-/
namespace Reflect.Own

/-! ### Value -/

/-- what a value refers to -/
inductive Target where
  | null
  /-- (a part of) an object stored by some value -/
  | stored (o : Nat)
  /-- a C++ object the caller keeps alive -/
  | native
  deriving DecidableEq

/-- the fields of a `Value` that matter for lifetimes: whether `arg` is not void, `value_`,
    `storage` -/
structure Var where
  typed : Bool
  target : Target
  storage : Option Nat
  deriving DecidableEq

structure State where
  /-- variables by number; `none` when out of scope -/
  vars : List (Option Var)
  /-- number of objects stored so far -/
  objs : Nat
  /-- use count of the control block of each object -/
  count : Nat → Nat
  /-- how many times the deleter of each object ran -/
  deleted : Nat → Nat

def init : State := { vars := [], objs := 0, count := fun _ => 0, deleted := fun _ => 0 }

inductive Op where
  /-- `Value x;` value.cpp:17-18 -/
  | empty
  /-- `Value x(lvalue);` value.tcc:63-69 -/
  | refer
  /-- `Value x(rvalue);` value.tcc:63-81 -/
  | store
  /-- `Value x(y);` value.cpp:24-36; also `toConst`, `rvalue` (108-124) and passing by value -/
  | copyCons (y : Nat)
  /-- `Value x(std::move(y));` value.cpp:51-56 -/
  | moveCons (y : Nat)
  /-- `x = y;` value.cpp:38-49 -/
  | copyAssign (x y : Nat)
  /-- `x = std::move(y);` value.cpp:58-69 -/
  | moveAssign (x y : Nat)
  /-- `Value x = y.field(name);` value.tcc:119-132: no storage; raises, and so declares nothing, when
      `y` has no such field, in particular when `y` is void -/
  | field (y : Nat)
  /-- `x` goes out of scope -/
  | destroy (x : Nat)
  deriving DecidableEq

/-- another `shared_ptr` to the same control block -/
def acquire (c : Nat → Nat) : Option Nat → Nat → Nat
  | none => c
  | some o => fun i => if i = o then c i + 1 else c i

/-- a `shared_ptr` lets go: the deleter runs when it was the last one -/
def release (s : State) : Option Nat → State
  | none => s
  | some o =>
    { s with
      count := fun i => if i = o then s.count i - 1 else s.count i
      deleted := fun i => if i = o ∧ s.count o = 1 then s.deleted i + 1 else s.deleted i }

/-- the variable numbered `x`, when in scope -/
def State.var (s : State) (x : Nat) : Option Var := (s.vars[x]?).join

/-- the variable after it was moved from: only `storage` is reset, value.cpp:52-55, 64-66 -/
def Var.movedFrom (v : Var) : Var := { v with storage := none }

def step (s : State) : Op → State
  | .empty => { s with vars := s.vars ++ [some ⟨false, .null, none⟩] }
  | .refer => { s with vars := s.vars ++ [some ⟨true, .native, none⟩] }
  | .store =>
    { s with
      vars := s.vars ++ [some ⟨true, .stored s.objs, some s.objs⟩]
      objs := s.objs + 1
      count := fun i => if i = s.objs then 1 else s.count i }
  | .copyCons y => match s.var y with
    | none => s
    | some v => { s with vars := s.vars ++ [some v], count := acquire s.count v.storage }
  | .moveCons y => match s.var y with
    | none => s
    | some v => { s with vars := s.vars.set y (some v.movedFrom) ++ [some v] }
  | .copyAssign x y => match s.var x, s.var y with
    | some u, some v =>
      if x = y then s
      else release { s with vars := s.vars.set x (some v), count := acquire s.count v.storage } u.storage
    | _, _ => s
  | .moveAssign x y => match s.var x, s.var y with
    | some u, some v =>
      if x = y then s
      else release { s with vars := (s.vars.set x (some v)).set y (some v.movedFrom) } u.storage
    | _, _ => s
  | .field y => match s.var y with
    | none => s
    | some v => if v.typed then { s with vars := s.vars ++ [some ⟨true, v.target, none⟩] } else s
  | .destroy x => match s.var x with
    | none => s
    | some v => release { s with vars := s.vars.set x none } v.storage

def run (ops : List Op) : State := ops.foldl step init

/-! ### Function -/

structure FState where
  /-- `Function` variables: `none` out of scope, `some none` with a null `fn` -/
  vars : List (Option (Option Nat))
  /-- number of wrapped functions allocated so far -/
  fns : Nat
  /-- how many times each was freed -/
  freed : Nat → Nat
  /-- a null function was called (undefined behaviour) -/
  nullCall : Bool
  /-- a freed function was called (undefined behaviour) -/
  freedCall : Bool

def finit : FState := { vars := [], fns := 0, freed := fun _ => 0, nullCall := false, freedCall := false }

inductive FOp where
  /-- `Function f(name, fn);` function.tcc:118-126 -/
  | make
  /-- `Function f(std::move(g));` function.cpp:19-27 -/
  | moveCons (g : Nat)
  /-- `f = std::move(g);` function.cpp:29-43 -/
  | moveAssign (f g : Nat)
  /-- `f` goes out of scope, function.cpp:45-49 -/
  | destroy (f : Nat)
  /-- a call, function.tcc:165-168 -/
  | call (f : Nat)
  deriving DecidableEq

/-- the variable numbered `x`, when in scope -/
def FState.var (s : FState) (x : Nat) : Option (Option Nat) := (s.vars[x]?).join

def fstep (s : FState) : FOp → FState
  | .make => { s with vars := s.vars ++ [some (some s.fns)], fns := s.fns + 1 }
  | .moveCons g => match s.var g with
    | none => s
    | some p => { s with vars := s.vars.set g (some none) ++ [some p] }
  | .moveAssign f g => match s.var f, s.var g with
    | some _, some p => if f = g then s
      else { s with vars := (s.vars.set f (some p)).set g (some none) }
    | _, _ => s
  | .destroy f => match s.var f with
    | none => s
    | some none => { s with vars := s.vars.set f none }
    | some (some i) =>
      { s with vars := s.vars.set f none, freed := fun j => if j = i then s.freed j + 1 else s.freed j }
  | .call f => match s.var f with
    | none => s
    | some none => { s with nullCall := true }
    | some (some i) => { s with freedCall := s.freedCall || s.freed i ≠ 0 }

def frunFrom (s : FState) (ops : List FOp) : FState := ops.foldl fstep s
def frun (ops : List FOp) : FState := frunFrom finit ops

end Reflect.Own

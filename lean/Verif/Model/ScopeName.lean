import Verif.Model.Basic
/-
  Qualified-name splitting: `Scope::head`, `Scope::tail`, `Scope::join` (src/scope.cpp:18-81).

  Simplification: the C++ counters `nesting` are `size_t` and wrap; they are tested only for being
  zero.  The model uses `Int`.  The two agree on every string shorter than 2^64 bytes, i.e. on every
  string that fits in memory.
-/
namespace Reflect.Scope

/-- The loop of `Scope::head`, src/scope.cpp:26-39 with the epilogue at 41-43.
    `rest` is what is left to scan, `nesting` the counter, `acc` the scanned characters (reversed,
    i.e. `name.substr(0,i)` backwards). -/
def headLoop : (rest : Name) → (nesting : Int) → (acc : Name) → Res (Name × Name)
  | [], n, acc => if n ≠ 0 then .error .err else .ok (acc.reverse, [])
  | c :: cs, n, acc =>
    if c = '<' then headLoop cs (n + 1) (c :: acc)
    else if c = '>' then headLoop cs (n - 1) (c :: acc)
    else if c = ':' then
      if n ≠ 0 then headLoop cs n (c :: acc)
      else match cs with
        | [] => .error .err
        | d :: rest => if d ≠ ':' then .error .err else .ok (acc.reverse, rest)
    else headLoop cs n (c :: acc)

/-- `Scope::head`, src/scope.cpp:18-44: the first component and what follows the `::`. -/
def head (name : Name) : Res (Name × Name) := headLoop name 0 []

/-- The loop of `Scope::tail`, src/scope.cpp:54-69 with the epilogue at 71-73.
    It runs right to left: `rest` is what is left to scan, already reversed; `acc` is the scanned
    suffix in reading order, i.e. `name.substr(i)`. -/
def tailLoop : (rest : Name) → (nesting : Int) → (acc : Name) → Res (Name × Name)
  | [], n, acc => if n ≠ 0 then .error .err else .ok (acc, [])
  | c :: cs, n, acc =>
    if c = '<' then tailLoop cs (n - 1) (c :: acc)
    else if c = '>' then tailLoop cs (n + 1) (c :: acc)
    else if c = ':' then
      if n ≠ 0 then tailLoop cs n (c :: acc)
      else match cs with
        | [] => .error .err
        | d :: rest => if d ≠ ':' then .error .err else .ok (acc, rest.reverse)
    else tailLoop cs n (c :: acc)

/-- `Scope::tail`, src/scope.cpp:46-74: the last component and what precedes the `::`. -/
def tail (name : Name) : Res (Name × Name) := tailLoop name.reverse 0 []

/-- `Scope::join`, src/scope.cpp:76-81. -/
def join (head tail : Name) : Name :=
  if head = [] then tail else head ++ (':' :: ':' :: tail)

/-- Peeling components off the front until nothing is left.  This is the recursion scheme shared by
    `hasScope`, `scope`, `hasType`, `type` and `addType` (src/scope.cpp:162-304): split with `head`,
    recurse on the rest when it is not empty. The guard on the length stands for the fact that the
    rest is strictly shorter (proved in `Lemmas.ScopeName.head_length`). -/
def peelFront (name : Name) : Res (List Name) :=
  match head name with
  | .error e => .error e
  | .ok (first, rest) =>
    if rest = [] then .ok [first]
    else if _h : rest.length < name.length then
      match peelFront rest with
      | .error e => .error e
      | .ok cs => .ok (first :: cs)
    else .error .diverge
termination_by name.length

/-- Peeling components off the back until nothing is left: the recursion scheme of `addFunction`,
    `hasFunction` and `function` (src/scope.cpp:307-378) iterated; components in reading order. -/
def peelBack (name : Name) : Res (List Name) :=
  match tail name with
  | .error e => .error e
  | .ok (last, front) =>
    if front = [] then .ok [last]
    else if _h : front.length < name.length then
      match peelBack front with
      | .error e => .error e
      | .ok cs => .ok (cs ++ [last])
    else .error .diverge
termination_by name.length

end Reflect.Scope

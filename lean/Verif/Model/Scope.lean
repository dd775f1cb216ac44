import Verif.Lemmas.ScopeName
/-
  The scope tree: src/scope.h, src/scope.cpp:84-378.

  * `std::unordered_map` members are association lists; nothing below depends on their order except
    the order of the listings, which the C++ leaves unspecified and no theorem mentions.
  * `Scope*` pointers are modelled as the path of keys from the root; `parent_` is the path without
    its last key.
  * Methods that mutate return the new tree together with the outcome, also when they raise: a
    `reflectError` thrown half-way leaves whatever had been created.
  * An overload set is a list of functions; `Overloads::add` is the parameter `add` (its own model is
    `Model/Overloads.lean`).
  * `types_` maps names to lazily loaded `const Type*`; only the key set is modelled here, the lazy
    load is `Registry::get` (`Model/Registry.lean`).
  * `Traits` of a scope and `print` are not modelled.
-/
namespace Reflect.Scope

mutual
/-- `struct Scope`, src/scope.h:17-70: `name_`, keys of `types_`, `functions_`, `scopes_`. -/
inductive Tree (F : Type) where
  | mk (name : Name) (types : List Name) (fns : List (Name × List F)) (kids : Kids F)
/-- `std::unordered_map<std::string, Scope*> scopes_`, src/scope.h:66. -/
inductive Kids (F : Type) where
  | nil
  | cons (key : Name) (t : Tree F) (rest : Kids F)
end

variable {F : Type}

namespace Tree
def name : Tree F → Name | mk n _ _ _ => n
def types : Tree F → List Name | mk _ t _ _ => t
def fns : Tree F → List (Name × List F) | mk _ _ f _ => f
def kids : Tree F → Kids F | mk _ _ _ k => k
end Tree

/-- `scopes_.find(key)` -/
def Kids.find : Kids F → Name → Option (Tree F)
  | .nil, _ => none
  | .cons k t rest, key => if k = key then some t else rest.find key

/-- store a child under `key`: replaces the entry, or adds one (`scopes_.emplace`) -/
def Kids.set : Kids F → Name → Tree F → Kids F
  | .nil, key, v => .cons key v .nil
  | .cons k t rest, key, v => if k = key then .cons k v rest else .cons k t (rest.set key v)

def Kids.keys : Kids F → List Name
  | .nil => []
  | .cons k _ rest => k :: rest.keys

/-- `functions_.find(key)` -/
def findFn : List (Name × List F) → Name → Option (List F)
  | [], _ => none
  | (k, o) :: rest, key => if k = key then some o else findFn rest key

def setFn : List (Name × List F) → Name → List F → List (Name × List F)
  | [], key, v => [(key, v)]
  | (k, o) :: rest, key, v => if k = key then (k, v) :: rest else (k, o) :: setFn rest key v

/-- `Scope::Scope(name, parent)`, src/scope.cpp:92-95. -/
def Tree.new (name : Name) : Tree F := .mk name [] [] .nil

/-- The global scope of an untouched registry: `Scope::Scope()`, src/scope.cpp:88-90. -/
def Tree.root : Tree F := .mk [] [] [] .nil

def Tree.setKid (t : Tree F) (key : Name) (c : Tree F) : Tree F :=
  .mk t.name t.types t.fns (t.kids.set key c)

def Tree.setTypes (t : Tree F) (l : List Name) : Tree F := .mk t.name l t.fns t.kids
def Tree.setFns (t : Tree F) (l : List (Name × List F)) : Tree F := .mk t.name t.types l t.kids

/-- `Scope::scopes`, src/scope.cpp:149-159. -/
def scopes (t : Tree F) : List Name := t.kids.keys

/-- following the pointer modelled by a path of keys -/
def Tree.at : Tree F → List Name → Option (Tree F)
  | t, [] => some t
  | t, c :: cs => match t.kids.find c with
    | none => none
    | some k => k.at cs

/-- `Scope::id`, src/scope.cpp:97-103, for the scope at a path: `join` of the names met on the way,
    the global scope contributing the empty string. -/
def idAlong : Tree F → (acc : Name) → List Name → Option Name
  | _, acc, [] => some acc
  | t, acc, c :: cs => match t.kids.find c with
    | none => none
    | some k => idAlong k (join acc k.name) cs

def id (t : Tree F) (path : List Name) : Option Name := idAlong t [] path

/-- `Scope::hasScope`, src/scope.cpp:162-172. -/
def hasScope (t : Tree F) (name : Name) : Res Bool :=
  match h : head name with
  | .error e => .error e
  | .ok (first, rest) =>
    match t.kids.find first with
    | none => .ok false
    | some k => if hr : rest = [] then .ok true else hasScope k rest
termination_by name.length
decreasing_by exact head_length h hr

/-- `Scope::scope` const, src/scope.cpp:174-185: raises when the scope is missing. The result is the
    path of the scope. -/
def scopeConst (t : Tree F) (name : Name) : Res (List Name) :=
  match h : head name with
  | .error e => .error e
  | .ok (first, rest) =>
    match t.kids.find first with
    | none => .error .err
    | some k =>
      if hr : rest = [] then .ok [first]
      else match scopeConst k rest with
        | .error e => .error e
        | .ok p => .ok (first :: p)
termination_by name.length
decreasing_by exact head_length h hr

/-- `it = scopes_.find(first)`, creating the child when missing: src/scope.cpp:193-197. -/
def Tree.kidOrNew (t : Tree F) (first : Name) : Tree F :=
  match t.kids.find first with
  | some k => k
  | none => Tree.new first

/-- `Scope::scope` non-const, src/scope.cpp:187-200: creates what is missing. -/
def scopeMut (t : Tree F) (name : Name) : Tree F × Res (List Name) :=
  match h : head name with
  | .error e => (t, .error e)
  | .ok (first, rest) =>
    if hr : rest = [] then (t.setKid first (t.kidOrNew first), .ok [first])
    else
      let r := scopeMut (t.kidOrNew first) rest
      (t.setKid first r.1,
        match r.2 with
        | .error e => .error e
        | .ok p => .ok (first :: p))
termination_by name.length
decreasing_by exact head_length h hr

mutual
/-- `Scope::types(true)`, src/scope.cpp:207-228. -/
def typesAll : Tree F → List Name
  | .mk _ ts _ ks => ts ++ typesAllKids ks
/-- the loop over `scopes_`, src/scope.cpp:219-225 -/
def typesAllKids : Kids F → List Name
  | .nil => []
  | .cons k t rest => (typesAll t).map (join k) ++ typesAllKids rest
end

mutual
/-- `Scope::functions(true)`, src/scope.cpp:319-340. -/
def functionsAll : Tree F → List Name
  | .mk _ _ fs ks => fs.map (·.1) ++ functionsAllKids ks
def functionsAllKids : Kids F → List Name
  | .nil => []
  | .cons k t rest => (functionsAll t).map (join k) ++ functionsAllKids rest
end

/-- `Scope::hasType`, src/scope.cpp:230-249. -/
def hasType (t : Tree F) (name : Name) : Res Bool :=
  match h : head name with
  | .error e => .error e
  | .ok (first, rest) =>
    if first ∈ t.types then
      if rest ≠ [] then .error .err else .ok true
    else if hr : rest = [] then .ok false
    else match t.kids.find first with
      | none => .ok false
      | some k => hasType k rest
termination_by name.length
decreasing_by exact head_length h hr

/-- `Scope::addType`, src/scope.cpp:279-300. The call `scope(split.first)` at 299 is made with a
    single component, for which `scopeMut` finds or creates the direct child
    (`Lemmas.Scope.scopeMut_single`). -/
def addType (t : Tree F) (name : Name) : Tree F × Res Unit :=
  match h : head name with
  | .error e => (t, .error e)
  | .ok (first, rest) =>
    if hr : rest = [] then
      -- `types_.emplace`: no effect when the key is present
      (if first ∈ t.types then t else t.setTypes (t.types ++ [first]), .ok ())
    else if first ∈ t.types then (t, .error .err)
    else if (findFn t.fns first).isSome then (t, .error .err)
    else
      let r := addType (t.kidOrNew first) rest
      (t.setKid first r.1, r.2)
termination_by name.length
decreasing_by exact head_length h hr

/-- apply a mutation at the scope a path points to -/
def Tree.modifyAt {α : Type} (t : Tree F) (path : List Name) (g : Tree F → Tree F × Res α) :
    Tree F × Res α :=
  match path with
  | [] => g t
  | c :: cs =>
    match t.kids.find c with
    | none => (t, .error .ub)   -- dangling pointer; never happens, see `Lemmas.Scope.addFunction_eq`
    | some k => let r := k.modifyAt cs g; (t.setKid c r.1, r.2)

/-- `functions_[name].add(fn)`, src/scope.cpp:316: `operator[]` creates the entry first. -/
def addFunctionHere (add : List F → F → Res (List F)) (name : Name) (fn : F) (t : Tree F) :
    Tree F × Res Unit :=
  let old := (findFn t.fns name).getD []
  match add old fn with
  | .error e => (t.setFns (setFn t.fns name old), .error e)
  | .ok new => (t.setFns (setFn t.fns name new), .ok ())

/-- `Scope::addFunction(name, Function&&)`, src/scope.cpp:307-317. The recursive call is made on the
    last component, on which `tail` returns it whole, so it runs line 316 on the target scope. -/
def addFunction (add : List F → F → Res (List F)) (t : Tree F) (name : Name) (fn : F) :
    Tree F × Res Unit :=
  match tail name with
  | .error e => (t, .error e)
  | .ok (last, front) =>
    if front = [] then addFunctionHere add last fn t
    else
      let r := scopeMut t front
      match r.2 with
      | .error e => (r.1, .error e)
      | .ok p => r.1.modifyAt p (addFunctionHere add last fn)

/-- `Scope::hasFunction`, src/scope.cpp:342-352: uses the const `scope`, which raises. -/
def hasFunction (t : Tree F) (name : Name) : Res Bool :=
  match tail name with
  | .error e => .error e
  | .ok (last, front) =>
    if front = [] then .ok (findFn t.fns last).isSome
    else match scopeConst t front with
      | .error e => .error e
      | .ok p => match t.at p with
        | none => .error .ub
        | some k => .ok (findFn k.fns last).isSome

/-- `Scope::function`, src/scope.cpp:355-368: uses the mutable `scope`, hence returns a tree; the
    const overload at 371-376 casts constness away and does the same. -/
def function (t : Tree F) (name : Name) : Tree F × Res (List F) :=
  match tail name with
  | .error e => (t, .error e)
  | .ok (last, front) =>
    if front = [] then
      (t, match findFn t.fns last with
        | none => .error .err
        | some o => .ok o)
    else
      let r := scopeMut t front
      match r.2 with
      | .error e => (r.1, .error e)
      | .ok p =>
        (r.1, match r.1.at p with
          | none => .error .ub
          | some k => match findFn k.fns last with
            | none => .error .err
            | some o => .ok o)

/-- The registrations a program can perform on the global scope. -/
inductive Op (F : Type) where
  | scope (name : Name)
  | type (name : Name)
  | fn (name : Name) (f : F)
  /-- a lookup, which also mutates: see `function` -/
  | lookup (name : Name)

def Op.name : Op F → Name
  | .scope n | .type n | .fn n _ | .lookup n => n

def step (add : List F → F → Res (List F)) (t : Tree F) : Op F → Tree F × Res Unit
  | .scope n => let r := scopeMut t n; (r.1, r.2.map fun _ => ())
  | .type n => addType t n
  | .fn n f => addFunction add t n f
  | .lookup n => let r := function t n; (r.1, r.2.map fun _ => ())

/-- The tree after a history, starting from the untouched global scope. -/
def run (add : List F → F → Res (List F)) (ops : List (Op F)) : Tree F :=
  ops.foldl (fun t o => (step add t o).1) Tree.root

end Reflect.Scope

import Verif.Model.Assoc
import Verif.Model.Scope
/-
  The type registry: src/registry.cpp, src/registry.h:29-66, src/dsl/template.h:17-24.

  * `Type*` is a `TypeId` handed out by a counter: `new Type` (registry.cpp:85) never returns the
    address of a live object, and registered types are never deleted.
  * A loader (`std::function<void(Type*)>`) is a number; what it does when run is the program's
    script `prog l`, a list of the registry-visible actions of `Reflect<T>::reflect`: look types up
    (every mention of a type in the DSL is a `Registry::get`), register further loaders and aliases,
    define a member of the type under construction, or raise.
  * `Registry::get` releases its lock at the end of the statement that takes it (registry.cpp:56 is
    a temporary), so the recursion below takes no lock; the concurrent behaviour is modelled in
    `Model/RegistryConc.lean`.
  * Recursion between `get` and loaders has no bound in C++ but the stack; the model takes `fuel` and
    reports `Fault.diverge` when it runs out. `C10` shows it never does.
  * `runs`, `regs` are history variables (not in the code): loader runs and accepted registrations.
-/
namespace Reflect.Registry

/-- the address of a registered type -/
notation "TypeId" => Nat
/-- identity of a loader function -/
notation "LoaderId" => Nat

/-- One registry-visible action of a loader or of the main program. -/
inductive Act where
  /-- `Registry::get(id)`, registry.cpp:51-66 -/
  | get (id : Name)
  /-- `Registry::add(id, loader)`, registry.cpp:104-117 -/
  | add (id : Name) (l : LoaderId)
  /-- `Registry::alias(id, alias)`, registry.cpp:119-135 -/
  | alias (id alias : Name)
  /-- `Registry::get<T>()` for a template type: `Reflect<T>::loader()` registers once
      (dsl/template.h:17-24), then `get(id)` (registry.h:31-38) -/
  | require (id : Name) (l : LoaderId)
  /-- a member definition on the type under construction -/
  | member (m : Nat)
  /-- `reflectError` raised by the loader itself -/
  | fail
  deriving DecidableEq, Repr

/-- `RegistryState`, registry.cpp:20-27, plus the static flags of template loaders and the members
    defined so far per type. -/
structure St where
  types   : Assoc Name TypeId
  aliases : Assoc Name Name
  loaders : Assoc Name LoaderId
  scopes  : Scope.Tree Unit
  flags   : List LoaderId
  defs    : List (TypeId × Nat)
  next    : TypeId
  runs    : List (Name × LoaderId × TypeId)
  regs    : List (Name × LoaderId)

def St.init : St :=
  { types := [], aliases := [], loaders := [], scopes := Scope.Tree.root, flags := [], defs := []
    next := 0, runs := [], regs := [] }

/-- `Registry::add(id, loader)`, registry.cpp:104-117. The loader is kept even when the scope tree
    refuses the name at line 116. -/
def addLoader (s : St) (id : Name) (l : LoaderId) : St × Res Unit :=
  if id = [] then (s, .error .err)
  else
    let s := { s with loaders := s.loaders.emplace id l, regs := s.regs ++ [(id, l)] }
    let r := Scope.addType s.scopes id
    ({ s with scopes := r.1 }, r.2)

/-- `Registry::alias`, registry.cpp:119-135. -/
def addAlias (s : St) (id alias : Name) : St × Res Unit :=
  if id = [] ∨ alias = [] then (s, .error .err)
  else match s.aliases.get alias with
    | some _ => (s, .error .err)
    | none => ({ s with aliases := s.aliases.emplace alias id }, .ok ())

/-- The name a lookup is really about, registry.cpp:58-62. -/
def resolve (s : St) (id : Name) : Name := (s.aliases.get id).getD id

/-- Sequencing under exceptions: an error ends the sequence and keeps the state reached. -/
def andThen (r : St × Res Unit) (k : St → St × Res Unit) : St × Res Unit :=
  match r.2 with
  | .error e => (r.1, .error e)
  | .ok () => k r.1

/-- A lookup whose result is dropped. -/
def lookup (get : St → Name → St × Res TypeId) (id : Name) (s : St) : St × Res Unit :=
  ((get s id).1, (get s id).2.map fun _ => ())

/-- `Reflect<T>::loader()` of a template type, dsl/template.h:17-24: a static flag guards the
    registration and is set before it. -/
def templateLoader (id : Name) (l : LoaderId) (s : St) : St × Res Unit :=
  if l ∈ s.flags then (s, .ok ())
  else addLoader { s with flags := l :: s.flags } id l

/-- One action, given how to look a type up. `cur` is the type under construction. -/
def runAct (get : St → Name → St × Res TypeId) (cur : Option TypeId) (s : St) :
    Act → St × Res Unit
  | .get id => lookup get id s
  | .add id l => addLoader s id l
  | .alias id al => addAlias s id al
  | .require id l => andThen (templateLoader id l s) (lookup get id)
  | .member m => (match cur with
      | none => s
      | some t => { s with defs := s.defs ++ [(t, m)] }, .ok ())
  | .fail => (s, .error .err)

/-- Running a script: stops at the first error, as an exception does. -/
def runActs (get : St → Name → St × Res TypeId) (cur : Option TypeId) :
    List Act → St → St × Res Unit
  | [], s => (s, .ok ())
  | a :: as, s => andThen (runAct get cur s a) (runActs get cur as)

variable (prog : LoaderId → List Act)

/-- The state in which a loader starts: it has left the table and its type is registered already,
    registry.cpp:81-85 with `Registry::add(id, type)` at 91-102 (whose own checks cannot fail here:
    the id is non-empty and `get` found no type under it). -/
def beginLoad (s : St) (id : Name) (l : LoaderId) : St :=
  { s with
    loaders := s.loaders.erase id
    types := s.types.emplace id s.next
    next := s.next + 1
    runs := s.runs ++ [(id, l, s.next)] }

/-- `Registry::get`, registry.cpp:51-66, and `Registry::load`, registry.cpp:69-89. -/
def get : (fuel : Nat) → St → Name → St × Res TypeId
  | 0, s, _ => (s, .error .diverge)
  | fuel + 1, s, id =>
    let pid := resolve s id
    match s.types.get pid with
    | some t => (s, .ok t)
    | none =>
      if pid = [] then (s, .error .err)
      else match s.loaders.get pid with
        | none => (s, .error .err)
        | some l =>
          let r := runActs (get fuel) (some s.next) (prog l) (beginLoad s pid l)
          (r.1, r.2.map fun _ => s.next)

/-- One operation of the main program: raising ends the operation, not the history (the caller may
    catch). -/
def step (fuel : Nat) (s : St) (a : Act) : St × Res Unit := runActs (get prog fuel) none [a] s

/-- A history. -/
def run (fuel : Nat) (s : St) (ops : List Act) : St :=
  ops.foldl (fun s a => (step prog fuel s a).1) s

end Reflect.Registry

import Verif.Model.Assoc
/-
  Concurrent lookups: src/registry.cpp:51-102 executed by several threads.

  `std::lock_guard<std::mutex>(registry.lock);` (registry.cpp:56) is an expression statement: the
  guard is a temporary that is destroyed at the semicolon. The lock is therefore held at no table
  access, and every access of a lookup is a separate step here:

    `look`    resolve the alias and search `types`          registry.cpp:58-65
    `missed`  search `loaders`                              registry.cpp:73-79
    `found`   move the loader out and erase its entry       registry.cpp:81-82
    `erased`  create the type and register it               registry.cpp:84-85, 91-102
    `run`     the actions of the loader, one per step       registry.cpp:87

  Simplifications: each access is atomic (in C++ two unsynchronised accesses to one `unordered_map`,
  one of them a write, are a data race and undefined behaviour, so this is the most favourable
  reading); aliases are fixed while the lookups run; loaders define members and look types up.
  An exception unwinds the whole lookup of its thread.
-/
namespace Reflect.Conc

/-- an action of a loader -/
inductive CAct where
  | member (m : Nat)
  | get (id : Name)
  deriving DecidableEq

/-- one activation of `Registry::get` -/
inductive Frame where
  | look (id : Name)
  | missed (id : Name)
  | found (id : Name) (l : Nat)
  | erased (id : Name) (l : Nat)
  | run (t : Nat) (rest : List CAct)
  deriving DecidableEq

structure Thread where
  /-- the name whose lookup is under way -/
  cur : Name
  /-- activations, innermost first -/
  stack : List Frame
  /-- names still to look up -/
  todo : List Name
  /-- finished lookups -/
  out : List (Name × Res Nat)
  deriving DecidableEq

structure Shared where
  types : Assoc Name Nat
  loaders : Assoc Name Nat
  defs : List (Nat × Nat)
  next : Nat
  deriving DecidableEq

variable (aliases : Assoc Name Name) (prog : Nat → List CAct)

def resolve (id : Name) : Name := (aliases.get id).getD id

/-- the innermost lookup is over with type `t` -/
def ret (th : Thread) (rest : List Frame) (t : Nat) : Thread :=
  match rest with
  | [] => { th with stack := [], out := th.out ++ [(th.cur, .ok t)] }
  | _ => { th with stack := rest }

/-- an exception (or a fault) ends the whole lookup -/
def abort (th : Thread) (x : Fault) : Thread :=
  { th with stack := [], out := th.out ++ [(th.cur, .error x)] }

/-- one step of one thread -/
def stepThread (s : Shared) (th : Thread) : Shared × Thread :=
  match th.stack with
  | [] => match th.todo with
    | [] => (s, th)
    | id :: ids => (s, { th with cur := id, stack := [.look id], todo := ids })
  | .look id :: rest =>
    let pid := resolve aliases id
    match s.types.get pid with
    | some t => (s, ret th rest t)
    | none => (s, { th with stack := .missed pid :: rest })
  | .missed id :: rest =>
    if id = [] then (s, abort th .err)
    else match s.loaders.get id with
      | none => (s, abort th .err)
      | some l => (s, { th with stack := .found id l :: rest })
  | .found id l :: rest =>
    -- the iterator is dangling when another thread erased the entry meanwhile
    match s.loaders.get id with
    | none => (s, abort th .ub)
    | some _ => ({ s with loaders := s.loaders.erase id }, { th with stack := .erased id l :: rest })
  | .erased id l :: rest =>
    match s.types.get id with
    | some _ => (s, abort th .err)
    | none => ({ s with types := s.types.emplace id s.next, next := s.next + 1 },
        { th with stack := .run s.next (prog l) :: rest })
  | .run t [] :: rest => (s, ret th rest t)
  | .run t (.member m :: as) :: rest =>
    ({ s with defs := s.defs ++ [(t, m)] }, { th with stack := .run t as :: rest })
  | .run t (.get id :: as) :: rest => (s, { th with stack := .look id :: .run t as :: rest })

structure Config where
  shared : Shared
  threads : List Thread
  deriving DecidableEq

/-- thread `i` takes a step; a missing thread does nothing -/
def stepAt (c : Config) (i : Nat) : Config :=
  match c.threads[i]? with
  | none => c
  | some th =>
    let r := stepThread aliases prog c.shared th
    { shared := r.1, threads := c.threads.set i r.2 }

/-- a schedule is the list of threads that step, in order -/
def runSched (c : Config) (sched : List Nat) : Config := sched.foldl (stepAt aliases prog) c

/-- threads that have not started -/
def start (s : Shared) (works : List (List Name)) : Config :=
  { shared := s, threads := works.map fun ids => { cur := [], stack := [], todo := ids, out := [] } }

end Reflect.Conc

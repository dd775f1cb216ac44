import Verif.Model.Assign
import Verif.Model.StdTypes
/-
  Objects made with `new`: `reflectAllocPlumbing`, src/dsl/plumbing.h:45-63, 81-99, 124-142, 207-212,
  `reflectAlloc`, src/dsl/function.h:44-51, `Type::call`, src/type.tcc:40-47, `Type::alloc`,
  src/type.cpp:269-274, and `operator*` of a pointer, src/types/pointer.h:37-44.

  A pointer is an object of one cell, which holds the address it points to. Nothing here frees an object:
  the library has no `delete`, the caller has to.

  Simplification: a default constructor gives the cells of an object the contents of an arbitrary function
  `init`; what `new T` (without parentheses, function.h:47) leaves in the cells of a class without one is not
  told from what `new T()` does.
-/
namespace Reflect

/-- `reflectAllocPlumbing()`, dsl/plumbing.h:207-212. `raw` is `T*`. -/
def allocOps (t raw : Ty) (c : Caps) : List TypeOp :=
  let new := "new".toList
  (if c.defaultConstructible then [.addFunction new (Fn.make new raw.val [] 12)] else []) ++
  (if c.copyConstructible then [.addFunction new (Fn.make new raw.val [t.cref] 13)] else []) ++
  (if c.moveConstructible then [.addFunction new (Fn.make new raw.val [t.rref] 14)] else [])

/-- `reflectAlloc()`, dsl/function.h:44-51. -/
def allocatorOps (raw : Ty) : List TypeOp :=
  let new := "new".toList
  [.addFunction new (Fn.make new raw.val [] 12)]

namespace Heap

/-- a fresh object of `n` cells: `new T()` -/
def newObj (h : Heap) (init : Nat → Nat) (n : Nat) : Heap × Nat :=
  ({ mem := fun x => if h.next ≤ x ∧ x < h.next + n then init (x - h.next) else h.mem x
     next := h.next + n + 1 }, h.next)

/-- the pointer a function returns: a temporary of one cell that holds the address -/
def pointTo (h : Heap) (a : Nat) : Heap × BRet :=
  let r := h.newObj (fun _ => a) 1
  (r.1, .obj r.2)

end Heap

/-- `return new T();`, plumbing.h:57 and function.h:47. -/
def newBody (init : Nat → Nat) (n : Nat) (hp : Heap) : Heap × BRet :=
  let r := hp.newObj init n
  r.1.pointTo r.2

/-- `return new T(other);`, plumbing.h:90-92. -/
def newCopyBody (n : Nat) (hp : Heap) (a : Nat) : Res (Heap × BRet) :=
  (hp.copyObj n a).map fun r => r.1.pointTo r.2

/-- `return new T(std::move(other));`, plumbing.h:133-135. -/
def newMoveBody (moved : Nat → Nat) (n : Nat) (hp : Heap) (a : Nat) : Res (Heap × BRet) :=
  (hp.moveObj moved n a).map fun r => r.1.pointTo r.2

/-- `return *ptr;`, pointer.h:37-44, for the pointer at `a`: the object it points to. A null or dangling
    pointer gives a reference all the same; using it is undefined behaviour. -/
def derefBody (hp : Heap) (a : Nat) : Res (Heap × BRet) :=
  if hp.Ok a 1 then .ok (hp, .obj (hp.mem a)) else .error .ub

variable (p : Prog)

/-- `Type::call<Ret>(fn, args...)`, type.tcc:40-47: `function` is the const one, which also looks at the
    parents. -/
def Prog.typeCall (fuel : Nat) (hp : Heap) (t : Ty) (name : Name) (want : Arg) (as : List Actual) :
    Res (Heap × Option BArg) :=
  match p.w.functionF p.w.fuel t name with
  | .error x => .error x
  | .ok o => p.callOv fuel hp o want as

/-- `Type::alloc()`, type.cpp:269-274. -/
def Prog.alloc (fuel : Nat) (hp : Heap) (t : Ty) : Res (Heap × Option BArg) :=
  p.typeCall fuel hp t "new".toList p.valueArg []

/-- A program that calls `alloc()` (type.cpp:269-274) on each of the types, in order, and keeps the values returned. -/
def Prog.allocs (fuel : Nat) (hp : Heap) : List Ty → Res (Heap × List Handle)
  | [] => .ok (hp, [])
  | t :: ts => match p.alloc fuel hp t with
    | .error e => .error e
    | .ok (_, none) => .error .ub
    | .ok (_, some (.obj _ _)) => .error .ub
    | .ok (h, some (.val v)) => match Prog.allocs fuel h ts with
      | .error e => .error e
      | .ok (h', vs) => .ok (h', v :: vs)

end Reflect

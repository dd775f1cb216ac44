import Verif.Model.Vector
/-
  The functions of the reflected smart pointers, src/types/std/smart_ptr.h:35-78: those that smart_ptr.h writes itself
  (`get`, `operator bool()`, `operator*`, `operator==`, the constructor from a pointer, `reset()` of `std::unique_ptr`), the
  members of the standard it names (`reset`, `release`), and the copy and move operations that `reflectPlumbing` wraps.

  A `std::unique_ptr` is an object of one cell: the address of what it points to, 0 if nothing. A `std::shared_ptr` has a second
  cell: the address of the count it shares with the others that own the same object, 0 if there is none.

  `delete` is modelled as a mark: the cell in front of an object counts how often the object was deleted. (Objects are
  allocated with a spare cell between them, `Heap.newObj`; memory is not reused.)

  Simplifications: deleting runs no destructor; a `std::shared_ptr` has no weak references and no deleter.
-/
namespace Reflect

namespace Heap

/-- `delete a` -/
def delete (h : Heap) (a : Nat) : Heap := if a = 0 then h else h.poke (a - 1) (h.mem (a - 1) + 1)

/-- how often the object at `a` was deleted -/
def deleted (h : Heap) (a : Nat) : Nat := h.mem (a - 1)

/-- `unique_ptr::reset(a)`: the pointer is set, then what it had is deleted -/
def uniSet (h : Heap) (u a : Nat) : Heap := (h.poke u a).delete (h.mem u)

/-- An owner of `a` with the count at `c` goes: the last one deletes. -/
def drop (h : Heap) (a c : Nat) : Heap :=
  if c = 0 then h
  else if h.mem c = 1 then (h.poke c (h.mem c - 1)).delete a
  else h.poke c (h.mem c - 1)

/-- `shared_ptr(…).swap(*this)`: the pointer at `u` gets `a` and the count `c` of a temporary, which then goes with what the
    pointer had -/
def shSwap (h : Heap) (u a c : Nat) : Heap := ((h.poke u a).poke (u + 1) c).drop (h.mem u) (h.mem (u + 1))

/-- one more owner -/
def bump (h : Heap) (c : Nat) : Heap := if c = 0 then h else h.poke c (h.mem c + 1)

end Heap

/-! ### both; `n` is the number of cells -/

/-- `value.get()`, smart_ptr.h:41 -/
def ptrGet (n : Nat) (hp : Heap) (u : Nat) : Res (Heap × BRet) :=
  if hp.Ok u n then .ok (hp.pointTo (hp.mem u)) else .error .ub

/-- `!!value`, smart_ptr.h:42 -/
def ptrBool (n : Nat) (hp : Heap) (u : Nat) : Res (Heap × BRet) :=
  if hp.Ok u n then
    let r := hp.newObj (fun _ => if hp.mem u = 0 then 0 else 1) 1
    .ok (r.1, .obj r.2)
  else .error .ub

/-- `*value`, smart_ptr.h:43: undefined if there is no object -/
def ptrDeref (n : Nat) (hp : Heap) (u : Nat) : Res (Heap × BRet) :=
  if hp.Ok u n ∧ hp.mem u ≠ 0 then .ok (hp, .obj (hp.mem u)) else .error .ub

/-- `value == other`, smart_ptr.h:44-46 -/
def ptrEq (n : Nat) (hp : Heap) (u w : Nat) : Res (Heap × BRet) :=
  if hp.Ok u n ∧ hp.Ok w n then
    let r := hp.newObj (fun _ => if hp.mem u = hp.mem w then 1 else 0) 1
    .ok (r.1, .obj r.2)
  else .error .ub

/-! ### `std::unique_ptr` -/

/-- `unique_ptr(x)`, smart_ptr.h:38 -/
def uniMake (hp : Heap) (x : Nat) : Res (Heap × BRet) :=
  if hp.Ok x 1 then .ok (hp.pointTo (hp.mem x)) else .error .ub

/-- `value.release()`, smart_ptr.h:74 -/
def uniRelease (hp : Heap) (u : Nat) : Res (Heap × BRet) :=
  if hp.Ok u 1 then .ok ((hp.poke u 0).pointTo (hp.mem u)) else .error .ub

/-- `value.reset(x)`, smart_ptr.h:75 -/
def uniResetTo (hp : Heap) (u x : Nat) : Res (Heap × BRet) :=
  if hp.Ok u 1 ∧ hp.Ok x 1 then .ok (hp.uniSet u (hp.mem x), .void) else .error .ub

/-- `value.reset()`, smart_ptr.h:76 -/
def uniReset (hp : Heap) (u : Nat) : Res (Heap × BRet) :=
  if hp.Ok u 1 then .ok (hp.uniSet u 0, .void) else .error .ub

/-- `u = std::move(w)`, plumbing.h:181-183: `reset(w.release())` -/
def uniMoveAssign (hp : Heap) (u w : Nat) : Res (Heap × BRet) :=
  if hp.Ok u 1 ∧ hp.Ok w 1 then .ok ((hp.poke w 0).uniSet u (hp.mem w), .obj u) else .error .ub

/-! ### `std::shared_ptr` -/

/-- `shared_ptr(x)`, smart_ptr.h:38 -/
def shMake (hp : Heap) (x : Nat) : Res (Heap × BRet) :=
  if hp.Ok x 1 then
    let c := hp.newObj (fun _ => 1) 1
    let r := c.1.newObj (fun j => if j = 0 then hp.mem x else c.2) 2
    .ok (r.1, .obj r.2)
  else .error .ub

/-- `value.reset()`, smart_ptr.h:60 -/
def shReset (hp : Heap) (u : Nat) : Res (Heap × BRet) :=
  if hp.Ok u 2 then .ok (hp.shSwap u 0 0, .void) else .error .ub

/-- `value.reset(x)`, smart_ptr.h:61 -/
def shResetTo (hp : Heap) (u x : Nat) : Res (Heap × BRet) :=
  if hp.Ok u 2 ∧ hp.Ok x 1 then
    let c := hp.newObj (fun _ => 1) 1
    .ok (c.1.shSwap u (hp.mem x) c.2, .void)
  else .error .ub

/-- `shared_ptr(w)`, plumbing.h:101-122 -/
def shCopy (hp : Heap) (w : Nat) : Res (Heap × BRet) :=
  if hp.Ok w 2 then
    let r := (hp.bump (hp.mem (w + 1))).newObj (fun j => hp.mem (w + j)) 2
    .ok (r.1, .obj r.2)
  else .error .ub

/-- `u = w`, plumbing.h:161-163 -/
def shAssign (hp : Heap) (u w : Nat) : Res (Heap × BRet) :=
  if hp.Ok u 2 ∧ hp.Ok w 2 then .ok ((hp.bump (hp.mem (w + 1))).shSwap u (hp.mem w) (hp.mem (w + 1)), .obj u) else .error .ub

/-- `u = std::move(w)`, plumbing.h:181-183 -/
def shMoveAssign (hp : Heap) (u w : Nat) : Res (Heap × BRet) :=
  if hp.Ok u 2 ∧ hp.Ok w 2 then
    .ok (((hp.poke w 0).poke (w + 1) 0).shSwap u (hp.mem w) (hp.mem (w + 1)), .obj u)
  else .error .ub

end Reflect

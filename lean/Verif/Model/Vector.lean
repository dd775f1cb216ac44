import Verif.Model.Alloc
/-
  The functions of a reflected `std::vector`, src/types/std/vector.h:30-44: those that vector.h writes itself
  (`operator[]`, `at`), and the members of the standard it names (`size`, `clear`, `resize`, `push_back`).

  A vector is an object of three cells: the address of its elements, how many there are, and for how many there
  is room. The elements, of `n` cells each, lie side by side. A vector that has no room for what is to be
  added moves its elements to a fresh place, `grow` says with room for how many; the former place is given
  back (its cells keep what they have in the model: nothing is said about them).

  Simplification: elements are copied and moved cell by cell, as all objects in `Model/Value.lean`.
-/
namespace Reflect

namespace Heap

/-- `n` cells written at `a` -/
def put (h : Heap) (a : Nat) (f : Nat → Nat) (n : Nat) : Heap :=
  { h with mem := fun x => if a ≤ x ∧ x < a + n then f (x - a) else h.mem x }

/-- one cell written -/
def poke (h : Heap) (a x : Nat) : Heap := { h with mem := fun y => if y = a then x else h.mem y }

end Heap

/-- `value.size()`, vector.h:30 -/
def vecSize (hp : Heap) (v : Nat) : Res (Heap × BRet) :=
  if hp.Ok v 3 then
    let r := hp.newObj (fun _ => hp.mem (v + 1)) 1
    .ok (r.1, .obj r.2)
  else .error .ub

/-- `value.clear()`, vector.h:31 -/
def vecClear (hp : Heap) (v : Nat) : Res (Heap × BRet) :=
  if hp.Ok v 3 then .ok (hp.poke (v + 1) 0, .void) else .error .ub

/-- `value[i]`, vector.h:36-38: out of bounds is undefined -/
def vecIndex (n : Nat) (hp : Heap) (v i : Nat) : Res (Heap × BRet) :=
  if hp.Ok v 3 ∧ hp.Ok i 1 ∧ hp.mem i < hp.mem (v + 1) then .ok (hp, .obj (hp.mem v + n * hp.mem i)) else .error .ub

/-- `at`, vector.h:39-43 -/
def vecAt (n : Nat) (hp : Heap) (v i : Nat) : Res (Heap × BRet) :=
  if hp.Ok v 3 ∧ hp.Ok i 1 then
    if hp.mem i ≥ hp.mem (v + 1) then .error .err else .ok (hp, .obj (hp.mem v + n * hp.mem i))
  else .error .ub

/-- `value.push_back(x)`, vector.h:33-34: the new element is made from `x`, which is left with what `mark` says
    (itself, for a copy), before the others are moved to where there is room. -/
def vecPush (n : Nat) (grow : Nat → Nat) (mark : Nat → Nat) (hp : Heap) (v x : Nat) : Res (Heap × BRet) :=
  if hp.Ok v 3 ∧ hp.Ok x n then
    let buf := hp.mem v
    let len := hp.mem (v + 1)
    let hm := hp.put x (fun j => mark (hp.mem (x + j))) n
    if len < hp.mem (v + 2) then
      .ok ((hm.put (buf + n * len) (fun j => hp.mem (x + j)) n).poke (v + 1) (len + 1), .void)
    else
      let r := hm.newObj (fun j => if j < n * len then hm.mem (buf + j) else hp.mem (x + (j - n * len))) (n * grow (len + 1))
      .ok (((r.1.poke v r.2).poke (v + 1) (len + 1)).poke (v + 2) (grow (len + 1)), .void)
  else .error .ub

/-- `value.resize(k)`, vector.h:32: elements that are added have the contents `init` -/
def vecResize (n : Nat) (grow : Nat → Nat) (init : Nat → Nat) (hp : Heap) (v k : Nat) : Res (Heap × BRet) :=
  if hp.Ok v 3 ∧ hp.Ok k 1 then
    let buf := hp.mem v
    let len := hp.mem (v + 1)
    let k := hp.mem k
    if k ≤ len then .ok (hp.poke (v + 1) k, .void)
    else if k ≤ hp.mem (v + 2) then
      .ok ((hp.put (buf + n * len) (fun j => init (j % n)) (n * (k - len))).poke (v + 1) k, .void)
    else
      let r := hp.newObj (fun j => if j < n * len then hp.mem (buf + j) else init ((j - n * len) % n)) (n * grow k)
      .ok (((r.1.poke v r.2).poke (v + 1) k).poke (v + 2) (grow k), .void)
  else .error .ub

end Reflect

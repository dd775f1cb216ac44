import Verif.Model.Vector
import Verif.Lemmas.Value
/-
  A vector in memory and the sequence it stands for.
-/
namespace Reflect

namespace Heap

/-- the contents of the object of `n` cells at `a` -/
def cells (h : Heap) (a n : Nat) : List Nat := (List.range n).map fun j => h.mem (a + j)

/-- the elements of the vector at `v`, each with its contents -/
def elems (h : Heap) (n v : Nat) : List (List Nat) :=
  (List.range (h.mem (v + 1))).map fun i => h.cells (h.mem v + n * i) n

/-- the cell `y` is one of the vector at `v` or of the place where it keeps its elements -/
def InVec (h : Heap) (n v y : Nat) : Prop :=
  (v ≤ y ∧ y < v + 3) ∨ (h.mem v ≤ y ∧ y < h.mem v + n * h.mem (v + 2))

/-- there is a vector at `v` -/
structure IsVec (h : Heap) (n v : Nat) : Prop where
  obj : h.Ok v 3
  room : h.mem (v + 1) ≤ h.mem (v + 2)
  /-- the place of the elements -/
  buf : 0 < h.mem v ∧ h.mem v + n * h.mem (v + 2) ≤ h.next ∨ h.mem (v + 2) = 0
  apart : v + 3 ≤ h.mem v ∨ h.mem v + n * h.mem (v + 2) ≤ v ∨ h.mem (v + 2) = 0

end Heap

/-- Only the vector at `v` and what is new differ. -/
structure Elsewhere (hp hp' : Heap) (n v : Nat) : Prop where
  same : ∀ y < hp.next, ¬ hp.InVec n v y → hp'.mem y = hp.mem y
  grow : hp.next ≤ hp'.next
  /-- the vector takes no object of others -/
  mine : ∀ y < hp.next, hp'.InVec n v y → hp.InVec n v y

/-- a call that changes a vector -/
inductive VecCall where
  /-- `push_back(x)` -/
  | push (x : Handle)
  /-- `push_back(x.rvalue())` -/
  | pushMoved (x : Handle)
  /-- `v[i].assign(x)` -/
  | set (i x : Handle)
  | clear
  | resize (k : Handle)

/-- what there is outside of the vector, and the sequence -/
abbrev VecState := (Nat → Nat) × List (List Nat)

namespace VecCall

/-- the call -/
def call (p : Prog) (fuel : Nat) (hp : Heap) (o : Handle) : VecCall → Res Heap
  | push x => (p.callMethod fuel hp o "push_back".toList p.voidArg [.dyn x]).map (·.1)
  | pushMoved x => (p.callMethod fuel hp o "push_back".toList p.voidArg [.dyn x.rvalue]).map (·.1)
  | set i x => match p.callMethod fuel hp o "operator[]".toList p.valueArg [.dyn i] with
    | .ok (h1, some (.val r)) => p.assign fuel h1 r (.dyn x)
    | .ok (h1, _) => .ok h1
    | .error e => .error e
  | clear => (p.callMethod fuel hp o "clear".toList p.voidArg []).map (·.1)
  | resize k => (p.callMethod fuel hp o "resize".toList p.voidArg [.dyn k]).map (·.1)

/-- one call after the other -/
def all (p : Prog) (fuel : Nat) (o : Handle) : Heap → List VecCall → Res Heap
  | hp, [] => .ok hp
  | hp, c :: cs => match c.call p fuel hp o with
    | .error x => .error x
    | .ok hp' => all p fuel o hp' cs

/-- what it does to a sequence, and outside of it; `none`: the behaviour is undefined. Elements are of `n` cells. -/
def effect (n : Nat) (init moved : Nat → Nat) : VecCall → VecState → Option VecState
  | push x, (f, xs) => some (f, xs ++ [(List.range n).map fun j => f (x.addr + j)])
  | pushMoved x, (f, xs) => some (fun y => if x.addr ≤ y ∧ y < x.addr + n then moved (f y) else f y,
      xs ++ [(List.range n).map fun j => f (x.addr + j)])
  | set i x, (f, xs) =>
      if f i.addr < xs.length then some (f, xs.set (f i.addr) ((List.range n).map fun j => f (x.addr + j))) else none
  | clear, (f, _) => some (f, [])
  | resize k, (f, xs) => some (f, xs.take (f k.addr) ++ List.replicate (f k.addr - xs.length) ((List.range n).map init))

/-- there is an element at `x`, outside of the vector at `v` -/
def Element (p : Prog) (hp : Heap) (elem : Ty) (v : Nat) (x : Handle) : Prop :=
  hp.Ok x.addr (p.size elem) ∧ ∀ j < p.size elem, ¬ hp.InVec (p.size elem) v (x.addr + j)

/-- there is a number at `k`, outside of the vector at `v` -/
def Number (p : Prog) (hp : Heap) (elem sizeT : Ty) (v : Nat) (k : Handle) : Prop :=
  Copied p k.arg sizeT ∧ hp.Ok k.addr 1 ∧ ¬ hp.InVec (p.size elem) v k.addr

/-- the arguments are an element, a number, outside of the vector at `v` -/
def Ready (p : Prog) (hp : Heap) (elem sizeT : Ty) (v : Nat) : VecCall → Prop
  | push x => Copied p x.arg elem ∧ Element p hp elem v x
  | pushMoved x => MovedFrom p x.rvalue.arg elem ∧ Element p hp elem v x
  | set i x => Number p hp elem sizeT v i ∧ Copied p x.arg elem ∧ Element p hp elem v x
  | clear => True
  | resize k => Number p hp elem sizeT v k

/-- what is needed of the elements: that they can be moved, assigned -/
def Can (p : Prog) (elem : Ty) (Assigned : Prop) : VecCall → Prop
  | pushMoved _ => (p.caps elem).moveConstructible = true ∧ p.w.isMovable elem = true
  | set _ _ => Assigned
  | _ => True

end VecCall

end Reflect

import Verif.Model.SmartPtr
import Verif.Lemmas.Value
/-
  Pointers that own: what a number of smart pointers hold, and what is deleted when one of them is given something else.
-/
namespace Reflect

/-- One of the pointers `P` holds `a`; `own` says what each holds, 0 for nothing. -/
def Held (P : List Nat) (own : Nat → Nat) (a : Nat) : Prop := ∃ q ∈ P, own q = a

instance (P : List Nat) (own : Nat → Nat) (a : Nat) : Decidable (Held P own a) := by unfold Held; infer_instance

/-- the pointer at `q` is given `a` -/
def give (own : Nat → Nat) (q a : Nat) : Nat → Nat := fun y => if y = q then a else own y

/-- a call that changes what a smart pointer holds; `q` and `r` are values of pointers, `x` of a plain pointer -/
inductive PtrCall where
  /-- `q.reset()` -/
  | reset (q : Handle)
  /-- `q.reset(x)` -/
  | take (q x : Handle)
  /-- `q.assign(r)` -/
  | copy (q r : Handle)
  /-- `q.assign(r.rvalue())` -/
  | move (q r : Handle)
  /-- `q.release()` -/
  | release (q : Handle)

namespace PtrCall

/-- the call -/
def call (p : Prog) (fuel : Nat) (hp : Heap) : PtrCall → Res Heap
  | reset q => (p.callMethod fuel hp q "reset".toList p.voidArg []).map (·.1)
  | take q x => (p.callMethod fuel hp q "reset".toList p.voidArg [.dyn x]).map (·.1)
  | copy q r => p.assign fuel hp q (.dyn r)
  | move q r => p.assign fuel hp q (.dyn r.rvalue)
  | release q => (p.callMethod fuel hp q "release".toList p.valueArg []).map (·.1)

/-- one call after the other -/
def all (p : Prog) (fuel : Nat) : Heap → List PtrCall → Res Heap
  | hp, [] => .ok hp
  | hp, c :: cs => match c.call p fuel hp with
    | .error x => .error x
    | .ok hp' => all p fuel hp' cs

/-- what the pointers hold after it; `hp` says where a plain pointer points -/
def effect (hp : Heap) : PtrCall → (Nat → Nat) → Nat → Nat
  | reset q, own => give own q.addr 0
  | take q x, own => give own q.addr (hp.mem x.addr)
  | copy q r, own => give own q.addr (own r.addr)
  | move q r, own => give (give own r.addr 0) q.addr (own r.addr)
  | release q, own => give own q.addr 0

/-- with it, the last pointer to `a` lets go of it -/
def LetsGo (hp : Heap) (P : List Nat) (c : PtrCall) (own : Nat → Nat) (a : Nat) : Prop := Held P own a ∧ ¬ Held P (c.effect hp own) a

instance (hp : Heap) (P : List Nat) (c : PtrCall) (own : Nat → Nat) (a : Nat) : Decidable (c.LetsGo hp P own a) := by
  unfold LetsGo; infer_instance

/-- it hands what the pointer held to the caller -/
def isRelease : PtrCall → Bool
  | release _ => true
  | _ => false

/-- how often it deletes `a`: once, if the last pointer lets go of it and the caller does not get it -/
def deletes (hp : Heap) (P : List Nat) (c : PtrCall) (own : Nat → Nat) (a : Nat) : Nat :=
  if c.LetsGo hp P own a ∧ c.isRelease = false then 1 else 0

/-- what the pointers hold after a history -/
def after (hp : Heap) : List PtrCall → (Nat → Nat) → Nat → Nat
  | [], own => own
  | c :: cs, own => after hp cs (c.effect hp own)

/-- how often a history deletes `a` -/
def total (hp : Heap) (P : List Nat) : List PtrCall → (Nat → Nat) → Nat → Nat
  | [], _, _ => 0
  | c :: cs, own, a => c.deletes hp P own a + total hp P cs (c.effect hp own) a

/-- some call of the history hands `a` to the caller -/
def Released (hp : Heap) (P : List Nat) : List PtrCall → (Nat → Nat) → Nat → Prop
  | [], _, _ => False
  | c :: cs, own, a => (c.LetsGo hp P own a ∧ c.isRelease = true) ∨ Released hp P cs (c.effect hp own) a

/-- the objects a history hands to the pointers -/
def taken (hp : Heap) : List PtrCall → List Nat
  | [] => []
  | take _ x :: cs => hp.mem x.addr :: taken hp cs
  | _ :: cs => taken hp cs

/-- No object is handed to a pointer while one holds it. -/
def Legal (hp : Heap) (P : List Nat) : List PtrCall → (Nat → Nat) → Prop
  | [], _ => True
  | c :: cs, own => (match c with | take _ x => ¬ Held P own (hp.mem x.addr) | _ => True) ∧ Legal hp P cs (c.effect hp own)

end PtrCall

/-- the address a smart pointer holds is its first cell -/
def Heap.holds (h : Heap) : Nat → Nat := fun q => h.mem q

/-- The `std::unique_ptr`s at `P`, and the objects `A` they may be given: each holds nothing or an object that no other
holds. -/
structure Uniques (h : Heap) (P A : List Nat) : Prop where
  ptrs : ∀ q ∈ P, h.Ok q 1
  objs : ∀ a ∈ A, 1 < a ∧ a - 1 < h.next ∧ a - 1 ∉ P
  held : ∀ q ∈ P, h.mem q = 0 ∨ h.mem q ∈ A
  alone : ∀ q ∈ P, ∀ q' ∈ P, h.mem q = h.mem q' → h.mem q ≠ 0 → q = q'

/-- what a `std::shared_ptr` holds and the count it uses -/
def Heap.slot (h : Heap) (q : Nat) : Nat × Nat := (h.mem q, h.mem (q + 1))

/-- `x` is what a `std::shared_ptr` has, among all of them `L`: nothing, or an object and a count of how many have it. -/
def Heap.Counted (h : Heap) (P A : List Nat) (L : List (Nat × Nat)) (x : Nat × Nat) : Prop :=
  x = (0, 0) ∨ (x.1 ∈ A ∧ 0 < x.2 ∧ x.2 < h.next ∧ (∀ q ∈ P, x.2 < q ∨ q + 2 ≤ x.2) ∧ (∀ a ∈ A, x.2 ≠ a - 1) ∧
    h.mem x.2 = L.countP fun y => y.2 == x.2)

/-- The `std::shared_ptr`s at `P`, and one that is not in memory with `t`; the objects `A` they may be given. -/
structure SharedWith (h : Heap) (P A : List Nat) (t : Nat × Nat) : Prop where
  ptrs : ∀ q ∈ P, h.Ok q 2
  nodup : P.Nodup
  apart : ∀ q ∈ P, ∀ q' ∈ P, q ≠ q' → q + 2 ≤ q' ∨ q' + 2 ≤ q
  objs : ∀ a ∈ A, 1 < a ∧ a - 1 < h.next ∧ ∀ q ∈ P, a - 1 < q ∨ q + 2 ≤ a - 1
  counted : ∀ x ∈ t :: P.map h.slot, h.Counted P A (t :: P.map h.slot) x
  /-- who holds the same object shares the count -/
  group : ∀ x ∈ t :: P.map h.slot, ∀ y ∈ t :: P.map h.slot, x.1 ≠ 0 → (x.1 = y.1 ↔ x.2 = y.2)

/-- The `std::shared_ptr`s at `P`, and the objects `A` they may be given. -/
def Shareds (h : Heap) (P A : List Nat) : Prop := SharedWith h P A (0, 0)

/-- the cell `y` belongs to the pointers `P` (of `n` cells), to their counts, or tells how often an object of `A` was deleted -/
def Heap.InPool (h : Heap) (n : Nat) (P A : List Nat) (y : Nat) : Prop :=
  (∃ q ∈ P, q ≤ y ∧ y < q + n) ∨ (∃ a ∈ A, y + 1 = a) ∨ (n = 2 ∧ ∃ q ∈ P, h.mem (q + 1) ≠ 0 ∧ y = h.mem (q + 1))

/-- Only the pool and what is new differ. -/
structure ElsewhereP (hp hp' : Heap) (n : Nat) (P A : List Nat) : Prop where
  same : ∀ y < hp.next, ¬ hp.InPool n P A y → hp'.mem y = hp.mem y
  grow : hp.next ≤ hp'.next
  mine : ∀ y < hp.next, hp'.InPool n P A y → hp.InPool n P A y

/-- A call can be made on the pool: the pointers are mutable lvalues in it, of the type `s`; a plain pointer lies outside and
points to one of the objects. -/
def PtrCall.Ready (p : Prog) (hp : Heap) (s raw : Ty) (n : Nat) (P A : List Nat) : PtrCall → Prop
  | reset q => Is q
  | take q x => Is q ∧ Copied p x.arg raw ∧ hp.Ok x.addr 1 ∧ ¬ hp.InPool n P A x.addr ∧ hp.mem x.addr ∈ A
  | copy q r => n = 2 ∧ Is q ∧ r.arg.type = s ∧ r.arg.ref = .lvalue ∧ r.addr ∈ P
  | move q r => Is q ∧ Is r
  | release q => n = 1 ∧ Is q
where
  /-- a mutable lvalue of a pointer of the pool -/
  Is (q : Handle) : Prop := q.arg = s.lref ∧ q.addr ∈ P

end Reflect

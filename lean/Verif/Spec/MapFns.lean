import Verif.Model.MapFns
import Verif.Spec.Vector
import Verif.Model.Assign
/-
  A map in memory and the finite map it stands for.
-/
namespace Reflect

namespace Heap

/-- the entries of the map at `m`, in the order of iteration, each with the contents of the key and of the value -/
def entries (h : Heap) (K : MapKind) (m : Nat) : List (List Nat × List Nat) :=
  (h.nodes m).map fun a => (h.cells a K.key, h.cells (a + K.key) K.val)

/-- what the map has under a key -/
def lookup (h : Heap) (K : MapKind) (m : Nat) (k : List Nat) : Option (List Nat) := (h.entries K m).lookup k

/-- the cell `y` is one of the map at `m`, of its index or of its nodes -/
def InMap (h : Heap) (K : MapKind) (m y : Nat) : Prop :=
  (m ≤ y ∧ y < m + 2) ∨ (h.mem m ≤ y ∧ y < h.mem m + h.mem (m + 1)) ∨ ∃ a ∈ h.nodes m, a ≤ y ∧ y < a + (K.key + K.val)

/-- what `std::map` asks of `std::less` -/
structure _root_.Reflect.TotalOrder (l : List Nat → List Nat → Bool) : Prop where
  irrefl : ∀ a, l a a = false
  trans : ∀ a b c, l a b = true → l b c = true → l a c = true
  total : ∀ a b, a ≠ b → l a b = true ∨ l b a = true

/-- there is a map at `m` -/
structure IsMap (h : Heap) (K : MapKind) (m : Nat) : Prop where
  obj : h.Ok m 2
  index : 0 < h.mem m ∧ h.mem m + h.mem (m + 1) ≤ h.next ∨ h.mem (m + 1) = 0
  indexApart : m + 2 ≤ h.mem m ∨ h.mem m + h.mem (m + 1) ≤ m ∨ h.mem (m + 1) = 0
  /-- the nodes are objects, apart from each other, from the index and from the map -/
  node : ∀ a ∈ h.nodes m, h.Ok a (K.key + K.val) ∧ (a + (K.key + K.val) ≤ m ∨ m + 2 ≤ a) ∧
    (a + (K.key + K.val) ≤ h.mem m ∨ h.mem m + h.mem (m + 1) ≤ a)
  apart : (h.nodes m).Pairwise fun a b => a + (K.key + K.val) ≤ b ∨ b + (K.key + K.val) ≤ a
  /-- no key twice -/
  keys : ((h.nodes m).map fun a => h.cells a K.key).Nodup
  /-- the keys of a `std::map` ascend -/
  sorted : ∀ l, K.less = some l → ((h.nodes m).map fun a => h.cells a K.key).Pairwise fun a b => l a b = true

/-- the value of the key `k` lies at `a` -/
def ValueAt (h : Heap) (K : MapKind) (m : Nat) (k : List Nat) (a : Nat) : Prop :=
  ∃ b ∈ h.nodes m, a = b + K.key ∧ h.cells b K.key = k

end Heap

/-- Only the map at `m` and what is new differ. -/
structure ElsewhereM (hp hp' : Heap) (K : MapKind) (m : Nat) : Prop where
  same : ∀ y < hp.next, ¬ hp.InMap K m y → hp'.mem y = hp.mem y
  grow : hp.next ≤ hp'.next
  /-- the map takes no object of others -/
  mine : ∀ y < hp.next, hp'.InMap K m y → hp.InMap K m y

/-- the cell `y` is one of the temporary of `n` cells handed over, if it is one -/
def Actual.OwnN (x : Actual) (n y : Nat) : Prop := ∃ arg a, arg.ref ≠ .lvalue ∧ x = .native arg a ∧ a ≤ y ∧ y < a + n

/-- a call, or two, that change a map -/
inductive MapCall where
  /-- `m[k]`: the key is there afterwards -/
  | touch (k : Handle)
  /-- `m[k].assign(x)` -/
  | set (k x : Handle)

namespace MapCall

/-- the calls -/
def call (p : Prog) (fuel : Nat) (hp : Heap) (o : Handle) : MapCall → Res Heap
  | touch k => match p.callMethod fuel hp o "operator[]".toList p.valueArg [.dyn k] with
    | .error x => .error x
    | .ok (hp', _) => .ok hp'
  | set k x => match p.callMethod fuel hp o "operator[]".toList p.valueArg [.dyn k] with
    | .ok (hp', some (.val r)) => p.assign fuel hp' r (.dyn x)
    | .ok _ => .error .err
    | .error x => .error x

/-- one after the other -/
def all (p : Prog) (fuel : Nat) (o : Handle) : Heap → List MapCall → Res Heap
  | hp, [] => .ok hp
  | hp, c :: cs => match c.call p fuel hp o with
    | .error x => .error x
    | .ok hp' => all p fuel o hp' cs

/-- what it does to a finite map; `hp` says what the arguments are -/
def effect (hp : Heap) (K : MapKind) (c : MapCall) (f : List Nat → Option (List Nat)) (k : List Nat) : Option (List Nat) :=
  match c with
  | touch a => if k = hp.cells a.addr K.key then some ((f k).getD ((List.range K.val).map K.init)) else f k
  | set a x => if k = hp.cells a.addr K.key then some (hp.cells x.addr K.val) else f k

/-- the key and the value are such, and outside of the map at `m` -/
def Ready (p : Prog) (hp : Heap) (key elem : Ty) (K : MapKind) (m : Nat) : MapCall → Prop
  | touch k => Copied p k.arg key ∧ hp.Ok k.addr K.key ∧ ∀ j < K.key, ¬ hp.InMap K m (k.addr + j)
  | set k x => (Copied p k.arg key ∧ hp.Ok k.addr K.key ∧ ∀ j < K.key, ¬ hp.InMap K m (k.addr + j)) ∧
    Copied p x.arg elem ∧ hp.Ok x.addr K.val ∧ ∀ j < K.val, ¬ hp.InMap K m (x.addr + j)

end MapCall

end Reflect

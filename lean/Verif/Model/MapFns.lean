import Verif.Model.Vector
/-
  The functions of the reflected maps, src/types/std/map.h:36-57: those of `std::map` and of `std::unordered_map`.

  A map is an object of two cells: the address of its index and the number of its entries. The index lists
  the addresses of the nodes in the order in which iteration visits them; a node holds a key and, after it, the
  value. Nodes stay where they are when others are added (both containers promise it). A `std::map` puts a new node
  at its place in the order of the keys; an `std::unordered_map` may arrange all nodes anew in any way (rehashing).

  Simplifications: keys are equal if their cells are (in a `std::map`: if neither is less; the same, if the order is total); keys and values are copied cell by cell, as all objects in
  `Model/Value.lean`; the index stands for the links between the nodes, and a new one is made for each new entry.
-/
namespace Reflect

/-- What is particular to a map type. -/
structure MapKind where
  /-- cells of a key, and of a value -/
  key : Nat
  val : Nat
  /-- `std::less` on the contents of keys, of a `std::map`; none for an `std::unordered_map` -/
  less : Option (List Nat → List Nat → Bool)
  /-- the order of an `std::unordered_map` after a node was added: given the new node first, then the others in their order -/
  arrange : Heap → List Nat → List Nat
  /-- the contents of a value-initialised value -/
  init : Nat → Nat

namespace Heap

/-- the `n` cells at `a` and at `b` are the same: `operator==` of keys -/
def sameCells (h : Heap) (a b n : Nat) : Bool := (List.range n).all fun j => h.mem (a + j) == h.mem (b + j)

/-- the nodes of the map at `m` in the order of iteration -/
def nodes (h : Heap) (m : Nat) : List Nat := (List.range (h.mem (m + 1))).map fun i => h.mem (h.mem m + i)

/-- `value.find(k)`, map.h:45: the node with the key at `k` -/
def mapFind (h : Heap) (K : MapKind) (m k : Nat) : Option Nat := (h.nodes m).find? fun a => h.sameCells a k K.key

/-- the contents of the key of the node `a` -/
def keyOf (h : Heap) (K : MapKind) (a : Nat) : List Nat := (List.range K.key).map fun j => h.mem (a + j)

/-- Where a new node `n` goes among the nodes `ns`: in a `std::map` behind the nodes with lesser keys. -/
def place (h : Heap) (K : MapKind) (n : Nat) (ns : List Nat) : List Nat :=
  match K.less with
  | none => K.arrange h (n :: ns)
  | some l => ns.takeWhile (fun a => l (h.keyOf K a) (h.keyOf K n)) ++ n :: ns.dropWhile fun a => l (h.keyOf K a) (h.keyOf K n)

/-- A node for the key at `k` added to the map; the address of the node. -/
def mapInsert (h : Heap) (K : MapKind) (m k : Nat) : Heap × Nat :=
  let node := h.newObj (fun j => if j < K.key then h.mem (k + j) else K.init (j - K.key)) (K.key + K.val)
  let ns := node.1.place K node.2 (h.nodes m)
  let idx := node.1.newObj (fun i => ns[i]?.getD 0) (h.mem (m + 1) + 1)
  ((idx.1.poke m idx.2).poke (m + 1) (h.mem (m + 1) + 1), node.2)

end Heap

/-- `value.size()`, map.h:36 -/
def mapSize (hp : Heap) (m : Nat) : Res (Heap × BRet) :=
  if hp.Ok m 2 then
    let r := hp.newObj (fun _ => hp.mem (m + 1)) 1
    .ok (r.1, .obj r.2)
  else .error .ub

/-- `value.count(k)`, map.h:37-39 -/
def mapCount (K : MapKind) (hp : Heap) (m k : Nat) : Res (Heap × BRet) :=
  if hp.Ok m 2 ∧ hp.Ok k K.key then
    let r := hp.newObj (fun _ => if (hp.mapFind K m k).isSome then 1 else 0) 1
    .ok (r.1, .obj r.2)
  else .error .ub

/-- `value[k]`, map.h:40-42: a key that is missing is added -/
def mapIndex (K : MapKind) (hp : Heap) (m k : Nat) : Res (Heap × BRet) :=
  if hp.Ok m 2 ∧ hp.Ok k K.key then
    match hp.mapFind K m k with
    | some a => .ok (hp, .obj (a + K.key))
    | none =>
      let r := hp.mapInsert K m k
      .ok (r.1, .obj (r.2 + K.key))
  else .error .ub

/-- `at`, map.h:43-48 -/
def mapAt (K : MapKind) (hp : Heap) (m k : Nat) : Res (Heap × BRet) :=
  if hp.Ok m 2 ∧ hp.Ok k K.key then
    match hp.mapFind K m k with
    | some a => .ok (hp, .obj (a + K.key))
    | none => .error .err
  else .error .ub

/-- `keys`, map.h:50-57: a vector (see `Model/Vector.lean`) with room for just the keys, and the keys copied into it -/
def mapKeys (K : MapKind) (hp : Heap) (m : Nat) : Res (Heap × BRet) :=
  if hp.Ok m 2 then
    let len := hp.mem (m + 1)
    let buf := hp.newObj (fun q => hp.mem (((hp.nodes m)[q / K.key]?.getD 0) + q % K.key)) (K.key * len)
    let vec := buf.1.newObj (fun j => if j = 0 then buf.2 else len) 3
    .ok (vec.1, .obj vec.2)
  else .error .ub

end Reflect

import Verif.Model.Json.Graph
/-
  What stored values stand for, when pointers are followed.
-/
namespace Reflect.Json

/-- all results, or none -/
def collect {α β : Type} (f : α → Option β) : List α → Option (List β)
  | [] => some []
  | x :: xs => match f x, collect f xs with
    | some y, some ys => some (y :: ys)
    | _, _ => none

/-- the entries with their values replaced -/
def entries {α β : Type} (f : α → Option β) (m : List (Bytes × α)) : Option (List (Bytes × β)) :=
  collect (fun p => (f p.2).map fun y => (p.1, y)) m

/-- The tree a stored value reads as, with every pointer followed; there is none if that takes more than `d`
    steps down, as on a cycle. -/
def GHeap.reads (h : GHeap) : Nat → GV → Option JV
  | 0, _ => none
  | d + 1, v => match v with
    | .void => some .void
    | .bool b => some (.bool b)
    | .int i => some (.int i)
    | .flt x => some (.flt x)
    | .str s => some (.str s)
    | .null => some .null
    | .ptr a => (h.reads d (h.mem a)).map .ptr
    | .list vs => (collect (h.reads d) vs).map .list
    | .map m => (entries (h.reads d) m).map .map
    | .obj fs => (entries (h.reads d) fs).map .obj

/-- the addresses of the objects met on the way, each as often as it is met -/
def GHeap.owns (h : GHeap) : Nat → GV → List Nat
  | 0, _ => []
  | d + 1, v => match v with
    | .ptr a => a :: h.owns d (h.mem a)
    | .list vs => vs.flatMap (h.owns d)
    | .map m => m.flatMap fun p => h.owns d p.2
    | .obj fs => fs.flatMap fun p => h.owns d p.2
    | _ => []

/-- a stored value has a pointer to `a` in it -/
inductive Mentions : GV → Nat → Prop
  | ptr (a : Nat) : Mentions (.ptr a) a
  | item {xs : List GV} {x : GV} {a : Nat} : x ∈ xs → Mentions x a → Mentions (.list xs) a
  | entry {m : List (Bytes × GV)} {p : Bytes × GV} {a : Nat} : p ∈ m → Mentions p.2 a → Mentions (.map m) a
  | field {m : List (Bytes × GV)} {p : Bytes × GV} {a : Nat} : p ∈ m → Mentions p.2 a → Mentions (.obj m) a

/-- the object `b` can be reached from the object `a` along pointers -/
inductive Reach (h : GHeap) (a : Nat) : Nat → Prop
  | refl : Reach h a a
  | step {b c : Nat} : Reach h a b → Mentions (h.mem b) c → Reach h a c

end Reflect.Json

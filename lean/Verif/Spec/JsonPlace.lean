import Verif.Model.Json.Place
import Verif.Spec.MapFns
import Verif.Spec.JsonBack
/-
  How the values of `Model/Json/Types.lean`, which are trees, lie in the memory of `Model/Value.lean`.
-/
namespace Reflect.Json

/-- what objects of a type are made of -/
inductive Form where
  /-- a number, a `bool` or a string: the contents of its cells, for each value it can have -/
  | scalar (cells : JV → Option (Nat → Nat))
  /-- a vector with elements of type `e` -/
  | list (e : Ty)
  /-- a map from strings to values of type `e` -/
  | map (e : Ty) (K : MapKind)
  /-- a smart pointer to an object of type `e`, of `n` cells: `std::unique_ptr` has one, `std::shared_ptr` two -/
  | ptr (e : Ty) (n : Nat)
  /-- a class: the type of each field and where it lies -/
  | obj (field : Bytes → Option (Ty × Nat))

/-- the types -/
abbrev Layout := Ty → Form

/-- the cell `y` is one of the object of type `t` at `a` -/
def OwnCell (p : Prog) (t : Ty) (a y : Nat) : Prop := a ≤ y ∧ y < a + p.size t

/-- the contents of the key `k` -/
def keyCells (p : Prog) (N : Native) (k : Bytes) : List Nat := (List.range (p.size N.stringT)).map (N.str k)

/-- The cell `y` is about the object that the smart pointer at `a` holds: how often it was deleted, and how many own it. -/
def Heap.Keeps (h : Heap) (n a y : Nat) : Prop := y + 1 = h.mem a ∨ (n = 2 ∧ y = h.mem (a + 1))

/-- `Rep p N L h t a v O`: the object of type `t` at `a` has the value `v`; besides its own cells, those in `O` are
part of it: the elements of its vectors, the entries of its maps, what its pointers point to; each of these has one owner. No cell is part of it twice. -/
inductive Rep (p : Prog) (N : Native) (L : Layout) (h : Heap) : Ty → Nat → JV → (Nat → Prop) → Prop where
  | scalar (t : Ty) (a : Nat) (v : JV) (cells : JV → Option (Nat → Nat)) (cs : Nat → Nat) (O : Nat → Prop) :
      L t = .scalar cells → cells v = some cs → h.Ok a (p.size t) → (∀ j < p.size t, h.mem (a + j) = cs j) →
      (∀ y, ¬ O y) → Rep p N L h t a v O
  | list (t : Ty) (a : Nat) (e : Ty) (vs : List JV) (Os : Nat → Nat → Prop) (O : Nat → Prop) :
      L t = .list e → h.IsVec (p.size e) a → h.mem (a + 1) = vs.length →
      (∀ (i : Nat) (v : JV), vs[i]? = some v → Rep p N L h e (h.mem a + p.size e * i) v (Os i)) →
      (∀ i y, i < vs.length → Os i y → ¬ h.InVec (p.size e) a y) →
      (∀ i j y, i < vs.length → j < vs.length → Os i y → Os j y → i = j) →
      (∀ y, O y ↔ (h.mem a ≤ y ∧ y < h.mem a + p.size e * h.mem (a + 2)) ∨ ∃ i, i < vs.length ∧ Os i y) →
      Rep p N L h t a (.list vs) O
  | map (t : Ty) (a : Nat) (e : Ty) (K : MapKind) (m : List (Bytes × JV)) (B : Bytes → Nat) (Os : Bytes → Nat → Prop)
      (O : Nat → Prop) :
      L t = .map e K → h.IsMap K a → Ordered m →
      (∀ d ∈ h.nodes a, ∃ k, (Assoc.get m k).isSome ∧ h.cells d K.key = keyCells p N k) →
      (∀ k, (Assoc.get m k).isSome → h.ValueAt K a (keyCells p N k) (B k)) →
      (∀ k x, Assoc.get m k = some x → Rep p N L h e (B k) x (Os k)) →
      (∀ k y, (Assoc.get m k).isSome → Os k y → ¬ h.InMap K a y) →
      (∀ k k' y, (Assoc.get m k).isSome → (Assoc.get m k').isSome → Os k y → Os k' y → k = k') →
      (∀ y, O y ↔ (h.InMap K a y ∧ ¬ OwnCell p t a y) ∨ ∃ k, (Assoc.get m k).isSome ∧ Os k y) →
      Rep p N L h t a (.map m) O
  | obj (t : Ty) (a : Nat) (field : Bytes → Option (Ty × Nat)) (fs : List (Bytes × JV)) (Os : Bytes → Nat → Prop)
      (O : Nat → Prop) :
      L t = .obj field → h.Ok a (p.size t) → (∀ k, (Assoc.get fs k).isSome ↔ (field k).isSome) →
      (∀ k x f, Assoc.get fs k = some x → field k = some f → Rep p N L h f.1 (a + f.2) x (Os k)) →
      (∀ k y, (field k).isSome → Os k y → ¬ OwnCell p t a y) →
      (∀ k k' y, (field k).isSome → (field k').isSome → Os k y → Os k' y → k = k') →
      (∀ y, O y ↔ ∃ k, (field k).isSome ∧ Os k y) →
      Rep p N L h t a (.obj fs) O
  | null (t : Ty) (a : Nat) (e : Ty) (n : Nat) (O : Nat → Prop) :
      L t = .ptr e n → h.Ok a (p.size t) → h.mem a = 0 → (n = 2 → h.mem (a + 1) = 0) → (∀ y, ¬ O y) → Rep p N L h t a .null O
  | ptr (t : Ty) (a : Nat) (e : Ty) (n : Nat) (v : JV) (Oe : Nat → Prop) (O : Nat → Prop) :
      L t = .ptr e n → h.Ok a (p.size t) → 1 < h.mem a →
      (n = 2 → 0 < h.mem (a + 1) ∧ h.mem (a + 1) < h.next ∧ h.mem (h.mem (a + 1)) = 1 ∧ h.mem (a + 1) + 1 ≠ h.mem a) →
      Rep p N L h e (h.mem a) v Oe →
      (∀ y, Heap.Keeps h n a y → ¬ OwnCell p t a y ∧ ¬ OwnCell p e (h.mem a) y ∧ ¬ Oe y) →
      (∀ y, OwnCell p e (h.mem a) y ∨ Oe y → ¬ OwnCell p t a y) →
      (∀ y, O y ↔ Heap.Keeps h n a y ∨ OwnCell p e (h.mem a) y ∨ Oe y) →
      Rep p N L h t a (.ptr v) O

/-- a layout that C++ could have: the parts of an object lie in it, side by side -/
structure Layout.Sound (p : Prog) (N : Native) (L : Layout) : Prop where
  list : ∀ t e, L t = .list e → p.size t = 3 ∧ 0 < p.size e
  map : ∀ t e K, L t = .map e K → p.size t = 2 ∧ K.key = p.size N.stringT ∧ K.val = p.size e
  ptr : ∀ t e n, L t = .ptr e n → p.size t = n ∧ (n = 1 ∨ n = 2)
  inside : ∀ t field k f, L t = .obj field → field k = some f → f.2 + p.size f.1 ≤ p.size t
  apart : ∀ t field k k' f f', L t = .obj field → field k = some f → field k' = some f' → k ≠ k' →
    f.2 + p.size f.1 ≤ f'.2 ∨ f'.2 + p.size f'.1 ≤ f.2
  /-- no two strings look alike -/
  strings : ∀ k k', keyCells p N k = keyCells p N k' → k = k'

/-- The object of type `t` at `a`, whose value consisted of `O` besides its own cells, has the value `v'` afterwards, which
consists of `O'`: some of what it was, and what is new. Nothing else that existed has changed. -/
structure Become (p : Prog) (N : Native) (L : Layout) (h h' : Heap) (t : Ty) (a : Nat) (O : Nat → Prop) (v' : JV) (O' : Nat → Prop) : Prop where
  rep : Rep p N L h' t a v' O'
  same : ∀ y < h.next, ¬ OwnCell p t a y → ¬ O y → h'.mem y = h.mem y
  mine : ∀ y < h.next, O' y → O y
  grow : h.next ≤ h'.next

end Reflect.Json

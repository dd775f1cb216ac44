import Verif.Model.Config.Node
/-
  What configuration paths and the tree of links are meant to be, without the code's means.
-/
namespace Reflect.Config
open Json (Byte Bytes)

/-- a component that can be part of a path's text -/
def Component (sep : Byte) (s : Bytes) : Prop := s ≠ [] ∧ sep ∉ s

/-- `a` is before `b` in the order of sequences induced by `R`: a proper prefix, or at the first difference -/
def Before {α : Type} (R : α → α → Prop) (a b : List α) : Prop :=
  (∃ y s, b = a ++ y :: s) ∨ ∃ p x y s t, a = p ++ x :: s ∧ b = p ++ y :: t ∧ R x y

/-- strings: byte by byte -/
def StrBefore : Bytes → Bytes → Prop := Before (fun a b => a.toNat < b.toNat)

/-- paths: component by component -/
def PathBefore : Path → Path → Prop := Before StrBefore

/-- what is done to a tree of links -/
inductive Op where
  | add (link path : Path)
  | get (path : Path)
  | erase (path : Path)

def Op.run (n : Node) : Op → Node
  | .add l p => n.add l p
  | .get p => n.get p
  | .erase p => n.erase p

/-- the tree after a sequence of operations -/
def tree (ops : List Op) : Node := ops.foldl Op.run .empty

/-- the plain map from paths to sets of links -/
abbrev Map := Path → Path → Prop

def Map.step (m : Map) : Op → Map
  | .add l p => fun q k => m q k ∨ (q = p ∧ k = l)
  | .get _ => m
  | .erase p => fun q k => m q k ∧ ¬ p <+: q

def linkMap (ops : List Op) : Map := ops.foldl Map.step (fun _ _ => False)

/-- which nodes there are: those on the way to a path that was added to or asked for; erasing takes away
everything below the path, and what is left of the way there if it leads to nothing else -/
abbrev Nodes := Path → Prop

def Nodes.step (m : Map) (n : Nodes) : Op → Nodes
  | .add _ p => fun q => n q ∨ q <+: p
  | .get p => fun q => n q ∨ q <+: p
  | .erase p => fun q => q = [] ∨ (n q ∧ ¬ p <+: q ∧
      (¬ q <+: p ∨ ∃ r, q <+: r ∧ n r ∧ ¬ p <+: r ∧ (¬ r <+: p ∨ ∃ l, m r l)))

/-- the map and the nodes after a sequence of operations -/
def states (ops : List Op) : Map × Nodes :=
  ops.foldl (fun s op => (s.1.step op, s.2.step s.1 op)) ((fun _ _ => False), fun q => q = [])

end Reflect.Config

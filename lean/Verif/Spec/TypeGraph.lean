import Verif.Model.TypeGraph
/-
  Declarative notions about type graphs: declared inheritance, pointer covariance, cycles, ancestors.
-/
namespace Reflect.World
variable (w : World)

/-- `Sub a b`: `b` is reachable from `a` by declared parents, or both are pointers of one kind with
    related pointees. -/
inductive Sub : Ty → Ty → Prop
  | refl (a) : Sub a a
  | parent {a p b} : (w.ty a).parent = some p → Sub p b → Sub a b
  | pointer {a b k p q} : (w.ty a).ptr = some (k, p) → (w.ty b).ptr = some (k, q) → Sub p q → Sub a b

/-- a declared link: to the parent or to the pointee -/
def Edge (a b : Ty) : Prop := (w.ty a).parent = some b ∨ ∃ k, (w.ty a).ptr = some (k, b)

/-- one or more links -/
inductive Reach : Ty → Ty → Prop
  | edge {a b} : w.Edge a b → Reach a b
  | step {a b c} : w.Edge a b → Reach b c → Reach a c

/-- no type is declared, however indirectly, in terms of itself through parents and pointees -/
def Acyclic : Prop := ∀ t, ¬ w.Reach t t

/-- links stay inside the table -/
def Closed : Prop := ∀ a b, a < w.n → w.Edge a b → b < w.n

/-- pointer types have no declared parent -/
def PointersAreRoots : Prop := ∀ a, (w.ty a).ptr ≠ none → (w.ty a).parent = none

/-- a pointer type is determined by its kind and its pointee -/
def PointersUnique : Prop := ∀ a b, (w.ty a).ptr ≠ none → (w.ty a).ptr = (w.ty b).ptr → a = b

/-- the `k`-th ancestor -/
def anc : Nat → Ty → Option Ty
  | 0, t => some t
  | k + 1, t => match (w.ty t).parent with
    | none => none
    | some p => anc k p

/-- `b` is what the closest ancestor-or-self of `t` that has something of its own, has -/
def Nearest {β : Type} (own : TypeD → Option β) (t : Ty) (b : β) : Prop :=
  ∃ k u, w.anc k t = some u ∧ own (w.ty u) = some b ∧
    ∀ j < k, ∀ v, w.anc j t = some v → own (w.ty v) = none

end Reflect.World

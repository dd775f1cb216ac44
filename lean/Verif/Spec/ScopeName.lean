import Verif.Model.Basic
/-
  What a qualified name is, independently of how the code scans it.
-/
namespace Reflect.Spec

/-- Opening minus closing template brackets. -/
def net (s : Name) : Int := (s.count '<' : Int) - (s.count '>' : Int)

/-- A single component of a qualified name: its brackets balance, and every `:` in it sits inside
    brackets (an unequal number of opening and closing brackets precedes it). -/
def IsComponent (c : Name) : Prop :=
  net c = 0 ∧ ∀ before after, c = before ++ ':' :: after → net before ≠ 0

/-- `a :: b` written out. -/
def sep : Name := [':', ':']

/-- The components written out with `::` between them. -/
def qualified : List Name → Name
  | [] => []
  | [c] => c
  | c :: cs => c ++ sep ++ qualified cs

/-- A list of components that makes a proper qualified name. -/
def ProperPath (cs : List Name) : Prop := cs ≠ [] ∧ ∀ c ∈ cs, IsComponent c ∧ c ≠ []

/-- Some enclosing name of `cs` (a proper, non-empty prefix of its components) is listed in `l`. -/
def PrefixIn (l : List Name) (cs : List Name) : Prop :=
  ∃ ds es, cs = ds ++ es ∧ ds ≠ [] ∧ es ≠ [] ∧ qualified ds ∈ l

end Reflect.Spec

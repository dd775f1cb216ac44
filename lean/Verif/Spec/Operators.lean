import Verif.Model.Operators
/-
  What a user of `reflectOperators()` expects: the operators C++ lets a class declare as members, except
  `=`, `,`, `->` and `->*`, are registered under their C++ names.
-/
namespace Reflect.Spec

/-- the symbols of the operators registered when a class has exactly one of them -/
def symbols : List String :=
  ["+", "-", "*", "/", "%", "~", "&", "|", "^", "<<", ">>",
   "+=", "-=", "*=", "/=", "%=", "&=", "|=", "^=", "<<=", ">>=",
   "!", "&&", "||", "==", "!=", "<", ">", "<=", ">=", "()", "[]"]

/-- `operator` followed by the symbol -/
def opName (symbol : String) : Name := "operator".toList ++ symbol.toList

/-- the names of these operators -/
def plain (n : Name) : Prop := ∃ s ∈ symbols, n = opName s

/-- `operator++` and `operator--` -/
def incDec (n : Name) : Prop := n = opName "++" ∨ n = opName "--"

/-- `T& T::f()` -/
def isPrefix (t : Ty) (m : Member) : Prop :=
  m.obj = t ∧ m.ret = ⟨t, .lvalue, false⟩ ∧ m.isConst = false ∧ m.args = []

/-- `T T::f(int)` -/
def isPostfix (t intT : Ty) (m : Member) : Prop :=
  m.obj = t ∧ m.ret = ⟨t, .copy, false⟩ ∧ m.isConst = false ∧ m.args = [⟨intT, .copy, false⟩]

/-- C++ has no two members of one class with the same name, parameters and constness. -/
def Members.Distinct (c : Members) : Prop :=
  ∀ n, ∀ m ∈ c n, ∀ m' ∈ c n, m.obj = m'.obj → m.isConst = m'.isConst → m.args = m'.args → m = m'

/-- `d` has not used any of the operators' names. -/
def Fresh (d : TypeD) : Prop :=
  ∀ n, plain n ∨ incDec n → d.fields.get n = none ∧ d.fns.get n = none

/-- `d'` is `d` with the operators of the class, and only them, added as functions. -/
structure WithOperators (c : Members) (t intT : Ty) (d d' : TypeD) : Prop where
  id : d'.id = d.id
  parent : d'.parent = d.parent
  ptr : d'.ptr = d.ptr
  fields : d'.fields = d.fields
  others : ∀ n, ¬ plain n → ¬ incDec n → d'.fns.get n = d.fns.get n
  one : ∀ n m, plain n → c n = [m] → d'.fns.get n = some [m.fn n]
  notOne : ∀ n, plain n → (c n).length ≠ 1 → d'.fns.get n = none
  inc : ∀ n, incDec n → ∀ f, (∃ o, d'.fns.get n = some o ∧ f ∈ o) ↔
    ∃ m ∈ c n, (isPrefix t m ∨ isPostfix t intT m) ∧ f = m.fn n
  noInc : ∀ n, incDec n → (∀ m ∈ c n, ¬ isPrefix t m ∧ ¬ isPostfix t intT m) → d'.fns.get n = none

end Reflect.Spec

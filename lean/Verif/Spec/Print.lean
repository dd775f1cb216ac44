import Verif.Model.Print
/-
  What printed text shows of a type or scope, and the names for which it shows it without ambiguity.
-/
namespace Reflect.Spec

/-- An argument as shown: the name of its type, whether it is const, whether and how it is a reference. -/
structure ArgView where
  id : Name
  isConst : Bool
  ref : RefType
  deriving DecidableEq

/-- a signature as shown -/
structure SigView where
  ret : ArgView
  args : List ArgView
  deriving DecidableEq

/-- A field as shown: not whether it is const. -/
structure FieldView where
  offset : Nat
  type : Name
  name : Name
  traits : List Name
  deriving DecidableEq

/-- the overloads of a name as shown -/
structure FnView where
  name : Name
  traits : List Name
  overloads : List SigView
  deriving DecidableEq

/-- A type as shown, without its ancestors: not the values of its traits, nor what a pointer points to. -/
structure TypeView where
  id : Name
  traits : List Name
  /-- by increasing offset -/
  fields : List FieldView
  functions : List FnView
  deriving DecidableEq

def argView (ids : Ty → Name) (a : Arg) : ArgView := ⟨ids a.type, a.isConst, a.ref⟩

def sigView (ids : Ty → Name) (ret : Arg) (args : List Arg) : SigView :=
  ⟨argView ids ret, args.map (argView ids)⟩

/-- what is shown of the type `t` itself -/
def typeView (tbl : Ty → Noted) (t : Ty) : TypeView :=
  let ids := fun u => (tbl u).d.id
  { id := (tbl t).d.id
    traits := (tbl t).own.names
    fields := (sortedFields (tbl t).d.fields).map fun f =>
      ⟨f.2.offset, ids f.2.arg.type, f.1, ((tbl t).fieldTraits f.1).names⟩
    functions := (tbl t).d.fns.map fun f =>
      ⟨f.1, ((tbl t).fnTraits f.1).names, f.2.map fun g => sigView ids g.ret g.args⟩ }

/-- `l` is `t`, its parent, the parent of that, and so on up to a root. -/
inductive Lineage (tbl : Ty → Noted) : Ty → List Ty → Prop where
  | root {t : Ty} : (tbl t).d.parent = none → Lineage tbl t [t]
  | step {t p : Ty} {l : List Ty} : (tbl t).d.parent = some p → Lineage tbl p l → Lineage tbl t (t :: l)

mutual
/-- a scope as shown: its functions as signatures, its types, and its scopes by their names -/
def scopeView (ids : Ty → Name) : Scope.Tree Fn → Scope.Tree SigView
  | .mk name types fns kids =>
    .mk name types (fns.map fun f => (f.1, f.2.map fun g => sigView ids g.ret g.args)) (kidsView ids kids)
def kidsView (ids : Ty → Name) : Scope.Kids Fn → Scope.Kids SigView
  | .nil => .nil
  | .cons _ t rest => .cons t.name (scopeView ids t) (kidsView ids rest)
end

/-! ### names -/

/-- The name of a type: it does not begin with a space, does not end in ` const` or `,`, and has no line break,
    `&`, `(`, `[` or `, ` in it. -/
structure TypeName (s : Name) : Prop where
  nonempty : s ≠ []
  begins : s.head? ≠ some ' '
  chars : ∀ c ∈ s, c ≠ '\n' ∧ c ≠ '&' ∧ c ≠ '(' ∧ c ≠ '['
  noConst : ∀ a, s ≠ a ++ " const".toList
  noComma : s.getLast? ≠ some ','
  noList : ∀ a b, s ≠ a ++ ',' :: ' ' :: b

/-- The name of a field or trait: one word, without line break, space or `[`. -/
def Word (s : Name) : Prop := s ≠ [] ∧ ∀ c ∈ s, c ≠ '\n' ∧ c ≠ ' ' ∧ c ≠ '['

/-- The name of a function: on one line, not beginning with a space nor like another entry does. -/
structure FnName (s : Name) : Prop where
  nonempty : s ≠ []
  begins : s.head? ≠ some ' '
  line : '\n' ∉ s
  noType : ∀ a, s ≠ "type ".toList ++ a
  noScope : ∀ a, s ≠ "scope ".toList ++ a
  noTraits : ∀ a, s ≠ "[ ".toList ++ a
  noField : ∀ a, s ≠ "0x".toList ++ a

/-- the names in a signature -/
def SigView.Named (s : SigView) : Prop := TypeName s.ret.id ∧ ∀ a ∈ s.args, TypeName a.id

/-- the names in a set of overloads -/
def FnView.Named (f : FnView) : Prop :=
  FnName f.name ∧ (∀ x ∈ f.traits, Word x) ∧ ∀ s ∈ f.overloads, s.Named

/-- the names in a type -/
structure TypeView.Named (v : TypeView) : Prop where
  id : TypeName v.id
  traits : ∀ x ∈ v.traits, Word x
  fields : ∀ f ∈ v.fields, TypeName f.type ∧ Word f.name ∧ ∀ x ∈ f.traits, Word x
  functions : ∀ f ∈ v.functions, f.Named

mutual
/-- the names in a scope -/
def ScopeNamed : Scope.Tree SigView → Prop
  | .mk name types fns kids => '\n' ∉ name ∧ (∀ n ∈ types, '\n' ∉ n) ∧
    (∀ f ∈ fns, FnName f.1 ∧ ∀ s ∈ f.2, s.Named) ∧ KidsNamed kids
def KidsNamed : Scope.Kids SigView → Prop
  | .nil => True
  | .cons _ t rest => ScopeNamed t ∧ KidsNamed rest
end

end Reflect.Spec

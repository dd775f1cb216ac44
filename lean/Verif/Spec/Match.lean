import Verif.Model.Overloads
/-
  Declarative rules for argument matching and overload resolution, written without reference to how
  the code evaluates them.
-/
namespace Reflect.Spec

/-- exactly one side is the dynamic value type -/
def OneDynamic (e : Env) (a p : Arg) : Prop :=
  (a.type = e.valueT ∧ p.type ≠ e.valueT) ∨ (a.type ≠ e.valueT ∧ p.type = e.valueT)

/-- the binding rules of C++ references: by value takes anything, a const reference takes anything, a
    mutable reference takes mutable lvalues, an rvalue reference takes rvalues without dropping
    const -/
inductive Binds : Arg → Arg → Prop
  | byValue {a p : Arg} : p.ref = .copy → Binds a p
  | constRef {a p : Arg} : p.ref = .lvalue → p.isConst = true → Binds a p
  | mutableRef {a p : Arg} : p.ref = .lvalue → p.isConst = false →
      a.ref = .lvalue → a.isConst = false → Binds a p
  | rvalueRef {a p : Arg} : p.ref = .rvalue → a.ref = .rvalue →
      (a.isConst = true → p.isConst = true) → Binds a p

/-- argument `a` is acceptable for parameter `p` -/
inductive Matches (e : Env) : Arg → Arg → Prop
  | same {a} : Matches e a a
  | dynamic {a p} : OneDynamic e a p → Matches e a p
  | converted {a p} : e.conv a.type p.type = true → p.ref ≠ .lvalue → Matches e a p
  | inherited {a p} : e.conv a.type p.type = false → e.child a.type p.type = true → Binds a p →
      Matches e a p

/-- argument `a` is a perfect fit for parameter `p` -/
inductive Fits (e : Env) : Arg → Arg → Prop
  | same {a} : Fits e a a
  | dynamic {a p} : OneDynamic e a p → Fits e a p
  | alike {a p} : e.conv a.type p.type = false → e.child a.type p.type = true → Binds a p →
      a.ref = p.ref → a.isConst = p.isConst → Fits e a p
  | consumed {a p} : e.conv a.type p.type = false → e.child a.type p.type = true →
      a.ref = .rvalue → p.ref = .copy → Fits e a p

/-- The candidate an overload set should run for a call: the earliest exact one, otherwise the only
    partial one. -/
def choose (grade : Fn → Match) (o : List Fn) : Option Fn :=
  match o.filter fun f => grade f = .exact with
  | f :: _ => some f
  | [] => match o.filter fun f => grade f = .part with
    | [f] => some f
    | _ => none

end Reflect.Spec

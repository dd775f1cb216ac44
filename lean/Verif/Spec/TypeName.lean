import Verif.Model.TypeName
/-
  What it means for two C++ types to be the same type but for `const` and references, and which names
  of plain types and templates are well behaved. Nothing here mentions cleaning or `typeId`.
-/
namespace Reflect.TypeName

/-- The type with every `const` and every reference removed, at every level: under pointers and in
    template arguments too. -/
def CTy.strip : CTy → CTy
  | .plain n => .plain n
  | .cst t | .lref t | .rref t => t.strip
  | .ptr t => .ptr t.strip
  | .app1 n t => .app1 n t.strip
  | .app2 n s t => .app2 n s.strip t.strip

/-- A letter that may occur in the name of a plain type or of a template. -/
def nameChar (c : Char) : Bool := c ≠ '<' && c ≠ '>' && c ≠ ',' && c ≠ '*'

/-- Every plain type and template named in the type has a name without `<`, `>`, `,` and `*`. -/
def CTy.Simple : CTy → Prop
  | .plain n => n.all nameChar
  | .cst t | .lref t | .rref t | .ptr t => t.Simple
  | .app1 n t => n.all nameChar ∧ t.Simple
  | .app2 n s t => n.all nameChar ∧ s.Simple ∧ t.Simple

/-- The outermost plain type or template name: what a pointer points to in the end. -/
def CTy.headName : CTy → Name
  | .plain n => n
  | .cst t | .lref t | .rref t | .ptr t => t.headName
  | .app1 n _ => n
  | .app2 n _ _ => n

end Reflect.TypeName

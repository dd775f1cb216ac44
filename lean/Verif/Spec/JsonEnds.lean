import Verif.Spec.JsonData
/-
  Types through which pointers do not go on for ever.
-/
namespace Reflect.Json

/-- Following pointers to pointers comes to an end, as it does for all C++ types. -/
def Env.PtrsEnd (env : Env) : Prop :=
  ∃ rank : TyId → Nat, ∀ ty d t, env.Has ty d (.ptr t) → rank t < rank ty

end Reflect.Json

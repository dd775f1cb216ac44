import Verif.Model.Json.Typed
/-
  The caches of parsers and printers a program can have, as long as no type was refused.
-/
namespace Reflect.Json

/-- The cache of parsers after calls of `json::parse` on types none of which was refused: the values parsed
may have been anything, and parsing them may have failed. -/
inductive Parsers (env : Env) : PCache → Prop where
  | fresh : Parsers env []
  | used (c : PCache) (n : Nat) (ty : TyId) (v : JV) (r : Reader) : Parsers env c →
      (getParser env n ty c).1 = .ok () → Parsers env (parse env n c ty v r).2

/-- The cache of printers after calls of `json::print` on types none of which was refused. -/
inductive Printers (env : Env) : WCache → Prop where
  | fresh : Printers env []
  | used (c : WCache) (n : Nat) (ty : TyId) (v : JV) (w : Writer) : Printers env c →
      (getPrinter env n ty c).1 = .ok () → Printers env (print env n c ty v w).2

end Reflect.Json

import Verif.Spec.JsonCut
import Verif.Spec.JsonData
import Verif.Spec.JsonUse
/-
  Reading a text into a value with `json::parse`.
-/
namespace Reflect.Json

/-- `json::parse` of the text `s` into the value `u` of type `ty` returns, reports no error, and leaves `v`. -/
def Accepts (env : Env) (c : PCache) (o : ROpts) (ty : TyId) (u : JV) (s : Bytes) (v : JV) : Prop :=
  ∃ n r, (parse env n c ty u (Reader.open o s)).1 = .ok (v, r) ∧ r.err = none

/-- the values of the members with key `a`, in order -/
def occurrences (a : Bytes) (ms : List (Bytes × JTree)) : List JTree := (ms.filter fun p => p.1 = a).map (·.2)

/-- documents loaded one after the other, each into what the one before has left -/
inductive LoadSeq (env : Env) (ty : TyId) : JV → List JTree → JV → Prop where
  | nil (v : JV) : LoadSeq env ty v [] v
  | cons (u v w : JV) (x : JTree) (xs : List JTree) : Load env ty u x v → LoadSeq env ty v xs w →
      LoadSeq env ty u (x :: xs) w

/-- the kinds of types whose values have no parts -/
def Shape.scalar : Shape → Bool
  | .bool | .int | .float | .string => true
  | _ => false

/-- a document that is just a number -/
def JTree.isNumber : JTree → Bool
  | .int _ | .float _ => true
  | _ => false

end Reflect.Json

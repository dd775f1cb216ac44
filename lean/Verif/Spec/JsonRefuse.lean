import Verif.Spec.JsonData
/-
  Which types the JSON parser and printer refuse, in terms of how the types are registered.
-/
namespace Reflect.Json

/-- read and written as one literal -/
def TyD.Scalar (d : TyD) : Prop := d.isBool = true ∨ d.isInt = true ∨ d.isFloat = true ∨ d.isString = true

/-- read and written as a sequence of elements of the value type -/
def TyD.Container (d : TyD) : Prop := ¬ d.Scalar ∧ d.pointee = none ∧ (d.isMap = true ∨ d.isList = true)

/-- read and written by a function of the type's own, `fn` (if it has a name) -/
def TyD.Custom (d : TyD) (fn : Bytes) : Prop :=
  ¬ d.Scalar ∧ d.pointee = none ∧ d.isMap = false ∧ d.isList = false ∧ fn ≠ []

/-- neither of these, nor a pointer -/
def TyD.Rest (d : TyD) (fn : Bytes) : Prop :=
  ¬ d.Scalar ∧ d.pointee = none ∧ d.isMap = false ∧ d.isList = false ∧ fn = []

/-- `Refers env fn ty t`: to read or write the type `ty` is to read or write `t`; `fn` is the name of the type's
own function, to read or to write. -/
inductive Refers (env : Env) (fn : TyD → Bytes) (ty t : TyId) : Prop where
  | pointee (d : TyD) : env.types[ty]? = some d → ¬ d.Scalar → d.pointee = some t → Refers env fn ty t
  | element (d : TyD) : env.types[ty]? = some d → d.Container → d.valueType = some t → Refers env fn ty t
  | field (d : TyD) (f : FieldD) : env.types[ty]? = some d → d.Rest (fn d) → d.isVoid = false → f ∈ d.fields →
      f.key ≠ none → f.type = t → Refers env fn ty t

/-- `Reaches env fn ty t`: the type `t` is part of `ty`, at some depth -/
inductive Reaches (env : Env) (fn : TyD → Bytes) : TyId → TyId → Prop where
  | refl (ty : TyId) : Reaches env fn ty ty
  | step (ty t u : TyId) : Refers env fn ty t → Reaches env fn t u → Reaches env fn ty u

/-- The types that cannot be parsed, whatever their parts: a list or map without value type, a custom parser
that is not a function of the type, and objects two of whose members have the same key. -/
def Unparsable (env : Env) (ty : TyId) : Prop := ∃ d, env.types[ty]? = some d ∧
  ((d.Container ∧ d.valueType = none) ∨ (d.Custom d.customParser ∧ env.parseFn ty d.customParser = none) ∨
    (d.Rest d.customParser ∧ d.isVoid = false ∧ ¬ d.keys.Nodup))

/-- The types that cannot be printed, whatever their parts: a list or map without value type, a custom printer
that is not a function of the type, and `void`. -/
def Unprintable (env : Env) (ty : TyId) : Prop := ∃ d, env.types[ty]? = some d ∧
  ((d.Container ∧ d.valueType = none) ∨ (d.Custom d.customPrinter ∧ env.printFn ty d.customPrinter = none) ∨
    (d.Rest d.customPrinter ∧ d.isVoid = true))

end Reflect.Json

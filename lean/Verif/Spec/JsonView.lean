import Verif.Spec.StdTypes
import Verif.Spec.JsonData
import Verif.Spec.TypeGraph
/-
  What the JSON code learns of a type: which traits it has (`Type::is`), its pointee, the values of its traits
  "valueType" and "json" (parser.cpp:14-18, 38-49, 343-355; printer.cpp:50-54, 79-82, 350-362).
-/
namespace Reflect.Json

/-- `d` is what the JSON code sees of the type `t`, described as `t'`. `ids` numbers the types, `typeOf` and `jsonOf` are
what `getValue<const Type*>` and `getValue<json::Traits>` make of the value of a trait; the fields, and what
`construct()` makes, are not compared here. -/
structure Views (ids : Ty → TyId) (typeOf : Handle → Option Ty) (jsonOf : Handle → Option Traits) (voidT t : Ty)
    (t' : Noted) (d : TyD) : Prop where
  bool : d.isBool = t'.own.is "bool".toList
  float : d.isFloat = t'.own.is "float".toList
  int : d.isInt = t'.own.is "integer".toList
  string : d.isString = t'.own.is "string".toList
  map : d.isMap = t'.own.is "map".toList
  list : d.isList = t'.own.is "list".toList
  pointee : d.pointee = if t'.isPointer then t'.d.ptr.map fun p => ids p.2 else none
  valueType : d.valueType = ((t'.own.get "valueType".toList).bind typeOf).map ids
  json : d.json = (t'.own.get "json".toList).bind jsonOf
  void : d.isVoid = decide (t = voidT)

/-- the kind a number type is for JSON -/
def numberShape : NumKind → Shape
  | .bool => .bool
  | .integer _ => .int
  | .float => .float

/-- the traits by which a type may be told from a class, other than "pointer" -/
def kindTraitNames : List String := ["bool", "float", "integer", "string", "map", "list"]

/-- a call that gives a type a trait by which it may be told from a class -/
def Marks : NoteOp → Prop
  | .trait n _ => n ∈ kindTraitNames.map String.toList ∨ n = "pointer".toList
  | .decl (.setPointer _ _) => True
  | _ => False

/-- `R` relates the elements of the two lists, one to one and in order -/
inductive Pairs {α β : Type} (R : α → β → Prop) : List α → List β → Prop where
  | nil : Pairs R [] []
  | cons {a b l m} : R a b → Pairs R l m → Pairs R (a :: l) (b :: m)

/-- The fields of `d` are what the JSON code sees of the fields of `t` (parser.cpp:204-219, printer.cpp:240-259): it goes
through `type->fields()` and asks `type->field(name)` for the field's type and trait "json". `bytes` are the bytes of a
name, `tbl` the types. -/
def SeesMembers (w : World) (tbl : Ty → Noted) (ids : Ty → TyId) (jsonOf : Handle → Option Traits) (bytes : Name → Bytes)
    (t : Ty) (d : TyD) : Prop :=
  ∃ l, w.fieldsF w.n t = .ok l ∧
    Pairs (fun (name : Name) (f : FieldD) => f.name = bytes name ∧ ∃ g m, w.fieldF w.n t name = .ok g ∧
      Noted.fieldTraitsF tbl w.n t name = .ok m ∧ f.type = ids g.arg.type ∧
      f.json = (m.get "json".toList).bind jsonOf) l d.fields

/-- `Declares w tbl t u name`: `u` is `t` itself or an ancestor, has a field `name`, and nothing between `t` and `u` has -/
def Declares (w : World) (tbl : Ty → Noted) (t u : Ty) (name : Name) : Prop :=
  ∃ k, w.anc k t = some u ∧ (tbl u).d.fields.get name ≠ none ∧
    ∀ j < k, ∀ x, w.anc j t = some x → (tbl x).d.fields.get name = none

end Reflect.Json

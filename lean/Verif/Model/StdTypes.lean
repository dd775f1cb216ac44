import Verif.Model.Traits
/-
  The descriptions that come with the library: pointers (types/pointer.h:23-46), `std::vector`
  (types/std/vector.h:24-45), the two maps (types/std/map.h:29-58), the smart pointers
  (types/std/smart_ptr.h:35-78), numbers (types/primitives.tcc:30-63) and `std::string`
  (types/std/string.cpp:17-26).

  A description is the list of calls it makes on the type, in order. The types it mentions are
  parameters: the type described, its elements, `bool`, `size_t`, `void`. What the bodies do is not
  modelled here: each has its own number. `type<X>()` inside a description is a registry look-up,
  see C08–C13.
-/
namespace Reflect

/-- The calls of a description, in order; the first that raises ends it. -/
def Noted.runAll (e : Env) (void : Handle) : Noted → List NoteOp → Noted × Res Unit
  | t, [] => (t, .ok ())
  | t, op :: ops => match t.step e void op with
    | (t', .ok ()) => Noted.runAll e void t' ops
    | (t', .error x) => (t', .error x)

/-- `type->addFunction(name, fn)` for a function with this result, these parameters and this body;
    `reflectFn`, `reflectFnTyped`, `reflectCustom`, `reflectCons`, dsl/function.h. -/
def defFn (name : Name) (ret : Arg) (args : List Arg) (body : Nat) : NoteOp :=
  .decl (.addFunction name (Fn.make name ret args body))

/-- `T`, `T&`, `const T&`, `T&&` -/
def Ty.val (t : Ty) : Arg := ⟨t, .copy, false⟩
def Ty.lref (t : Ty) : Arg := ⟨t, .lvalue, false⟩
def Ty.cref (t : Ty) : Arg := ⟨t, .lvalue, true⟩
def Ty.rref (t : Ty) : Arg := ⟨t, .rvalue, false⟩

/-- The types and trait values a description refers to besides the type it describes. -/
structure Lib where
  /-- `bool`, `size_t`, `void` -/
  boolT : Ty
  sizeT : Ty
  voidT : Ty
  /-- the value of a flag: `Value()`, traits.h:21 -/
  void : Handle
  /-- the value of the trait `name` of type `t`: `sizeof(T)`, `type<ValueT>()`, limits -/
  traitVal : Ty → Name → Handle

/-- `reflectTypeTrait(trait)`, dsl/type.h:17-18 -/
def flag (l : Lib) (trait : String) : NoteOp := .trait trait.toList l.void
/-- `reflectTypeValue(trait, value)`, dsl/type.h:20-21 -/
def tag (l : Lib) (t : Ty) (trait : String) : NoteOp := .trait trait.toList (l.traitVal t trait.toList)

/-- `reflectPlumbing()`, dsl/plumbing.h:197-205, with `reflectSizeof` (19-23). -/
def plumbing (l : Lib) (t : Ty) (id : Name) (c : Caps) : List NoteOp :=
  tag l t "sizeof" :: (plumbingOps t id c).map .decl

/-- a type the compiler can construct, copy, move and assign -/
def regular : Caps := ⟨true, true, true, true, true⟩

/-- `Reflect<T*>::reflect`, types/pointer.h:32-45. `innerConst`: `T` is const (the type is then
    `const X*`, which has the name of `X*`). -/
def pointerDesc (l : Lib) (t inner : Ty) (innerConst : Bool) (id : Name) : List NoteOp :=
  plumbing l t id regular ++
  [flag l "primitive",
   .decl (.setPointer "*".toList inner),
   defFn "operator bool()".toList l.boolT.val [t.val] 5,
   defFn "operator*".toList ⟨inner, .lvalue, innerConst⟩ [t.lref] 6,
   defFn "operator*".toList inner.cref [t.cref] 7]

/-- `Reflect<std::vector<ValueT>>::reflect`, types/std/vector.h:24-45. `c`: what the compiler says of the
    vector. -/
def vectorDesc (l : Lib) (t elem : Ty) (c : Caps) (id : Name) : List NoteOp :=
  plumbing l t id c ++
  [flag l "list", tag l t "valueType",
   defFn "size".toList l.sizeT.val [t.cref] 5,
   defFn "clear".toList l.voidT.val [t.lref] 6,
   defFn "resize".toList l.voidT.val [t.lref, l.sizeT.val] 7,
   defFn "push_back".toList l.voidT.val [t.lref, elem.cref] 8,
   defFn "push_back".toList l.voidT.val [t.lref, elem.rref] 9,
   defFn "operator[]".toList elem.lref [t.lref, l.sizeT.val] 10,
   defFn "at".toList elem.cref [t.cref, l.sizeT.val] 11]

/-- `details::reflectMap`, types/std/map.h:29-58; `keys` is `std::vector<KeyT>`. -/
def mapDesc (l : Lib) (t key elem keys : Ty) (c : Caps) (id : Name) : List NoteOp :=
  plumbing l t id c ++
  [flag l "map", tag l t "keyType", tag l t "valueType",
   defFn "size".toList l.sizeT.val [t.cref] 5,
   defFn "count".toList l.sizeT.val [t.cref, key.cref] 6,
   defFn "operator[]".toList elem.lref [t.lref, key.cref] 7,
   defFn "at".toList elem.cref [t.cref, key.cref] 8,
   defFn "keys".toList keys.val [t.cref] 9]

/-- `reflectSmartPtr`, types/std/smart_ptr.h:35-46; `raw` is `InnerT*`. -/
def smartDesc (l : Lib) (t inner raw : Ty) (innerConst : Bool) (c : Caps) (id : Name) : List NoteOp :=
  plumbing l t id c ++
  [defFn id t.val [raw.val] 5,
   flag l "smartPtr",
   defFn "get".toList raw.val [t.cref] 6,
   defFn "operator bool()".toList l.boolT.val [t.cref] 7,
   defFn "operator*".toList ⟨inner, .lvalue, innerConst⟩ [t.cref] 8,
   defFn "operator==".toList l.boolT.val [t.cref, t.cref] 9]

/-- `Reflect<std::shared_ptr<T>>::reflect`, types/std/smart_ptr.h:55-62. -/
def sharedDesc (l : Lib) (t inner raw : Ty) (innerConst : Bool) (id : Name) : List NoteOp :=
  .decl (.setPointer "std::shared_ptr".toList inner) ::
  smartDesc l t inner raw innerConst regular id ++
  [defFn "reset".toList l.voidT.val [t.lref] 10,
   defFn "reset".toList l.voidT.val [t.lref, raw.val] 11]

/-- A move-only type, which `std::unique_ptr` is. -/
def moveOnly : Caps := ⟨true, false, true, false, true⟩

/-- `Reflect<std::unique_ptr<T>>::reflect`, types/std/smart_ptr.h:69-77. -/
def uniqueDesc (l : Lib) (t inner raw : Ty) (innerConst : Bool) (id : Name) : List NoteOp :=
  .decl (.setPointer "std::unique_ptr".toList inner) ::
  smartDesc l t inner raw innerConst moveOnly id ++
  [defFn "release".toList raw.val [t.lref] 10,
   defFn "reset".toList l.voidT.val [t.lref, raw.val] 11,
   defFn "reset".toList l.voidT.val [t.lref] 12]

/-- what `std::numeric_limits` and `std::is_same<T, bool>` say of a number -/
inductive NumKind where
  | bool | integer (signed : Bool) | float
  deriving DecidableEq

/-- the traits chosen at primitives.tcc:47-58 -/
def kindTraits (l : Lib) : NumKind → List NoteOp
  | .bool => [flag l "bool"]
  | .integer s => [flag l "integer", if s then flag l "signed" else flag l "unsigned"]
  | .float => [flag l "float"]

/-- `reflectNumberImpl`, types/primitives.tcc:30-59; `raw` is `T*`; `sum` is the type of `obj + value`
    (`int` for types narrower than `int`). -/
def numberDesc (l : Lib) (t raw sum : Ty) (k : NumKind) (id : Name) : List NoteOp :=
  plumbing l t id regular ++
  [defFn "new".toList raw.val [] 5,
   tag l t "min", tag l t "max", flag l "primitive",
   defFn "operator+".toList sum.val [t.cref, t.val] 6] ++
  kindTraits l k

/-- `Reflect<std::string>::reflect`, types/std/string.cpp:17-26. -/
def stringDesc (l : Lib) (t raw : Ty) (id : Name) : List NoteOp :=
  plumbing l t id regular ++
  [defFn "new".toList raw.val [] 5,
   flag l "string",
   defFn "size".toList l.sizeT.val [t.cref] 6]

/-- `reflectTypeImpl(void)`, types/primitive_void.cpp:15-19. -/
def voidDesc (l : Lib) : List NoteOp := [flag l "primitive", flag l "void"]

end Reflect

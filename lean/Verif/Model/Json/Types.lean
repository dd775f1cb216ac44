import Verif.Model.Json.Writer
import Verif.Model.Json.Parser
import Verif.Model.Assoc
/-
  What the typed JSON parsers and printers look at: JSON traits, type descriptions and values.

  Code modelled: src/utils/json/traits.{h,cpp}; the reflection data that src/utils/json/parser.cpp and
  printer.cpp query.

  * Values are trees: the sharing of one object by several pointers is not modelled.
  * Pointers are the smart pointers of src/types/std/smart_ptr.h; raw pointers are not modelled.
  * Maps are the string-keyed maps of src/types/std/map.h; a map is the list of its entries ordered by
    key, and the order in which `keys` lists them is part of the type's description (for `std::map` it is
    that order, for `std::unordered_map` it is unspecified).
  * A type's functions used here - `size`, `at`, `push_back`, `reset`, `operator[]`, `keys` - are those of
    the standard reflections of src/types/std; their dispatch is the subject of the `Overloads` and `Value`
    models.
-/
namespace Reflect.Json

/-! ### JSON traits -/

/-- A `bool` that may be uninitialised. -/
inductive CBool where
  | indet
  | val (b : Bool)
  deriving DecidableEq, Repr

/-- `json::Traits`, traits.h:17-28 -/
structure Traits where
  skip : Bool
  skipEmpty : CBool
  alias : Bytes := []
  parser : Bytes := []
  printer : Bytes := []
  deriving DecidableEq, Repr

/-- `Traits::Traits`, traits.cpp:14: only `skip` is initialised. -/
def Traits.new : Traits := { skip := false, skipEmpty := .indet }

/-- `a || b` on `bool`s one of which may be uninitialised: its value is unspecified, so the result is
known only if the other one settles it.  (Strictly, reading it is undefined; the model gives the code the
benefit of an arbitrary but fixed value.) -/
def CBool.or : CBool → CBool → CBool
  | .val true, _ => .val true
  | _, .val true => .val true
  | .val false, .val false => .val false
  | _, _ => .indet

/-- the value found when an uninitialised `bool` happens to hold `junk` -/
def CBool.read (c : CBool) (junk : Bool) : Bool := match c with | .val b => b | .indet => junk

/-- `if (str.empty()) str = other;` -/
def orElse (a b : Bytes) : Bytes := if a = [] then b else a

/-- `Traits::operator|`, traits.cpp:16-30 -/
def Traits.or (a b : Traits) : Traits :=
  { skip := a.skip || b.skip, skipEmpty := a.skipEmpty.or b.skipEmpty, alias := orElse a.alias b.alias,
    parser := orElse a.parser b.parser, printer := orElse a.printer b.printer }

/-- `skip`, traits.cpp:32-37 -/
def Traits.mkSkip : Traits := { Traits.new with skip := true }
/-- `skipEmpty`, traits.cpp:39-44 -/
def Traits.mkSkipEmpty : Traits := { Traits.new with skipEmpty := .val true }
/-- `alias`, traits.cpp:46-51 -/
def Traits.mkAlias (a : Bytes) : Traits := { Traits.new with alias := a }
/-- `custom`, traits.cpp:53-59 -/
def Traits.mkCustom (parser printer : Bytes) : Traits := { Traits.new with parser := parser, printer := printer }

/-! ### Values -/

/-- a reflected value, as a tree; `flt` holds the bits of a `double` -/
inductive JV where
  | void
  | bool (b : Bool)
  | int (i : Int)
  | flt (x : UInt64)
  | str (s : Bytes)
  | null
  | ptr (v : JV)
  | list (vs : List JV)
  | map (kvs : List (Bytes × JV))
  | obj (fs : List (Bytes × JV))

mutual
def JV.beq : JV → JV → Bool
  | .void, .void => true
  | .bool a, .bool b => a == b
  | .int a, .int b => a == b
  | .flt a, .flt b => a == b
  | .str a, .str b => a == b
  | .null, .null => true
  | .ptr a, .ptr b => JV.beq a b
  | .list a, .list b => JV.beqL a b
  | .map a, .map b => JV.beqM a b
  | .obj a, .obj b => JV.beqM a b
  | _, _ => false
def JV.beqL : List JV → List JV → Bool
  | [], [] => true
  | a :: as, b :: bs => JV.beq a b && JV.beqL as bs
  | _, _ => false
def JV.beqM : List (Bytes × JV) → List (Bytes × JV) → Bool
  | [], [] => true
  | (k, a) :: as, (l, b) :: bs => k == l && JV.beq a b && JV.beqM as bs
  | _, _ => false
end

mutual
theorem JV.beq_iff : ∀ (a b : JV), JV.beq a b = true ↔ a = b
  | .void, b => by cases b <;> simp [JV.beq]
  | .bool a, b => by cases b <;> simp [JV.beq]
  | .int a, b => by cases b <;> simp [JV.beq]
  | .flt a, b => by cases b <;> simp [JV.beq]
  | .str a, b => by cases b <;> simp [JV.beq]
  | .null, b => by cases b <;> simp [JV.beq]
  | .ptr a, b => by cases b <;> simp [JV.beq]; rename_i b; exact JV.beq_iff a b
  | .list a, b => by cases b <;> simp [JV.beq]; rename_i b; exact JV.beqL_iff a b
  | .map a, b => by cases b <;> simp [JV.beq]; rename_i b; exact JV.beqM_iff a b
  | .obj a, b => by cases b <;> simp [JV.beq]; rename_i b; exact JV.beqM_iff a b
theorem JV.beqL_iff : ∀ (a b : List JV), JV.beqL a b = true ↔ a = b
  | [], b => by cases b <;> simp [JV.beqL]
  | a :: as, b => by
    cases b with
    | nil => simp [JV.beqL]
    | cons b bs => simp [JV.beqL, JV.beq_iff a b, JV.beqL_iff as bs]
theorem JV.beqM_iff : ∀ (a b : List (Bytes × JV)), JV.beqM a b = true ↔ a = b
  | [], b => by cases b <;> simp [JV.beqM]
  | (k, a) :: as, b => by
    cases b with
    | nil => simp [JV.beqM]
    | cons b bs =>
      obtain ⟨l, b⟩ := b
      simp [JV.beqM, JV.beq_iff a b, JV.beqM_iff as bs]
end

instance : DecidableEq JV := fun a b =>
  if h : JV.beq a b = true then isTrue ((JV.beq_iff a b).mp h)
  else isFalse (fun e => h ((JV.beq_iff a b).mpr e))

/-! ### Types -/

/-- `const Type*` -/
abbrev TyId := Nat

/-- a reflected field as the JSON code sees it -/
structure FieldD where
  name : Bytes
  type : TyId
  /-- the value of the field's trait "json", if it has one -/
  json : Option Traits := none
  deriving DecidableEq, Repr

/-- a reflected type as the JSON code sees it -/
structure TyD where
  /-- `type->is("bool")` etc. (src/types/primitives.tcc, src/types/std) -/
  isBool : Bool := false
  isFloat : Bool := false
  isInt : Bool := false
  isString : Bool := false
  /-- the type is `bool`, `double`, `int64_t`, `std::string` itself: `Value::assign` and `cast` raise
  for any other type with those traits, as no conversions between primitives are registered -/
  exact : Bool := true
  /-- `type->pointee()` if `type->isPointer()` -/
  pointee : Option TyId := none
  isMap : Bool := false
  isList : Bool := false
  /-- `type->getValue<const Type*>("valueType")`, which raises if there is none -/
  valueType : Option TyId := none
  /-- the value of the type's trait "json" -/
  json : Option Traits := none
  /-- `type == reflect::type<void>()` -/
  isVoid : Bool := false
  /-- `type->fields()` with `type->field(name)` -/
  fields : List FieldD := []
  /-- what `type->construct()` makes (`none`: it raises) -/
  make : Option JV := none
  /-- whether `type->alloc()` is available (`reflectAlloc`) -/
  alloc : Bool := false
  /-- the order in which the function `keys` of a map lists the keys -/
  order : List Bytes → List Bytes := id

/-- the program's types, user functions, and the C library's conversions of `double`s -/
structure Env where
  types : List TyD
  /-- `snprintf("%1.12g")` -/
  fmtG : UInt64 → Bytes
  /-- `std::stod` -/
  stod : Bytes → Res UInt64
  /-- what an uninitialised `skipEmpty` of a field of a type happens to hold -/
  junk : TyId → Bytes → Bool := fun _ _ => false
  /-- `type->function(name).get<void(Value, Reader&)>()` -/
  parseFn : TyId → Bytes → Option (JV → Reader → Res (JV × Reader)) := fun _ _ => none
  /-- `type->function(name).get<void(Value, Writer&)>()` -/
  printFn : TyId → Bytes → Option (JV → Writer → Res Writer) := fun _ _ => none

/-- `std::string` comparison: lexicographic on unsigned bytes -/
def bytesLt : Bytes → Bytes → Bool
  | _, [] => false
  | [], _ :: _ => true
  | a :: as, b :: bs => a.toNat < b.toNat || (a == b && bytesLt as bs)

/-- `map[key].assign(value)` on the ordered entries -/
def mapSet : List (Bytes × JV) → Bytes → JV → List (Bytes × JV)
  | [], k, v => [(k, v)]
  | (l, u) :: m, k, v =>
    if k = l then (k, v) :: m
    else if bytesLt k l then (k, v) :: (l, u) :: m
    else (l, u) :: mapSet m k v

/-- the unordered map's `emplace`: an entry already there wins -/
def mapEmplace (m : List (Bytes × JV)) (k : Bytes) (v : JV) : List (Bytes × JV) :=
  match Assoc.get m k with
  | some _ => m
  | none => mapSet m k v

/-- storing into the field `k` of an object -/
def objSet : List (Bytes × JV) → Bytes → JV → List (Bytes × JV)
  | [], _, _ => []
  | (l, u) :: m, k, v => if l = k then (l, v) :: m else (l, u) :: objSet m k v

/-- `std::sort` on strings -/
def insertKey (k : Bytes) : List Bytes → List Bytes
  | [] => [k]
  | l :: ks => if bytesLt l k then l :: insertKey k ks else k :: l :: ks
def sortKeys : List Bytes → List Bytes
  | [] => []
  | k :: ks => insertKey k (sortKeys ks)

/-- `customParser`, parser.cpp:14-18 -/
def TyD.customParser (d : TyD) : Bytes := match d.json with | none => [] | some t => t.parser
/-- `customPrinter`, printer.cpp:50-54 -/
def TyD.customPrinter (d : TyD) : Bytes := match d.json with | none => [] | some t => t.printer

end Reflect.Json

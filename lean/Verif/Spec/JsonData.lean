import Verif.Spec.JsonGrammar
import Verif.Spec.JsonText
import Verif.Model.Json.Types
/-
  What values of reflected types mean as JSON documents: `Doc` says which document a value is printed
  as, `Load` what parsing a document into a value makes of it.  Both are about types, values and documents
  only: no text, no reader or writer, no cached printer or parser.
-/
namespace Reflect.Json

/-! ### Types -/

/-- the kinds of types the JSON code tells apart -/
inductive Shape where
  | bool | int | float | string
  | ptr (t : TyId) | list (t : TyId) | map (t : TyId)
  | void | object
  deriving DecidableEq

/-- the traits by which the kinds are told apart -/
def TyD.flags (d : TyD) : List Bool :=
  [d.isBool, d.isInt, d.isFloat, d.isString, d.pointee.isSome, d.isMap, d.isList, d.isVoid]

/-- `d.Is sh`: the type has the traits of one kind and of no other; an object has none of them, and no
custom parser or printer. -/
inductive TyD.Is (d : TyD) : Shape → Prop where
  | bool : d.flags = [true, false, false, false, false, false, false, false] → TyD.Is d .bool
  | int : d.flags = [false, true, false, false, false, false, false, false] → TyD.Is d .int
  | float : d.flags = [false, false, true, false, false, false, false, false] → TyD.Is d .float
  | string : d.flags = [false, false, false, true, false, false, false, false] → TyD.Is d .string
  | ptr (t : TyId) : d.flags = [false, false, false, false, true, false, false, false] → d.pointee = some t →
      TyD.Is d (.ptr t)
  | map (t : TyId) : d.flags = [false, false, false, false, false, true, false, false] → d.valueType = some t →
      TyD.Is d (.map t)
  | list (t : TyId) : d.flags = [false, false, false, false, false, false, true, false] → d.valueType = some t →
      TyD.Is d (.list t)
  | void : d.flags = [false, false, false, false, false, false, false, true] →
      (∀ t, d.json = some t → t.parser = [] ∧ t.printer = []) → TyD.Is d .void
  | object : d.flags = [false, false, false, false, false, false, false, false] →
      (∀ t, d.json = some t → t.parser = [] ∧ t.printer = []) → TyD.Is d .object

/-- `env.Has ty d sh`: the type `ty` is `d`, of kind `sh`. -/
def Env.Has (env : Env) (ty : TyId) (d : TyD) (sh : Shape) : Prop := env.types[ty]? = some d ∧ d.Is sh

/-- the key under which a field appears: its alias, or its name if it has none; no key if it is skipped -/
def FieldD.key (f : FieldD) : Option Bytes :=
  match f.json with
  | none => some f.name
  | some t => if t.skip then none else if t.alias = [] then some f.name else some t.alias

/-- the keys of all the fields that are not skipped -/
def TyD.keys (d : TyD) : List Bytes := d.fields.filterMap FieldD.key

/-- `d.LastWith a f`: `f` is the last of the fields of `d` with key `a`. -/
def TyD.LastWith (d : TyD) (a : Bytes) (f : FieldD) : Prop :=
  ∃ l1 l2, d.fields = l1 ++ f :: l2 ∧ f.key = some a ∧ ∀ g ∈ l2, g.key ≠ some a

/-- `Sorted ks`: each key is not above any of the later ones, in the order of `std::string`. -/
def Sorted (ks : List Bytes) : Prop := ks.Pairwise fun a b => bytesLt b a = false

/-- `d.Listing l`: the keys of `d` in order, each with the last field that has it. -/
def TyD.Listing (d : TyD) (l : List (Bytes × FieldD)) : Prop :=
  (l.map (·.1)).Perm d.keys ∧ Sorted (l.map (·.1)) ∧ ∀ p ∈ l, d.LastWith p.1 p.2

/-- a field with the key `a` asks for empty values to be skipped -/
def Env.Skips (env : Env) (ty : TyId) (d : TyD) (a : Bytes) : Prop :=
  ∃ f ∈ d.fields, f.key = some a ∧ ∃ t, f.json = some t ∧ t.skipEmpty.read (env.junk ty f.name) = true

/-- `env.Closed T`: each of the types `T` is of one kind, they refer to one another only, and no two fields
of one of them have the same key. -/
structure Env.Closed (env : Env) (T : TyId → Prop) : Prop where
  kind : ∀ ty, T ty → ∃ d sh, env.Has ty d sh
  ptr : ∀ ty d t, T ty → env.Has ty d (.ptr t) → T t
  list : ∀ ty d t, T ty → env.Has ty d (.list t) → T t
  map : ∀ ty d t, T ty → env.Has ty d (.map t) → T t
  field : ∀ ty d f, T ty → env.Has ty d .object → f ∈ d.fields → f.key ≠ none → T f.type
  keys : ∀ ty d, T ty → env.Has ty d .object → d.keys.Nodup

/-- the names of the fields of a type are different: they are the keys of a map (src/type.h) -/
def Env.Named (env : Env) : Prop := ∀ (ty : TyId) (d : TyD), env.types[ty]? = some d → (d.fields.map (·.name)).Nodup

/-- every type of the environment is of one kind -/
def Env.Shaped (env : Env) : Prop := ∀ (ty : TyId) (d : TyD), env.types[ty]? = some d → ∃ sh, d.Is sh

/-! ### Printing -/

/-- the values counted as empty: zero, the empty string, list and map, and pointers to nothing or to
something empty -/
inductive Empty (env : Env) : TyId → JV → Prop where
  | int (ty : TyId) (d : TyD) : env.Has ty d .int → d.exact = true → Empty env ty (.int 0)
  | flt (ty : TyId) (d : TyD) (x : UInt64) : env.Has ty d .float → d.exact = true → x = 0 ∨ x = 0x8000000000000000 → Empty env ty (.flt x)
  | str (ty : TyId) (d : TyD) : env.Has ty d .string → Empty env ty (.str [])
  | null (ty : TyId) (d : TyD) (t : TyId) : env.Has ty d (.ptr t) → Empty env ty .null
  | ptr (ty : TyId) (d : TyD) (t : TyId) (v : JV) : env.Has ty d (.ptr t) → Empty env t v → Empty env ty (.ptr v)
  | list (ty : TyId) (d : TyD) (t : TyId) : env.Has ty d (.list t) → Empty env ty (.list [])
  | map (ty : TyId) (d : TyD) (t : TyId) : env.Has ty d (.map t) → Empty env ty (.map [])

mutual
/-- `Doc env compact ty v x`: the value `v` of type `ty` is printed as the document `x`; `compact` says that
empty members are left out. -/
inductive Doc (env : Env) (compact : Bool) : TyId → JV → JTree → Prop where
  | bool (ty : TyId) (d : TyD) (b : Bool) : env.Has ty d .bool → d.exact = true → Doc env compact ty (.bool b) (.bool b)
  | int (ty : TyId) (d : TyD) (i : Int) : env.Has ty d .int → d.exact = true →
      Doc env compact ty (.int i) (.int (decText i))
  /-- a `double` whose text has no fraction and no exponent looks like an integer -/
  | fltInt (ty : TyId) (d : TyD) (x : UInt64) : env.Has ty d .float → d.exact = true → IntGram (env.fmtG x) →
      Doc env compact ty (.flt x) (.int (env.fmtG x))
  | flt (ty : TyId) (d : TyD) (x : UInt64) : env.Has ty d .float → d.exact = true → FloatGram (env.fmtG x) →
      Doc env compact ty (.flt x) (.float (env.fmtG x))
  | str (ty : TyId) (d : TyD) (s : Bytes) : env.Has ty d .string → d.exact = true →
      Doc env compact ty (.str s) (.str s)
  | null (ty : TyId) (d : TyD) (t : TyId) : env.Has ty d (.ptr t) → Doc env compact ty .null .null
  | ptr (ty : TyId) (d : TyD) (t : TyId) (v : JV) (x : JTree) : env.Has ty d (.ptr t) → Doc env compact t v x →
      Doc env compact ty (.ptr v) x
  | list (ty : TyId) (d : TyD) (t : TyId) (vs : List JV) (xs : List JTree) : env.Has ty d (.list t) →
      DocElems env compact t vs xs → Doc env compact ty (.list vs) (.arr xs)
  | map (ty : TyId) (d : TyD) (t : TyId) (m es : List (Bytes × JV)) (ms : List (Bytes × JTree)) :
      env.Has ty d (.map t) → es.map (·.1) = d.order (m.map (·.1)) → (∀ p ∈ es, Assoc.get m p.1 = some p.2) →
      DocEntries env compact t es ms → Doc env compact ty (.map m) (.obj ms)
  | obj (ty : TyId) (d : TyD) (fs : List (Bytes × JV)) (l : List (Bytes × FieldD)) (ms : List (Bytes × JTree)) :
      env.Has ty d .object → d.Listing l → DocFields env compact ty d fs l ms →
      Doc env compact ty (.obj fs) (.obj ms)
/-- the elements of a list -/
inductive DocElems (env : Env) (compact : Bool) : TyId → List JV → List JTree → Prop where
  | nil (t : TyId) : DocElems env compact t [] []
  | cons (t : TyId) (v : JV) (vs : List JV) (x : JTree) (xs : List JTree) : Doc env compact t v x →
      DocElems env compact t vs xs → DocElems env compact t (v :: vs) (x :: xs)
/-- the entries of a map -/
inductive DocEntries (env : Env) (compact : Bool) :
    TyId → List (Bytes × JV) → List (Bytes × JTree) → Prop where
  | nil (t : TyId) : DocEntries env compact t [] []
  | cons (t : TyId) (k : Bytes) (v : JV) (es : List (Bytes × JV)) (x : JTree) (ms : List (Bytes × JTree)) :
      Doc env compact t v x → DocEntries env compact t es ms →
      DocEntries env compact t ((k, v) :: es) ((k, x) :: ms)
/-- the members of an object with the fields `fs` -/
inductive DocFields (env : Env) (compact : Bool) :
    TyId → TyD → List (Bytes × JV) → List (Bytes × FieldD) → List (Bytes × JTree) → Prop where
  | nil (ty : TyId) (d : TyD) (fs : List (Bytes × JV)) : DocFields env compact ty d fs [] []
  | shown (ty : TyId) (d : TyD) (fs : List (Bytes × JV)) (a : Bytes) (f : FieldD) (v : JV) (x : JTree)
      (l : List (Bytes × FieldD)) (ms : List (Bytes × JTree)) : Assoc.get fs f.name = some v →
      ¬ ((compact = true ∨ env.Skips ty d a) ∧ Empty env f.type v) → Doc env compact f.type v x →
      DocFields env compact ty d fs l ms → DocFields env compact ty d fs ((a, f) :: l) ((a, x) :: ms)
  | omitted (ty : TyId) (d : TyD) (fs : List (Bytes × JV)) (a : Bytes) (f : FieldD) (v : JV)
      (l : List (Bytes × FieldD)) (ms : List (Bytes × JTree)) : Assoc.get fs f.name = some v →
      (compact = true ∨ env.Skips ty d a) → Empty env f.type v →
      DocFields env compact ty d fs l ms → DocFields env compact ty d fs ((a, f) :: l) ms
end

mutual
/-- the `double`s in a value -/
def JV.floats : JV → List UInt64
  | .flt x => [x]
  | .ptr v => v.floats
  | .list vs => JV.floatsL vs
  | .map m => JV.floatsM m
  | .obj fs => JV.floatsM fs
  | _ => []
def JV.floatsL : List JV → List UInt64
  | [] => []
  | v :: vs => v.floats ++ JV.floatsL vs
def JV.floatsM : List (Bytes × JV) → List UInt64
  | [] => []
  | (_, v) :: m => v.floats ++ JV.floatsM m
end

mutual
/-- how deep lists, maps and objects are nested in a value -/
def JV.depth : JV → Nat
  | .ptr v => v.depth
  | .list vs => JV.depthL vs + 1
  | .map m => JV.depthM m + 1
  | .obj fs => JV.depthM fs + 1
  | _ => 0
def JV.depthL : List JV → Nat
  | [] => 0
  | v :: vs => max v.depth (JV.depthL vs)
def JV.depthM : List (Bytes × JV) → Nat
  | [] => 0
  | (_, v) :: m => max v.depth (JV.depthM m)
end

mutual
/-- the strings in a document, keys included -/
def JTree.strs : JTree → List Bytes
  | .str s => [s]
  | .arr xs => JTree.strsL xs
  | .obj ms => JTree.strsM ms
  | _ => []
def JTree.strsL : List JTree → List Bytes
  | [] => []
  | x :: xs => x.strs ++ JTree.strsL xs
def JTree.strsM : List (Bytes × JTree) → List Bytes
  | [] => []
  | (k, x) :: ms => k :: x.strs ++ JTree.strsM ms
end

mutual
/-- how deep arrays and objects are nested -/
def JTree.depth : JTree → Nat
  | .arr xs => JTree.depthL xs + 1
  | .obj ms => JTree.depthM ms + 1
  | _ => 0
def JTree.depthL : List JTree → Nat
  | [] => 0
  | x :: xs => max x.depth (JTree.depthL xs)
def JTree.depthM : List (Bytes × JTree) → Nat
  | [] => 0
  | (_, x) :: ms => max x.depth (JTree.depthM ms)
end

/-! ### Parsing -/

/-- `IntVal s i`: the literal `s` - digits, possibly after a minus sign - spells the 64-bit integer `i`. -/
def IntVal (s : Bytes) (i : Int) : Prop :=
  ∃ (neg : Bool) (ds : Bytes) (n : Nat), s = (if neg then [45] else []) ++ ds ∧ ds ≠ [] ∧ Dec ds n ∧
    i = (if neg then -(n : Int) else n) ∧ -(2 ^ 63 : Int) ≤ i ∧ i < 2 ^ 63

mutual
/-- `Any env x v`: what an untyped value becomes when the document `x` is parsed into it. -/
inductive Any (env : Env) : JTree → JV → Prop where
  | null : Any env .null .void
  | bool (b : Bool) : Any env (.bool b) (.bool b)
  | int (s : Bytes) (i : Int) : IntVal s i → Any env (.int s) (.int i)
  | float (s : Bytes) (x : UInt64) : env.stod s = .ok x → Any env (.float s) (.flt x)
  | str (s : Bytes) : Any env (.str s) (.str s)
  | arr (xs : List JTree) (vs : List JV) : AnyElems env xs vs → Any env (.arr xs) (.list vs)
  | obj (ms : List (Bytes × JTree)) (m : List (Bytes × JV)) : AnyMembers env ms [] m → Any env (.obj ms) (.map m)
inductive AnyElems (env : Env) : List JTree → List JV → Prop where
  | nil : AnyElems env [] []
  | cons (x : JTree) (xs : List JTree) (v : JV) (vs : List JV) : Any env x v → AnyElems env xs vs →
      AnyElems env (x :: xs) (v :: vs)
/-- members are added one by one to a map; a key already there keeps its value -/
inductive AnyMembers (env : Env) : List (Bytes × JTree) → List (Bytes × JV) → List (Bytes × JV) → Prop where
  | nil (m : List (Bytes × JV)) : AnyMembers env [] m m
  | cons (k : Bytes) (x : JTree) (ms : List (Bytes × JTree)) (v : JV) (m m' : List (Bytes × JV)) : Any env x v →
      AnyMembers env ms (mapEmplace m k v) m' → AnyMembers env ((k, x) :: ms) m m'
end

mutual
/-- `Load env ty d x v`: parsing the document `x` into the value `d` of type `ty` makes it `v`. -/
inductive Load (env : Env) : TyId → JV → JTree → JV → Prop where
  | bool (ty : TyId) (td : TyD) (d : JV) (b : Bool) : env.Has ty td .bool → td.exact = true → Load env ty d (.bool b) (.bool b)
  | int (ty : TyId) (td : TyD) (d : JV) (s : Bytes) (i : Int) : env.Has ty td .int → td.exact = true → IntVal s i →
      Load env ty d (.int s) (.int i)
  | float (ty : TyId) (td : TyD) (d : JV) (s : Bytes) (x : UInt64) : env.Has ty td .float → td.exact = true →
      env.stod s = .ok x → Load env ty d (.float s) (.flt x)
  | str (ty : TyId) (td : TyD) (d : JV) (s : Bytes) : env.Has ty td .string → td.exact = true →
      Load env ty d (.str s) (.str s)
  | ptrNull (ty : TyId) (td : TyD) (t : TyId) (d : JV) : env.Has ty td (.ptr t) → Load env ty d .null .null
  /-- a pointer to something keeps pointing to it -/
  | ptr (ty : TyId) (td : TyD) (t : TyId) (d v : JV) (x : JTree) : env.Has ty td (.ptr t) → x ≠ .null →
      Load env t d x v → Load env ty (.ptr d) x (.ptr v)
  /-- a pointer to nothing gets a new object -/
  | ptrNew (ty : TyId) (td : TyD) (t : TyId) (ed : TyD) (d v : JV) (x : JTree) : env.Has ty td (.ptr t) → x ≠ .null →
      env.types[t]? = some ed → ed.alloc = true → ed.make = some d → Load env t d x v → Load env ty .null x (.ptr v)
  /-- `null` leaves containers and objects as they are -/
  | listNull (ty : TyId) (td : TyD) (t : TyId) (vs : List JV) : env.Has ty td (.list t) →
      Load env ty (.list vs) .null (.list vs)
  | list (ty : TyId) (td : TyD) (t : TyId) (vs ws : List JV) (xs : List JTree) : env.Has ty td (.list t) →
      LoadElems env t xs ws → Load env ty (.list vs) (.arr xs) (.list (vs ++ ws))
  | mapNull (ty : TyId) (td : TyD) (t : TyId) (m : List (Bytes × JV)) : env.Has ty td (.map t) →
      Load env ty (.map m) .null (.map m)
  | map (ty : TyId) (td : TyD) (t : TyId) (ms : List (Bytes × JTree)) (m m' : List (Bytes × JV)) :
      env.Has ty td (.map t) → LoadEntries env t ms m m' → Load env ty (.map m) (.obj ms) (.map m')
  | objNull (ty : TyId) (td : TyD) (fs : List (Bytes × JV)) : env.Has ty td .object → Load env ty (.obj fs) .null (.obj fs)
  | obj (ty : TyId) (td : TyD) (ms : List (Bytes × JTree)) (fs fs' : List (Bytes × JV)) : env.Has ty td .object →
      LoadMembers env td ms fs fs' → Load env ty (.obj fs) (.obj ms) (.obj fs')
  | voidNull (ty : TyId) (td : TyD) (d : JV) : env.Has ty td .void → Load env ty d .null d
  | void (ty : TyId) (td : TyD) (d : JV) (x : JTree) (v : JV) : env.Has ty td .void → x ≠ .null → Any env x v →
      Load env ty d x v
/-- each element is parsed into a newly constructed value -/
inductive LoadElems (env : Env) : TyId → List JTree → List JV → Prop where
  | nil (t : TyId) : LoadElems env t [] []
  | cons (t : TyId) (ed : TyD) (d : JV) (x : JTree) (xs : List JTree) (v : JV) (vs : List JV) :
      env.types[t]? = some ed → ed.make = some d → Load env t d x v → LoadElems env t xs vs →
      LoadElems env t (x :: xs) (v :: vs)
/-- each member is parsed into a newly constructed value and then stored under its key -/
inductive LoadEntries (env : Env) : TyId → List (Bytes × JTree) → List (Bytes × JV) → List (Bytes × JV) → Prop where
  | nil (t : TyId) (m : List (Bytes × JV)) : LoadEntries env t [] m m
  | cons (t : TyId) (ed : TyD) (d : JV) (k : Bytes) (x : JTree) (ms : List (Bytes × JTree)) (v : JV)
      (m m' : List (Bytes × JV)) : env.types[t]? = some ed → ed.make = some d → Load env t d x v →
      LoadEntries env t ms (mapSet m k v) m' → LoadEntries env t ((k, x) :: ms) m m'
/-- each member whose key is that of a field is parsed into the field; the others are ignored -/
inductive LoadMembers (env : Env) : TyD → List (Bytes × JTree) → List (Bytes × JV) → List (Bytes × JV) → Prop where
  | nil (td : TyD) (fs : List (Bytes × JV)) : LoadMembers env td [] fs fs
  | unknown (td : TyD) (a : Bytes) (x : JTree) (ms : List (Bytes × JTree)) (fs fs' : List (Bytes × JV)) :
      a ∉ td.keys → LoadMembers env td ms fs fs' → LoadMembers env td ((a, x) :: ms) fs fs'
  | known (td : TyD) (a : Bytes) (f : FieldD) (x : JTree) (ms : List (Bytes × JTree)) (v v' : JV)
      (fs fs' : List (Bytes × JV)) : f ∈ td.fields → f.key = some a → Assoc.get fs f.name = some v →
      Load env f.type v x v' → LoadMembers env td ms (objSet fs f.name v') fs' →
      LoadMembers env td ((a, x) :: ms) fs fs'
end

end Reflect.Json

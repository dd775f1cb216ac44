import Verif.Model.Assoc
import Verif.Model.Overloads
/-
  Types: src/type.cpp, src/type.h, src/field.cpp, and the plumbing of src/dsl/plumbing.h.

  A `World` is a table of `n` types; `parent_` and `pointee_` are indices. Nothing is assumed about
  the links except, where a theorem says so, that they stay inside the table (`Closed`) and have no
  cycle (`Acyclic`). C++ recursion along links has no bound but the stack; the model takes fuel and
  ends in `Fault.diverge` when it runs out.

  Simplification: the trait "pointer" (type.cpp:234-239, 263) and the data it guards are one optional
  field, i.e. a program that adds the bare trait by hand (and so leaves `pointee_` null) is not
  modelled. Traits other than that one do not influence anything in this file.
-/
namespace Reflect

/-- `Field`, field.h. -/
structure FieldD where
  arg : Arg
  offset : Nat
  deriving DecidableEq, Repr

/-- `Type`, type.h:17-94. -/
structure TypeD where
  id : Name
  parent : Option Ty
  /-- pointer kind (`*`, `std::shared_ptr`, ...) and pointee -/
  ptr : Option (Name × Ty)
  fields : Assoc Name FieldD
  fns : Assoc Name Overloads
  deriving DecidableEq, Repr

/-- `Type::Type(id)`, type.cpp:19-22. -/
def TypeD.new (id : Name) : TypeD := { id, parent := none, ptr := none, fields := [], fns := [] }

/-! ### building a type -/

/-- `Field::Field`, field.cpp:16-24: a reference field is refused. -/
def Field.new (arg : Arg) (offset : Nat) : Res FieldD :=
  if arg.ref ≠ .copy then .error .err else .ok ⟨arg, offset⟩

/-- `Type::addFunction`, type.cpp:90-101. -/
def TypeD.addFunction (e : Env) (d : TypeD) (name : Name) (f : Fn) : TypeD × Res Unit :=
  match d.fields.get name with
  | some _ => (d, .error .err)
  | none =>
    let o := (d.fns.get name).getD []
    let r := Overloads.add e o f
    ({ d with fns := d.fns.set name r.1 }, r.2)

/-- `Type::addField(name, Field&&)`, type.cpp:160-175. -/
def TypeD.addField (d : TypeD) (name : Name) (f : FieldD) : TypeD × Res Unit :=
  match d.fns.get name with
  | some _ => (d, .error .err)
  | none => match d.fields.get name with
    | some _ => (d, .error .err)
    | none => ({ d with fields := d.fields.emplace name f }, .ok ())

/-- `Type::setPointer`, type.cpp:257-266. -/
def TypeD.setPointer (d : TypeD) (kind : Name) (pointee : Ty) : TypeD × Res Unit :=
  match d.ptr with
  | some _ => (d, .error .err)
  | none => ({ d with ptr := some (kind, pointee) }, .ok ())

/-- `Type::parent(p)`, type.h:28. -/
def TypeD.setParent (d : TypeD) (p : Ty) : TypeD := { d with parent := some p }

/-- One call of the type-building API. -/
inductive TypeOp where
  | addFunction (name : Name) (f : Fn)
  | addField (name : Name) (arg : Arg) (offset : Nat)
  | setPointer (kind : Name) (pointee : Ty)
  | setParent (p : Ty)

/-- `addField<T>(name, offset)` is `Field::make` then `addField`, type.tcc:25-31. -/
def TypeD.step (e : Env) (d : TypeD) : TypeOp → TypeD × Res Unit
  | .addFunction n f => d.addFunction e n f
  | .addField n a o => match Field.new a o with
    | .ok f => d.addField n f
    | .error x => (d, .error x)
  | .setPointer k p => d.setPointer k p
  | .setParent p => (d.setParent p, .ok ())

def TypeD.run (e : Env) (d : TypeD) (ops : List TypeOp) : TypeD :=
  ops.foldl (fun d op => (d.step e op).1) d

/-- A sequence of calls in one loader: the first error ends it. -/
def TypeD.runAll (e : Env) (d : TypeD) : List TypeOp → TypeD × Res Unit
  | [] => (d, .ok ())
  | op :: ops => match (d.step e op).2 with
    | .ok () => TypeD.runAll e (d.step e op).1 ops
    | .error x => ((d.step e op).1, .error x)

/-! ### the type graph -/

structure World where
  n : Nat
  ty : Ty → TypeD
  voidT : Ty
  valueT : Ty

namespace World
variable (w : World)

/-- `Type::isChildOf`, type.cpp:24-36. -/
def childF : (fuel : Nat) → Ty → Ty → Res Bool
  | 0, _, _ => .error .diverge
  | fuel + 1, a, b =>
    if a = b then .ok true
    else match (w.ty a).ptr, (w.ty b).ptr with
      | some (k, p), some (k', q) => if k ≠ k' then .ok false else childF fuel p q
      | _, _ => match (w.ty a).parent with
        | none => .ok false
        | some p => childF fuel p b

/-- A walk up the parent links asking each type for its own entry: the shape shared by
    `hasFunction`/`function` (type.cpp:128-134, 147-158) and `hasField`/`field` (202-208, 221-232).
    `hasX` is true where `X` returns, and false where it raises. -/
def nearestF {β : Type} (own : TypeD → Option β) : (fuel : Nat) → Ty → Res β
  | 0, _ => .error .diverge
  | fuel + 1, t =>
    match own (w.ty t) with
    | some b => .ok b
    | none => match (w.ty t).parent with
      | none => .error .err
      | some p => nearestF own fuel p

/-- `Type::hasFunction`, type.cpp:128-134. -/
def hasFunctionF (fuel : Nat) (t : Ty) (name : Name) : Res Bool :=
  match fuel with
  | 0 => .error .diverge
  | fuel + 1 =>
    if ((w.ty t).fns.get name).isSome then .ok true
    else match (w.ty t).parent with
      | none => .ok false
      | some p => hasFunctionF fuel p name

/-- `Type::function(name) const`, type.cpp:147-158. -/
def functionF (fuel : Nat) (t : Ty) (name : Name) : Res Overloads :=
  w.nearestF (fun d => d.fns.get name) fuel t

/-- `Type::hasField`, type.cpp:202-208. -/
def hasFieldF (fuel : Nat) (t : Ty) (name : Name) : Res Bool :=
  match fuel with
  | 0 => .error .diverge
  | fuel + 1 =>
    if ((w.ty t).fields.get name).isSome then .ok true
    else match (w.ty t).parent with
      | none => .ok false
      | some p => hasFieldF fuel p name

/-- `Type::field(name) const`, type.cpp:221-232. -/
def fieldF (fuel : Nat) (t : Ty) (name : Name) : Res FieldD :=
  w.nearestF (fun d => d.fields.get name) fuel t

/-- `Type::functions(result)`, type.cpp:103-113, and `Type::fields(result)`, 177-187: the names of a
    type and of all its ancestors. -/
def namesF (own : TypeD → List Name) : (fuel : Nat) → Ty → Res (List Name)
  | 0, _ => .error .diverge
  | fuel + 1, t =>
    match (w.ty t).parent with
    | none => .ok (own (w.ty t))
    | some p => (namesF own fuel p).map (own (w.ty t) ++ ·)

end World

/-- `std::unique`: drops elements equal to their predecessor. -/
def unique : List Name → List Name
  | [] => []
  | [a] => [a]
  | a :: b :: l => if a = b then unique (b :: l) else a :: unique (b :: l)

/-- `std::sort` then `std::unique`, type.cpp:122-123, 196-197. `std::string` is compared
    lexicographically. -/
def sortUnique (l : List Name) : List Name := unique (l.mergeSort fun a b => decide (a ≤ b))

namespace World
variable (w : World)

/-- `Type::functions()`, type.cpp:115-126. -/
def functionsF (fuel : Nat) (t : Ty) : Res (List Name) :=
  (w.namesF (fun d => d.fns.map (·.1)) fuel t).map sortUnique

/-- `Type::fields()`, type.cpp:189-200. -/
def fieldsF (fuel : Nat) (t : Ty) : Res (List Name) :=
  (w.namesF (fun d => d.fields.map (·.1)) fuel t).map sortUnique

/-- enough steps for every walk in an acyclic table (theorem `C15_exact`) -/
def fuel : Nat := w.n + 1

/-- the name of the converter function to a type, type.cpp:49 -/
def converterName (id : Name) : Name := "operator ".toList ++ id ++ "()".toList

/-- The answers `Model/Match.lean` needs. On a cyclic table, where the C++ code would not return, the
    answer is false; theorems about `env` assume an acyclic table. -/
def env : Env :=
  { voidT := w.voidT
    valueT := w.valueT
    child := fun a b => w.childF w.fuel a b = .ok true
    conv := fun a b => w.hasFunctionF w.fuel a (converterName (w.ty b).id) = .ok true }

/-- The constructor query shared by `isCopiable` and `isMovable`, type.cpp:66-88. -/
def constructibleFrom (t : Ty) (from_ : RefType) : Bool :=
  match w.functionF w.fuel t (w.ty t).id with
  | .ok o => o.test w.env ⟨t, .copy, false⟩ [⟨t, from_, false⟩]
  | .error _ => false

/-- `Type::isCopiable`, type.cpp:66-76. -/
def isCopiable (t : Ty) : Bool := w.constructibleFrom t .copy

/-- `Type::isMovable`, type.cpp:78-88. -/
def isMovable (t : Ty) : Bool := w.constructibleFrom t .rvalue

/-- `Type::converter`, type.cpp:52-64. -/
def converter (t target : Ty) : Res Fn :=
  match w.functionF w.fuel t (converterName (w.ty target).id) with
  | .error x => .error x
  | .ok o => if o.length > 1 then .error .err else match o with
    | f :: _ => .ok f
    | [] => .error .ub

end World

/-! ### plumbing -/

/-- what the C++ compiler says about a class; `std::is_…` -/
structure Caps where
  defaultConstructible : Bool
  copyConstructible : Bool
  moveConstructible : Bool
  copyAssignable : Bool
  moveAssignable : Bool

/-- the functions `reflectPlumbing()` registers, in order, each under its `enable_if` condition:
    dsl/plumbing.h:33-40, 72-81, 157-164, 115-122, 177-184, 197-205. Bodies 0–4. -/
def plumbingOps (t : Ty) (id : Name) (c : Caps) : List TypeOp :=
  let op := "operator=".toList
  (if c.defaultConstructible && c.moveConstructible
    then [.addFunction id (Fn.make id ⟨t, .copy, false⟩ [] 0)] else []) ++
  (if c.copyConstructible && c.moveConstructible
    then [.addFunction id (Fn.make id ⟨t, .copy, false⟩ [⟨t, .lvalue, true⟩] 1)] else []) ++
  (if c.copyAssignable
    then [.addFunction op (Fn.make op ⟨t, .lvalue, false⟩ [⟨t, .lvalue, false⟩, ⟨t, .lvalue, true⟩] 2)]
    else []) ++
  (if c.moveConstructible
    then [.addFunction id (Fn.make id ⟨t, .copy, false⟩ [⟨t, .rvalue, false⟩] 3)] else []) ++
  (if c.moveAssignable
    then [.addFunction op (Fn.make op ⟨t, .lvalue, false⟩ [⟨t, .lvalue, false⟩, ⟨t, .rvalue, false⟩] 4)]
    else [])

end Reflect

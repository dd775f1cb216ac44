import Verif.Model.Value
/-
  Traits: src/traits.{h,cpp,tcc} and the places that hold them: types (type.h:17), fields (field.h:17) and
  the overload sets of functions (overloads.h:17).  `Scope` holds traits too, as a type does.

  `Model/TypeGraph.lean` folds the trait "pointer" and the data it guards into one field; here the trait is a
  trait, as in the code, and `Props/Traits.lean` says when the two agree.
-/
namespace Reflect

/-- `Traits::traits_`, traits.h:35 -/
abbrev Traits := Assoc Name Handle

/-- `Traits::addTrait(trait, Value)`, traits.cpp:16-24. -/
def Traits.addTrait (m : Traits) (trait : Name) (v : Handle) : Traits × Res Unit :=
  match m.get trait with
  | some _ => (m, .error .err)
  | none => (Assoc.set m trait v, .ok ())

/-- `Traits::is`, traits.cpp:39-44. -/
def Traits.is (m : Traits) (trait : Name) : Bool := (m.get trait).isSome

/-- `Traits::traits`, traits.cpp:26-37; the order is that of the hash table, so nothing is claimed of it. -/
def Traits.names (m : Traits) : List Name := m.map (·.1)

/-- `Traits::getValue<Ret>`, traits.tcc:25-35. -/
def Prog.getTrait (p : Prog) (fuel : Nat) (hp : Heap) (m : Traits) (trait : Name) (want : Arg) :
    Res (Heap × Option BArg) :=
  match m.get trait with
  | some v => p.retCast (p.run fuel) hp v want
  | none => .error .err

/-- the template `addTrait(trait, T&&)`, traits.tcc:17-23, for an object at `a` -/
def Prog.addTraitOf (p : Prog) (hp : Heap) (m : Traits) (trait : Name) (arg : Arg) (a : Nat) :
    Res (Heap × Traits) :=
  match p.wrap hp arg a with
  | .error x => .error x
  | .ok (hp', v) => match m.addTrait trait v with
    | (m', .ok ()) => .ok (hp', m')
    | (_, .error x) => .error x

/-! ### a type, its members and their traits -/

/-- a `Type` with the traits of the type, of its own fields and of its own functions -/
structure Noted where
  d : TypeD
  own : Traits := []
  fields : Assoc Name Traits := []
  fns : Assoc Name Traits := []

/-- one call of the API that describes a type -/
inductive NoteOp where
  | decl (op : TypeOp)
  /-- `type->addTrait(trait, v)`, dsl/type.h:17-21 -/
  | trait (trait : Name) (v : Handle)
  /-- `type->field(f).addTrait(trait, v)`, dsl/field.h:17-21 -/
  | fieldTrait (f : Name) (trait : Name) (v : Handle)
  /-- `type->function(f).addTrait(trait, v)`, dsl/function.h:17-21 -/
  | fnTrait (f : Name) (trait : Name) (v : Handle)

namespace Noted

/-- `Type::Type`, type.cpp:19-22. -/
def new (id : Name) : Noted := { d := TypeD.new id }

/-- `Type::isPointer`, type.cpp:234-239. -/
def isPointer (t : Noted) : Bool := t.own.is "pointer".toList

/-- `Type::pointer`, type.cpp:241-247: `pointer_` is empty until `setPointer`. -/
def pointer (t : Noted) : Res Name :=
  if t.isPointer then .ok (match t.d.ptr with | some (k, _) => k | none => []) else .error .err

/-- `Type::pointee`, type.cpp:249-255: `pointee_` is null until `setPointer`. -/
def pointee (t : Noted) : Res (Option Ty) :=
  if t.isPointer then .ok (t.d.ptr.map (·.2)) else .error .err

/-- `Type::setPointer`, type.cpp:257-266; `void` is the value of a flag, traits.h:21. -/
def setPointer (void : Handle) (t : Noted) (kind : Name) (to : Ty) : Noted × Res Unit :=
  if t.isPointer then (t, .error .err)
  else ({ t with own := (t.own.addTrait "pointer".toList void).1, d := { t.d with ptr := some (kind, to) } },
    .ok ())

/-- `Type::addTrait`; the non-const `Type::field` (type.cpp:210-219) and `Type::function` (136-145), which
    look at the type itself only, followed by `addTrait` on what they return. -/
def step (e : Env) (void : Handle) (t : Noted) : NoteOp → Noted × Res Unit
  | .decl (.setPointer k p) => t.setPointer void k p
  | .decl op => ({ t with d := (t.d.step e op).1 }, (t.d.step e op).2)
  | .trait n v => ({ t with own := (t.own.addTrait n v).1 }, (t.own.addTrait n v).2)
  | .fieldTrait f n v => match t.d.fields.get f with
    | none => (t, .error .err)
    | some _ =>
      let r := ((t.fields.get f).getD []).addTrait n v
      ({ t with fields := t.fields.set f r.1 }, r.2)
  | .fnTrait f n v => match t.d.fns.get f with
    | none => (t, .error .err)
    | some _ =>
      let r := ((t.fns.get f).getD []).addTrait n v
      ({ t with fns := t.fns.set f r.1 }, r.2)

/-- calls in a row, each accepted or refused -/
def run (e : Env) (void : Handle) (t : Noted) (ops : List NoteOp) : Noted :=
  ops.foldl (fun t op => (t.step e void op).1) t

/-- the traits of an own field -/
def fieldTraits (t : Noted) (f : Name) : Traits := (t.fields.get f).getD []

/-- the traits of an own function -/
def fnTraits (t : Noted) (f : Name) : Traits := (t.fns.get f).getD []

end Noted

/-! ### reading through a table of types -/

/-- the const `Type::field(f)`, type.cpp:221-232, up to the traits of the result -/
def Noted.fieldTraitsF (tbl : Ty → Noted) : (fuel : Nat) → Ty → Name → Res Traits
  | 0, _, _ => .error .diverge
  | fuel + 1, t, f => match (tbl t).d.fields.get f with
    | some _ => .ok ((tbl t).fieldTraits f)
    | none => match (tbl t).d.parent with
      | none => .error .err
      | some p => Noted.fieldTraitsF tbl fuel p f

/-- the const `Type::function(f)`, type.cpp:147-158, up to the traits of the result -/
def Noted.fnTraitsF (tbl : Ty → Noted) : (fuel : Nat) → Ty → Name → Res Traits
  | 0, _, _ => .error .diverge
  | fuel + 1, t, f => match (tbl t).d.fns.get f with
    | some _ => .ok ((tbl t).fnTraits f)
    | none => match (tbl t).d.parent with
      | none => .error .err
      | some p => Noted.fnTraitsF tbl fuel p f

/-- `Type::isChildOf`, type.cpp:24-36, with null pointers: calling it on null, or asking null whether it is a
    pointer, is undefined. -/
def Noted.childF (tbl : Ty → Noted) : (fuel : Nat) → Option Ty → Option Ty → Res Bool
  | 0, _, _ => .error .diverge
  | _ + 1, none, _ => .error .ub
  | fuel + 1, some a, b =>
    if some a = b then .ok true
    else
      let up : Res Bool := match (tbl a).d.parent with
        | none => .ok false
        | some p => Noted.childF tbl fuel (some p) b
      if (tbl a).isPointer then match b with
        | none => .error .ub
        | some b' =>
          if (tbl b').isPointer then
            match (tbl a).pointer, (tbl b').pointer, (tbl a).pointee, (tbl b').pointee with
            | .ok k, .ok k', .ok q, .ok q' => if k ≠ k' then .ok false else Noted.childF tbl fuel q q'
            | _, _, _, _ => .error .err
          else up
      else up

end Reflect

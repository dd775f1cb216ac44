import Verif.Conform.Types
import Verif.Model.Assign
/-
  tests/field_test.cpp: reading and writing fields, const fields, fields of fields, shadowed fields.
  `Foo` {field, constField, privateField}, `Bar` {object, constObject, shadowed}, `Baz` : Bar {shadowed}.
-/
namespace Reflect.Conform.FieldTest
open Reflect World Reflect.Conform

def iT : Ty := 2
def fooT : Ty := 3
def barT : Ty := 4
def bazT : Ty := 5

def desc : Ty → List TypeOp
  | 2 => plumbingOps 2 "int".toList regular
  | 3 => [.addField "field".toList iT.val 0, .addField "constField".toList ⟨iT, .copy, true⟩ 1,
      .addField "privateField".toList iT.val 2]
  | 4 => [.addField "object".toList fooT.val 0, .addField "constObject".toList ⟨fooT, .copy, true⟩ 3,
      .addField "shadowed".toList iT.val 6]
  | 5 => [.setParent barT, .addField "shadowed".toList iT.val 7]
  | _ => []

def name : Ty → Name
  | 0 => "void".toList | 1 => "reflect::Value".toList | 2 => "int".toList | 3 => "Foo".toList
  | 4 => "Bar".toList | _ => "Baz".toList

def rel : Env := { voidT := 0, valueT := 1, child := fun a b => a = b || (a = 5 && b = 4), conv := fun _ _ => false }
def world : World := { n := 6, ty := fun t => ((TypeD.new (name t)).runAll rel (desc t)).1, voidT := 0, valueT := 1 }

def impl : Nat → Heap → List BArg → Res (Heap × BRet)
  | 1, hp, [.obj a _] => (hp.copyObj 1 a).map fun r => (r.1, .obj r.2)
  | 2, hp, [.obj a _, .obj b _] => .ok (write hp a (hp.mem b), .obj a)
  | 3, hp, [.obj a _] => (hp.moveObj (fun _ => 0) 1 a).map fun r => (r.1, .obj r.2)
  | 4, hp, [.obj a _, .obj b _] => .ok (write (write hp a (hp.mem b)) b 0, .obj a)
  | _, _, _ => .error .ub

def prog : Prog :=
  { w := world, size := fun t => if t = 2 then 1 else if t = 3 then 3 else if t = 4 then 7 else if t = 5 then 8 else 1
    caps := fun _ => regular, moved := fun _ _ => 0, junk := .copy, impl := impl }

/-- an object at 10 with distinct cells; the int 321 at 1 is the argument of the assignments -/
def hp : Heap := { mem := fun x => if x = 1 then 321 else if 10 ≤ x then x else 0, next := 20 }
def obj (t : Ty) : Handle := ⟨t.lref, 10, none⟩
/-- `v.field(n1).field(n2)...` -/
def path (h : Handle) : List String → Res Handle
  | [] => .ok h
  | n :: ns => match h.field prog n.toList with
    | .error x => .error x
    | .ok f => path f ns
/-- `v.field...assign(321)` -/
def assigned (h : Handle) (ns : List String) : Res Heap := match path h ns with
  | .error x => .error x
  | .ok f => prog.assign 4 hp f (.native iT.rref 1)
/-- `v.field...<T>(n)` -/
def read (hp : Heap) (h : Handle) (ns : List String) (t : Arg) : Res (Heap × BArg) := match path h ns with
  | .error x => .error x
  | .ok f => prog.castTo (prog.run 4) hp f t
/-- what the assignment made of the cell at `a`, and of the field read again -/
def wrote (h : Handle) (ns : List String) (a : Nat) : Bool := match assigned h ns with
  | .ok hp' => hp'.mem a = 321 && casts 321 (read hp' h ns iT.val)
  | _ => false

/-- field_test.cpp, foo -/
example :
    casts 10 (read hp (obj fooT) ["field"] iT.val) = true ∧
    wrote (obj fooT) ["field"] 10 = true ∧
    castsAt 10 (read hp (obj fooT) ["field"] iT.lref) = true ∧
    castsAt 10 (read hp (obj fooT) ["field"] iT.cref) = true ∧
    throws (assigned (obj fooT) ["constField"]) = true ∧
    casts 11 (read hp (obj fooT) ["constField"] iT.val) = true ∧
    throws (read hp (obj fooT) ["constField"] iT.lref) = true ∧
    castsAt 11 (read hp (obj fooT) ["constField"] iT.cref) = true ∧
    wrote (obj fooT) ["privateField"] 12 = true := by decide +kernel

/-- field_test.cpp, bar -/
example :
    casts 10 (read hp (obj barT) ["object", "field"] iT.val) = true ∧
    wrote (obj barT) ["object", "field"] 10 = true ∧
    castsAt 10 (read hp (obj barT) ["object"] fooT.lref) = true ∧
    throws (assigned (obj barT) ["constObject", "field"]) = true ∧
    castsAt 13 (read hp (obj barT) ["constObject"] fooT.cref) = true ∧
    casts 13 (read hp (obj barT) ["constObject", "field"] iT.val) = true := by decide +kernel

/-- field_test.cpp, baz -/
example :
    (match world.fieldF world.fuel bazT "object".toList, world.fieldF world.fuel barT "object".toList with
      | .ok f, .ok g => decide (f.offset = g.offset) | _, _ => false) = true ∧
    (match world.fieldF world.fuel bazT "shadowed".toList, world.fieldF world.fuel barT "shadowed".toList with
      | .ok f, .ok g => decide (f.offset ≠ g.offset) | _, _ => false) = true ∧
    castsAt 17 (read hp (obj bazT) ["shadowed"] iT.lref) = true ∧
    castsAt 16 (read hp (obj barT) ["shadowed"] iT.lref) = true ∧
    wrote (obj bazT) ["shadowed"] 17 = true ∧ wrote (obj barT) ["shadowed"] 16 = true ∧
    (match assigned (obj bazT) ["shadowed"] with | .ok h => decide (h.mem 16 = 16) | _ => false) = true ∧
    (match assigned (obj barT) ["shadowed"] with | .ok h => decide (h.mem 17 = 17) | _ => false) = true := by
  decide +kernel

end Reflect.Conform.FieldTest

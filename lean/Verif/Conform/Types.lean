import Verif.Props.TypeGraph
import Verif.Model.StdTypes
/-
  The types of the library's own unit tests (tests/test_types.h, tests/test_types.cpp) in the model. The files of
  this directory run the model on the assertions of those tests: they check the model against what its authors
  say the library does. They are tests of the model, not proofs, and no claim rests on them.

  Every object is given four cells: `Object` {value}, `Parent` {value, shadowed}, `Child` {value, shadowed,
  childValue, childShadowed}, `Convertible` {value}, `int` {value}.
-/
namespace Reflect.Conform
open Reflect World

def voidT : Ty := 0
def valueT : Ty := 1
def uintT : Ty := 2
def intT : Ty := 3
def objectT : Ty := 4
def interfaceT : Ty := 5
def parentT : Ty := 6
def childT : Ty := 7
def convT : Ty := 8
def noCopyT : Ty := 9
def noMoveT : Ty := 10
def noConsT : Ty := 11
def unitT : Ty := 12

def noCopyC : Caps := ⟨true, false, true, false, true⟩
def noMoveC : Caps := ⟨true, true, false, true, false⟩
def noConsC : Caps := ⟨false, false, false, false, false⟩

/-- the descriptions of tests/test_types.cpp, as calls on the types -/
def desc : Ty → List TypeOp
  | 2 => plumbingOps 2 "unsigned".toList regular
  | 3 => plumbingOps 3 "int".toList regular
  | 4 => plumbingOps 4 "test::Object".toList regular ++
    [.addFunction "test::Object".toList (Fn.make "test::Object".toList ⟨4, .copy, false⟩ [intT.val] 20),
     .addField "value".toList intT.val 0,
     .addFunction "ref".toList (Fn.make "ref".toList intT.lref [objectT.lref] 21),
     .addFunction "ref".toList (Fn.make "ref".toList voidT.val [objectT.lref, intT.lref] 22),
     .addFunction "constRef".toList (Fn.make "constRef".toList intT.cref [objectT.lref] 23),
     .addFunction "constRef".toList (Fn.make "constRef".toList voidT.val [objectT.lref, intT.cref] 22),
     .addFunction "rref".toList (Fn.make "rref".toList voidT.val [objectT.lref, intT.rref] 24),
     .addFunction "operator+=".toList (Fn.make "operator+=".toList objectT.lref [objectT.lref, intT.val] 28),
     .addFunction "operator++".toList (Fn.make "operator++".toList objectT.lref [objectT.lref] 29),
     .addFunction "operator++".toList (Fn.make "operator++".toList objectT.lref [objectT.lref, intT.val] 29),
     .addFunction "operator+".toList (Fn.make "operator+".toList objectT.val [objectT.cref, intT.val] 30),
     .addFunction "operator==".toList (Fn.make "operator==".toList unitT.val [objectT.cref, objectT.cref] 31)]
  | 5 => [.addFunction "pureVirtual".toList (Fn.make "pureVirtual".toList voidT.val [interfaceT.lref] 25)]
  | 6 => [.setParent interfaceT] ++ plumbingOps 6 "test::Parent".toList regular ++
    [.addField "value".toList objectT.val 0, .addField "shadowed".toList intT.val 1,
     .addFunction "normalVirtual".toList (Fn.make "normalVirtual".toList voidT.val [parentT.lref] 25)]
  | 7 => [.setParent parentT] ++ plumbingOps 7 "test::Child".toList regular ++
    [.addField "childValue".toList objectT.val 2, .addField "shadowed".toList unitT.val 3,
     .addFunction "normalVirtual".toList (Fn.make "normalVirtual".toList voidT.val [childT.lref] 25)]
  | 8 => plumbingOps 8 "test::Convertible".toList ⟨false, true, true, true, true⟩ ++
    [.addField "value".toList objectT.val 0,
     .addFunction (converterName "int".toList)
       (Fn.make (converterName "int".toList) intT.val [convT.cref] 26),
     .addFunction (converterName "test::Parent".toList)
       (Fn.make (converterName "test::Parent".toList) parentT.val [convT.cref] 27)]
  | 9 => plumbingOps 9 "test::NotCopiable".toList noCopyC
  | 10 => plumbingOps 10 "test::NotMovable".toList noMoveC
  | 11 => plumbingOps 11 "test::NotConstructible".toList noConsC
  | _ => []

def name : Ty → Name
  | 0 => "void".toList | 1 => "reflect::Value".toList | 2 => "unsigned".toList | 3 => "int".toList
  | 4 => "test::Object".toList | 5 => "test::Interface".toList | 6 => "test::Parent".toList
  | 7 => "test::Child".toList | 8 => "test::Convertible".toList | 9 => "test::NotCopiable".toList
  | 10 => "test::NotMovable".toList | 11 => "test::NotConstructible".toList | _ => "bool".toList

/-- how the types are related, for the checks made while they are described -/
def rel : Env :=
  { voidT := voidT, valueT := valueT
    child := fun a b => a = b || (a = 6 && b = 5) || (a = 7 && (b = 6 || b = 5))
    conv := fun a b => a = 8 && (b = 3 || b = 6) }

def built (t : Ty) : TypeD := ((TypeD.new (name t)).runAll rel (desc t)).1

def world : World := { n := 13, ty := built, voidT := voidT, valueT := valueT }

/-- every description is accepted -/
example : (List.range 13).all (fun t => match ((TypeD.new (name t)).runAll rel (desc t)).2 with
    | .ok _ => true | _ => false) = true := by decide +kernel

/-- and the type graph that results answers as `rel` did -/
example : (List.range 13).all (fun a => (List.range 13).all fun b =>
    world.env.child a b == rel.child a b && world.env.conv a b == rel.conv a b) = true := by decide +kernel

def caps : Ty → Caps
  | 5 => noConsC | 8 => ⟨false, true, true, true, true⟩ | 9 => noCopyC | 10 => noMoveC | 11 => noConsC
  | _ => regular

/-- a fresh object of four cells -/
def put (hp : Heap) (a b c d : Nat) : Heap × Nat :=
  ({ mem := fun x => if x = hp.next then a else if x = hp.next + 1 then b else if x = hp.next + 2 then c
      else if x = hp.next + 3 then d else hp.mem x, next := hp.next + 5 }, hp.next)

def write (hp : Heap) (a v : Nat) : Heap := { hp with mem := fun x => if x = a then v else hp.mem x }

/-- the bodies: those of the plumbing, those of the test types, and those of the tests (from 40 on); `g` is an
    object the lambdas of the tests capture -/
def impl (g : Nat) : Nat → Heap → List BArg → Res (Heap × BRet)
  | 0, hp, [] => let r := put hp 0 0 0 0; .ok (r.1, .obj r.2)
  | 1, hp, [.obj a _] => (hp.copyObj 4 a).map fun r => (r.1, .obj r.2)
  | 3, hp, [.obj a _] => (hp.moveObj (fun _ => 0) 4 a).map fun r => (r.1, .obj r.2)
  | 20, hp, [.obj a _] => let r := put hp (hp.mem a) 0 0 0; .ok (r.1, .obj r.2)
  | 21, hp, [.obj a _] => .ok (hp, .obj a)
  | 22, hp, [.obj a _, .obj b _] => .ok (write hp a (hp.mem b), .void)
  | 23, hp, [.obj a _] => .ok (hp, .obj a)
  | 24, hp, [.obj a _, .obj b _] => .ok (write (write hp a (hp.mem b)) b 0, .void)
  | 25, hp, [.obj _ _] => .ok (hp, .void)
  | 26, hp, [.obj a _] => let r := put hp (hp.mem a) 0 0 0; .ok (r.1, .obj r.2)
  | 27, hp, [.obj a _] => let r := put hp (hp.mem a) (hp.mem a) 0 0; .ok (r.1, .obj r.2)
  -- `i + 1 * j`
  | 40, hp, [.obj i _, .obj j _, .obj _ _, .obj _ _] =>
    let r := put hp (hp.mem i + 1 * hp.mem j) 0 0 0; .ok (r.1, .obj r.2)
  | 41, hp, [] => .ok (hp, .void)
  -- `i + 1`, made into an object
  | 42, hp, [.obj i _] => let r := put hp (hp.mem i + 1) 0 0 0; .ok (r.1, .obj r.2)
  -- `i += 1; return i;`
  | 43, hp, [.obj i _] => .ok (write hp i (hp.mem i + 1), .obj i)
  | 44, hp, [.obj i _] => .ok (hp, .obj i)
  -- the captured object
  | 45, hp, [.obj _ _] => .ok (hp, .obj g)
  | 46, hp, [.obj _ _] => .ok (hp, .void)
  -- `Child(p.value + 1, 0)`: the parent part is default constructed
  | 47, hp, [.obj i _] => let r := put hp 0 0 (hp.mem i + 1) 0; .ok (r.1, .obj r.2)
  | _, _, _ => .error .ub

def prog (g : Nat) : Prog :=
  { w := world, size := fun _ => 4, caps := caps, moved := fun _ _ => 0, junk := .copy, impl := impl g }

/-! the assertions -/

/-- `CHECK_ERROR` -/
def throws {α : Type} : Res α → Bool
  | .error .err => true
  | _ => false
/-- no exception -/
def runs {α : Type} : Res α → Bool
  | .ok _ => true
  | _ => false
/-- the object obtained, by value or by reference, has this value in its first cell -/
def gives (v : Nat) : Res (Heap × Option BArg) → Bool
  | .ok (hp, some (.obj a _)) => hp.mem a = v
  | _ => false
/-- the object obtained is the one at `a` -/
def isAt (a : Nat) : Res (Heap × Option BArg) → Bool
  | .ok (_, some (.obj b _)) => b = a
  | _ => false
/-- the value obtained by a cast -/
def casts (v : Nat) : Res (Heap × BArg) → Bool
  | .ok (hp, .obj a _) => hp.mem a = v
  | _ => false
/-- a cast gives another object with this value -/
def castsNew (v old : Nat) : Res (Heap × BArg) → Bool
  | .ok (hp, .obj a _) => hp.mem a = v && a != old
  | _ => false
def castsAt (a : Nat) : Res (Heap × BArg) → Bool
  | .ok (_, .obj b _) => b = a
  | _ => false

/-- memory with the object `v, w, x, y` at address 1 and room for temporaries at 6 -/
def mem1 (v w x y : Nat) : Heap :=
  { mem := fun a => if a = 1 ∨ a = 6 then v else if a = 2 ∨ a = 7 then w else if a = 3 ∨ a = 8 then x
      else if a = 4 ∨ a = 9 then y else 0, next := 11 }

/-- an lvalue, a const lvalue and a temporary of type `t` in the caller's code -/
def lv (t : Ty) : Actual := .native t.lref 1
def cv (t : Ty) : Actual := .native t.cref 1
def rv (t : Ty) : Actual := .native t.rref 6
/-- `Value(x)` for an lvalue and a const lvalue, and their `rvalue()` and `toConst()` -/
def lValue (t : Ty) : Handle := ⟨t.lref, 1, none⟩
def cValue (t : Ty) : Handle := ⟨t.cref, 1, none⟩

end Reflect.Conform

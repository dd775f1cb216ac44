import Verif.Conform.Types
import Verif.Model.ValueOps
import Verif.Model.Callable
/-
  tests/pointer_test.cpp: pointers, pointers to children, smart pointers.

  A pointer, raw or smart, is one cell with the address of its object (what smart pointers own is not counted here).
  `Obj const*` is the type `Obj*`, as the library has it (C75).
-/
namespace Reflect.Conform.Pointer
open Reflect World Reflect.Conform

def voidT : Ty := 0
def valueT : Ty := 1
def boolT : Ty := 2
def intT : Ty := 3
def intP : Ty := 4
def intPP : Ty := 5
def sInt : Ty := 6
def objT : Ty := 7
def objP : Ty := 8
def objPP : Ty := 9
def parentT : Ty := 10
def childT : Ty := 11
def parentP : Ty := 12
def childP : Ty := 13
def sParent : Ty := 14
def sChild : Ty := 15
/-- `test::NotConstructible` -/
def ncT : Ty := 16
def ncP : Ty := 17
def sNc : Ty := 18
def uNc : Ty := 19

/-- `operator==` and `operator bool` give a `bool`; nothing here uses `size_t` -/
def lib : Lib := ⟨boolT, intT, voidT, ⟨⟨0, .copy, false⟩, 0, none⟩, fun _ _ => ⟨⟨0, .copy, false⟩, 0, none⟩⟩
/-- the calls that concern overloads, fields and pointers -/
def decls : List NoteOp → List TypeOp
  | [] => []
  | .decl op :: ops => op :: decls ops
  | _ :: ops => decls ops

def name : Ty → Name
  | 0 => "void".toList | 1 => "reflect::Value".toList | 2 => "bool".toList | 3 => "int".toList | 4 => "int*".toList
  | 5 => "int**".toList | 6 => "std::shared_ptr<int>".toList | 7 => "test::Object".toList | 8 => "test::Object*".toList
  | 9 => "test::Object**".toList | 10 => "test::Parent".toList | 11 => "test::Child".toList
  | 12 => "test::Parent*".toList | 13 => "test::Child*".toList | 14 => "std::shared_ptr<test::Parent>".toList
  | 15 => "std::shared_ptr<test::Child>".toList | 16 => "test::NotConstructible".toList
  | 17 => "test::NotConstructible*".toList | 18 => "std::shared_ptr<test::NotConstructible>".toList
  | _ => "std::unique_ptr<test::NotConstructible>".toList

def desc : Ty → List TypeOp
  | 2 => plumbingOps 2 (name 2) regular
  | 3 => plumbingOps 3 (name 3) regular
  | 4 => decls (pointerDesc lib intP intT false (name 4))
  | 5 => decls (pointerDesc lib intPP intP false (name 5))
  | 6 => decls (sharedDesc lib sInt intT intP false (name 6))
  | 7 => plumbingOps 7 (name 7) regular
  | 8 => decls (pointerDesc lib objP objT false (name 8))
  | 9 => decls (pointerDesc lib objPP objP false (name 9))
  | 10 => plumbingOps 10 (name 10) regular
  | 11 => .setParent parentT :: plumbingOps 11 (name 11) regular
  | 12 => decls (pointerDesc lib parentP parentT false (name 12))
  | 13 => decls (pointerDesc lib childP childT false (name 13))
  | 14 => decls (sharedDesc lib sParent parentT parentP false (name 14))
  | 15 => decls (sharedDesc lib sChild childT childP false (name 15))
  | 17 => decls (pointerDesc lib ncP ncT false (name 17))
  | 18 => decls (sharedDesc lib sNc ncT ncP false (name 18))
  | 19 => decls (uniqueDesc lib uNc ncT ncP false (name 19))
  | _ => []

/-- how the types are related, for the checks made while they are described -/
def rel : Env :=
  { voidT := voidT, valueT := valueT
    child := fun a b => a = b || (a = childT && b = parentT) || (a = childP && b = parentP) || (a = sChild && b = sParent)
    conv := fun a b => b = boolT && (a = 4 || a = 5 || a = 6 || a = 8 || a = 9 || (12 ≤ a && a ≤ 15) || 17 ≤ a) }

def built (t : Ty) : TypeD := ((TypeD.new (name t)).runAll rel (desc t)).1
def world : World := { n := 20, ty := built, voidT := voidT, valueT := valueT }

/-- every description is accepted -/
example : (List.range 20).all (fun t => match ((TypeD.new (name t)).runAll rel (desc t)).2 with
    | .ok _ => true | _ => false) = true := by decide +kernel
/-- and the type graph that results answers as `rel` did -/
example : (List.range 20).all (fun a => (List.range 20).all fun b =>
    world.env.child a b == rel.child a b && world.env.conv a b == rel.conv a b) = true := by decide +kernel

/-- the bodies; 50 returns its argument -/
def impl : Nat → Heap → List BArg → Res (Heap × BRet)
  | 1, hp, [.obj a _] => (hp.copyObj 1 a).map fun r => (r.1, .obj r.2)
  | 3, hp, [.obj a _] => (hp.moveObj (fun _ => 0) 1 a).map fun r => (r.1, .obj r.2)
  | 5, hp, [.obj a _] => (hp.copyObj 1 a).map fun r => (r.1, .obj r.2)
  | 6, hp, [.obj a _] => (hp.copyObj 1 a).map fun r => (r.1, .obj r.2)
  | 7, hp, [.obj a _] => let r := put hp (if hp.mem a = 0 then 0 else 1) 0 0 0; .ok (r.1, .obj r.2)
  | 8, hp, [.obj a _] => .ok (hp, .obj (hp.mem a))
  | 9, hp, [.obj a _, .obj b _] => let r := put hp (if hp.mem a = hp.mem b then 1 else 0) 0 0 0; .ok (r.1, .obj r.2)
  | 10, hp, [.obj a _] => .ok (write hp a 0, .void)
  | 11, hp, [.obj a _, .obj b _] => .ok (write hp a (hp.mem b), .void)
  | 12, hp, [.obj a _] => .ok (write hp a 0, .void)
  | 50, hp, [.obj a _] => (hp.copyObj 1 a).map fun r => (r.1, .obj r.2)
  | _, _, _ => .error .ub

def caps : Ty → Caps
  | 16 => ⟨false, false, false, false, false⟩ | 19 => moveOnly | _ => regular
def prog : Prog := { w := world, size := fun _ => 1, caps := caps, moved := fun _ _ => 0, junk := .copy, impl := impl }
def e : Env := world.env

/-- pointer_test.cpp, basics -/
example : (built intP).ptr = some ("*".toList, intT) ∧ (built intPP).ptr = some ("*".toList, intP) ∧
    isConvertibleTo e intP.val intP.val = .exact ∧ isConvertibleTo e intP.val intPP.val = .none ∧
    isConvertibleTo e intP.val sInt.val = .none ∧ isConvertibleTo e sInt.val sInt.val = .exact := by decide +kernel

def ptrFn : Fn := Fn.make "ptr".toList objP.val [objP.val] 50
def ptrPtrFn : Fn := Fn.make "ptrPtr".toList objPP.val [objPP.val] 50
def constPtrFn : Fn := Fn.make "constPtr".toList objP.val [objP.val] 50
def childFn : Fn := Fn.make "child".toList childP.val [childP.val] 50
def parentFn : Fn := Fn.make "parent".toList parentP.val [parentP.val] 50
def smartChildFn : Fn := Fn.make "smartChild".toList sChild.val [sChild.val] 50
def smartParentFn : Fn := Fn.make "smartParent".toList sParent.val [sParent.val] 50

/-- where the variables of the tests are: an object at 1, pointers at 3 on, and what they point to -/
def o : Nat := 1
def po : Nat := 3
def ppo : Nat := 5
def cpo : Nat := 7
def pc : Nat := 9
def pp : Nat := 11
def sc : Nat := 13
def sp : Nat := 15
def hp0 : Heap := { mem := fun a => if a = po ∨ a = cpo then o else if a = ppo then po else if a = pc then 17
    else if a = pp then 19 else if a = sc then 21 else if a = sp then 23 else 0, next := 30 }
def call (f : Fn) (want : Arg) (a : Actual) : Res (Heap × Option BArg) := prog.callFn 4 hp0 f want [a]
/-- the pointer obtained points where the one at `a` does -/
def points (a : Nat) : Res (Heap × Option BArg) → Bool
  | .ok (hp, some (.obj b _)) => hp.mem b = hp0.mem a
  | _ => false

/-- pointer_test.cpp, pointer_test -/
example :
    ptrFn.test e voidT.val [objT.val] = .none ∧
    ptrFn.test e voidT.val [objP.val] = .exact ∧
    ptrFn.test e voidT.val [objPP.val] = .none ∧
    ptrFn.test e voidT.val [objP.val] = .exact ∧
    ptrFn.test e objT.val [objP.val] = .none ∧
    ptrFn.test e objP.val [objP.val] = .exact ∧
    ptrFn.test e objPP.val [objP.val] = .none ∧
    ptrFn.test e objP.val [objP.val] = .exact ∧
    ptrPtrFn.test e voidT.val [objT.val] = .none ∧
    ptrPtrFn.test e voidT.val [objP.val] = .none ∧
    ptrPtrFn.test e voidT.val [objPP.val] = .exact ∧
    ptrPtrFn.test e voidT.val [objP.val] = .none ∧
    ptrPtrFn.test e objT.val [objPP.val] = .none ∧
    ptrPtrFn.test e objP.val [objPP.val] = .none ∧
    ptrPtrFn.test e objPP.val [objPP.val] = .exact ∧
    ptrPtrFn.test e objP.val [objPP.val] = .none ∧
    constPtrFn.test e voidT.val [objT.val] = .none ∧
    constPtrFn.test e voidT.val [objP.val] = .exact ∧
    constPtrFn.test e voidT.val [objPP.val] = .none ∧
    constPtrFn.test e voidT.val [objP.val] = .exact ∧
    constPtrFn.test e objT.val [objP.val] = .none ∧
    constPtrFn.test e objP.val [objP.val] = .exact ∧
    constPtrFn.test e objPP.val [objP.val] = .none ∧
    constPtrFn.test e objP.val [objP.val] = .exact := by decide +kernel

/-- pointer_test.cpp, pointer_call -/
example :
    throws (call ptrFn objP.val (.native objT.lref o)) = true ∧
    points po (call ptrFn objP.val (.native objP.lref po)) = true ∧
    throws (call ptrFn objP.val (.native objPP.lref ppo)) = true ∧
    points cpo (call ptrFn objP.val (.native objP.lref cpo)) = true ∧
    throws (call ptrFn objP.val (.dyn ⟨objT.lref, o, none⟩)) = true ∧
    points po (call ptrFn objP.val (.dyn ⟨objP.lref, po, none⟩)) = true ∧
    throws (call ptrFn objP.val (.dyn ⟨objPP.lref, ppo, none⟩)) = true ∧
    points cpo (call ptrFn objP.val (.dyn ⟨objP.lref, cpo, none⟩)) = true ∧
    throws (call ptrFn objT.val (.native objP.lref po)) = true ∧
    points po (call ptrFn objP.val (.native objP.lref po)) = true ∧
    throws (call ptrFn objPP.val (.native objP.lref po)) = true ∧
    points po (call ptrFn objP.val (.native objP.lref po)) = true ∧
    throws (call ptrPtrFn objPP.val (.native objT.lref o)) = true ∧
    throws (call ptrPtrFn objPP.val (.native objP.lref po)) = true ∧
    points ppo (call ptrPtrFn objPP.val (.native objPP.lref ppo)) = true ∧
    throws (call ptrPtrFn objPP.val (.native objP.lref cpo)) = true ∧
    throws (call ptrPtrFn objPP.val (.dyn ⟨objT.lref, o, none⟩)) = true ∧
    throws (call ptrPtrFn objPP.val (.dyn ⟨objP.lref, po, none⟩)) = true ∧
    points ppo (call ptrPtrFn objPP.val (.dyn ⟨objPP.lref, ppo, none⟩)) = true ∧
    throws (call ptrPtrFn objPP.val (.dyn ⟨objP.lref, cpo, none⟩)) = true ∧
    throws (call ptrPtrFn objT.val (.native objPP.lref ppo)) = true ∧
    throws (call ptrPtrFn objP.val (.native objPP.lref ppo)) = true ∧
    points ppo (call ptrPtrFn objPP.val (.native objPP.lref ppo)) = true ∧
    throws (call ptrPtrFn objP.val (.native objPP.lref ppo)) = true ∧
    throws (call constPtrFn objP.val (.native objT.lref o)) = true ∧
    points po (call constPtrFn objP.val (.native objP.lref po)) = true ∧
    throws (call constPtrFn objP.val (.native objPP.lref ppo)) = true ∧
    points cpo (call constPtrFn objP.val (.native objP.lref cpo)) = true ∧
    throws (call constPtrFn objP.val (.dyn ⟨objT.lref, o, none⟩)) = true ∧
    points po (call constPtrFn objP.val (.dyn ⟨objP.lref, po, none⟩)) = true ∧
    throws (call constPtrFn objP.val (.dyn ⟨objPP.lref, ppo, none⟩)) = true ∧
    points cpo (call constPtrFn objP.val (.dyn ⟨objP.lref, cpo, none⟩)) = true ∧
    throws (call constPtrFn objT.val (.native objP.lref cpo)) = true ∧
    runs (call constPtrFn objP.val (.native objP.lref cpo)) = true ∧
    throws (call constPtrFn objPP.val (.native objP.lref cpo)) = true ∧
    points cpo (call constPtrFn objP.val (.native objP.lref cpo)) = true := by decide +kernel

/-- pointer_test.cpp, childParent_test -/
example :
    childFn.test e childP.val [childP.val] = .exact ∧
    childFn.test e childP.val [parentP.val] = .none ∧
    childFn.test e childP.val [sChild.val] = .none ∧
    childFn.test e parentP.val [childP.val] = .exact ∧
    childFn.test e sChild.val [childP.val] = .none ∧
    parentFn.test e parentP.val [childP.val] = .exact ∧
    parentFn.test e parentP.val [parentP.val] = .exact ∧
    parentFn.test e parentP.val [sParent.val] = .none ∧
    parentFn.test e childP.val [parentP.val] = .none ∧
    parentFn.test e sParent.val [parentP.val] = .none ∧
    smartChildFn.test e sChild.val [childP.val] = .none ∧
    smartChildFn.test e sChild.val [sChild.val] = .exact ∧
    smartChildFn.test e sChild.val [sParent.val] = .none ∧
    smartChildFn.test e childP.val [sChild.val] = .none ∧
    smartChildFn.test e sParent.val [sChild.val] = .exact ∧
    smartParentFn.test e sParent.val [parentP.val] = .none ∧
    smartParentFn.test e sParent.val [sChild.val] = .exact ∧
    smartParentFn.test e sParent.val [sParent.val] = .exact ∧
    smartParentFn.test e parentP.val [sParent.val] = .none ∧
    smartParentFn.test e sChild.val [sParent.val] = .none := by decide +kernel

/-- pointer_test.cpp, childParent_call -/
example :
    points pc (call childFn childP.val (.native childP.lref pc)) = true ∧
    throws (call childFn childP.val (.native parentP.lref pp)) = true ∧
    throws (call childFn childP.val (.native sChild.lref sc)) = true ∧
    points pc (call childFn parentP.val (.native childP.lref pc)) = true ∧
    throws (call childFn sChild.val (.native childP.lref pc)) = true ∧
    points pc (call parentFn parentP.val (.native childP.lref pc)) = true ∧
    points pp (call parentFn parentP.val (.native parentP.lref pp)) = true ∧
    throws (call parentFn parentP.val (.native sParent.lref sp)) = true ∧
    throws (call parentFn childP.val (.native parentP.lref pp)) = true ∧
    throws (call parentFn sParent.val (.native parentP.lref pp)) = true ∧
    throws (call smartChildFn sChild.val (.native childP.lref pc)) = true ∧
    points sc (call smartChildFn sChild.val (.native sChild.lref sc)) = true ∧
    throws (call smartChildFn sChild.val (.native sParent.lref sp)) = true ∧
    throws (call smartChildFn childP.val (.native sChild.lref sc)) = true ∧
    points sc (call smartChildFn sParent.val (.native sChild.lref sc)) = true ∧
    throws (call smartParentFn sParent.val (.native parentP.lref pp)) = true ∧
    points sc (call smartParentFn sParent.val (.native sChild.lref sc)) = true ∧
    points sp (call smartParentFn sParent.val (.native sParent.lref sp)) = true ∧
    throws (call smartParentFn parentP.val (.native sParent.lref sp)) = true ∧
    throws (call smartParentFn sChild.val (.native sParent.lref sp)) = true := by decide +kernel

/-! ### smart pointers: `testSmartPtr`; the object is at 27, a second one at 28 -/

/-- the value made by `tPtr->construct(po)` -/
def smart (t : Ty) : Res (Heap × Handle) :=
  match prog.constructWith 4 { mem := fun a => if a = 1 then 27 else if a = 2 then 28 else 0, next := 30 } t [.native ncP.lref 1] with
  | .ok (hp, some (.val v)) => .ok (hp, v)
  | .ok (hp, some (.obj a _)) => prog.wrap hp t.rref a
  | .ok (_, none) => .error .ub
  | .error x => .error x

def methodAt (hp : Heap) (v : Handle) (f : String) : Option Nat := match prog.callMethod 4 hp v f.toList ncP.val [] with
  | .ok (hp, some (.obj a _)) => some (hp.mem a)
  | _ => none
def truth (hp : Heap) (v : Handle) : Option Bool := match prog.asBool boolT 4 hp v with
  | .ok (_, x) => some x
  | _ => none

/-- `testSmartPtr<Ptr>`: true if every assertion holds -/
def testSmartPtr (t : Ty) (pointer : String) : Bool :=
  (built t).ptr = some (pointer.toList, ncT) &&
  match smart t with
  | .error _ => false
  | .ok (hp, v) =>
    -- `*vPtr`, `operator bool`, `operator==` with the pointer itself, `get`
    (match prog.valueOp 4 hp v "operator*".toList [] with
      | .ok (_, some (.val w)) => (match w.get prog ncT with | .ok (a, _) => decide (a = 27) | _ => false)
      | _ => false) &&
    (match v.get prog t with | .ok (a, _) => decide (hp.mem a = 27) | _ => false) &&
    truth hp v = some true &&
    (match prog.boolOp boolT 4 hp v "operator==".toList (.native t.cref v.addr) with | .ok (_, x) => x | _ => false) &&
    methodAt hp v "get" = some 27 &&
    -- `reset(Obj::make())`, `reset()`
    match prog.callMethod 4 hp v "reset".toList voidT.val [.native ncP.rref 2] with
    | .error _ => false
    | .ok (hp, _) =>
      truth hp v = some true && methodAt hp v "get" = some 28 &&
      match prog.callMethod 4 hp v "reset".toList voidT.val [] with
      | .error _ => false
      | .ok (hp, _) => truth hp v = some false && methodAt hp v "get" = some 0

/-- pointer_test.cpp, sharedPtr, uniquePtr -/
example : testSmartPtr sNc "std::shared_ptr" = true ∧ testSmartPtr uNc "std::unique_ptr" = true := by decide +kernel

end Reflect.Conform.Pointer

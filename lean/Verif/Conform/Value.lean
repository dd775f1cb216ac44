import Verif.Conform.Types
/-
  tests/value_test.cpp (all but the numbers of destructor calls), tests/ref_test.cpp.
-/
namespace Reflect.Conform
open Reflect World

def V : Prog := prog 0
/-- memory with an object whose first cell is 10 -/
def h10 : Heap := mem1 10 0 0 0
/-- the value made of an object: reference kind, const, and first cell; `none` if it raises -/
def made (arg : Arg) : Option (RefType × Bool × Nat) := match V.wrap h10 arg 1 with
  | .ok (hp, h) => some (h.arg.ref, h.arg.isConst, hp.mem h.addr)
  | _ => none

/-- value_test.cpp, construct -/
example : runs (V.wrap h10 intT.rref 1) = true ∧ runs (V.wrap h10 noCopyT.rref 1) = true ∧
    runs (V.wrap h10 noMoveT.rref 1) = true ∧ throws (V.wrap h10 noConsT.rref 1) = true := by decide +kernel

/-- value_test.cpp, lValue, constLValue, rValue, constRValue -/
example : made uintT.lref = some (.lvalue, false, 10) ∧ made uintT.cref = some (.lvalue, true, 10) ∧
    made uintT.rref = some (.lvalue, false, 10) ∧ made ⟨uintT, .rvalue, true⟩ = some (.lvalue, false, 10) := by
  decide +kernel

def getAt (h : Handle) (t : Ty) : Option Nat := match h.get V t with
  | .ok (a, _) => some a
  | _ => none

/-- value_test.cpp, parent, child, convertible -/
example : getAt (lValue parentT) interfaceT = some 1 ∧ getAt (lValue parentT) parentT = some 1 ∧
    throws ((lValue parentT).get V childT) = true ∧
    getAt (lValue childT) interfaceT = some 1 ∧ getAt (lValue childT) parentT = some 1 ∧
    getAt (lValue childT) childT = some 1 ∧
    getAt (lValue convT) convT = some 1 ∧ throws ((lValue convT).get V parentT) = true := by decide +kernel

/-- `v.field<int>("value")` -/
def fieldInt (hp : Heap) (h : Handle) : Option Nat := match h.field V "value".toList with
  | .ok f => match V.castTo (V.run 4) hp f intT.val with
    | .ok (hp', .obj a _) => some (hp'.mem a)
    | _ => none
  | _ => none

/-- value_test.cpp, copyMove -/
example :
    (match V.copy 4 h10 (lValue objectT) with
      | .ok (hp, c) => decide (fieldInt hp c = some 10 ∧ fieldInt hp (lValue objectT) = some 10 ∧ hp.mem 1 = 10)
      | _ => false) = true ∧
    (match V.move 4 h10 (lValue objectT) with
      | .ok (hp, m) => decide (fieldInt hp m = some 10 ∧ hp.mem 1 = 0)
      | _ => false) = true := by decide +kernel

/-- ref_test.cpp, types -/
example : (CxxTy.obj "unsigned".toList).refType = .copy ∧ (CxxTy.lref (.obj "unsigned".toList)).refType = .lvalue ∧
    (CxxTy.rref (.obj "unsigned".toList)).refType = .rvalue ∧
    (CxxTy.lref (.const (.obj "unsigned".toList))).refType = .lvalue := by decide

/-- ref_test.cpp, constness -/
example :
    let u := CxxTy.obj "unsigned".toList
    u.isConst = false ∧ (CxxTy.lref u).isConst = false ∧ (CxxTy.rref u).isConst = false ∧
    (CxxTy.const u).isConst = true ∧ (CxxTy.lref (.const u)).isConst = true ∧
    (CxxTy.ptr u).isConst = false ∧ (CxxTy.ptr (.const u)).isConst = false ∧
    (CxxTy.ptr (.const (.ptr (.const u)))).isConst = false ∧ (CxxTy.ptr (.ptr (.const u))).isConst = false ∧
    (CxxTy.ptr (.const (.ptr u))).isConst = false ∧ (CxxTy.lref (.ptr u)).isConst = false ∧
    (CxxTy.lref (.ptr (.const u))).isConst = false ∧ (CxxTy.lref (.const (.ptr u))).isConst = true ∧
    (CxxTy.lref (.const (.ptr (.const u)))).isConst = true := by decide

end Reflect.Conform

import Verif.Conform.Types
import Verif.Props.Temporaries
/-
  tests/cast_test.cpp: casting values. `lref`, `clref` and `rref` of the tests are `Value(x)`,
  `Value(x).toConst()` and `Value(x).rvalue()`; given a temporary, the value holds a copy of it, here at 6.
-/
namespace Reflect.Conform
open Reflect World

def P : Prog := prog 0
/-- `cast<Target>(value)` with the object of value `v` in memory -/
def castAt (v : Nat) (h : Handle) (target : Arg) : Res (Heap × BArg) :=
  P.castTo (P.run 4) (mem1 v 0 0 0) h target

def lref (t : Ty) : Handle := lValue t
def cref (t : Ty) : Handle := cValue t
def clref (t : Ty) : Handle := (lValue t).toConst
/-- of a temporary: the value owns its copy -/
def tmp (t : Ty) : Handle := ⟨t.lref, 6, some 6⟩
def rref (t : Ty) : Handle := (tmp t).rvalue

/-- `lref(temporary)` indeed makes such a value -/
example : (match P.wrap (mem1 7 0 0 0) intT.rref 1 with
    | .ok (hp, h) => decide (h.arg = (tmp intT).arg ∧ h.owner = some h.addr ∧ hp.mem h.addr = 7) | _ => false) = true := by
  decide +kernel

/-- cast_test.cpp, test_copy -/
example :
    casts 10 (castAt 10 (rref intT) intT.val) = true ∧
    castsNew 20 1 (castAt 20 (lref intT) intT.val) = true ∧
    castsNew 30 1 (castAt 30 (cref intT) intT.val) = true ∧
    casts 40 (castAt 40 (rref objectT) objectT.val) = true ∧
    castsNew 50 1 (castAt 50 (lref objectT) objectT.val) = true ∧
    castsNew 60 1 (castAt 60 (cref objectT) objectT.val) = true ∧
    throws (castAt 0 (rref noCopyT) noCopyT.val) = true ∧
    throws (castAt 0 (lref noCopyT) noCopyT.val) = true ∧
    casts 70 (castAt 70 (rref childT) parentT.val) = true ∧
    castsNew 70 1 (castAt 70 (lref childT) parentT.val) = true ∧
    castsNew 90 1 (castAt 90 (cref childT) parentT.val) = true ∧
    casts 90 (castAt 90 (rref convT) intT.val) = true ∧
    casts 100 (castAt 100 (tmp convT) intT.val) = true ∧
    casts 110 (castAt 110 (cref convT) intT.val) = true := by decide +kernel

/-- cast_test.cpp, test_lref -/
example :
    throws (castAt 10 (rref intT) intT.lref) = true ∧
    castsAt 1 (castAt 10 (lref intT) intT.lref) = true ∧
    throws (castAt 10 (clref intT) intT.lref) = true ∧
    throws (castAt 40 (rref objectT) objectT.lref) = true ∧
    castsAt 1 (castAt 50 (lref objectT) objectT.lref) = true ∧
    throws (castAt 50 (clref objectT) objectT.lref) = true ∧
    throws (castAt 0 (rref noCopyT) noCopyT.lref) = true ∧
    castsAt 1 (castAt 0 (lref noCopyT) noCopyT.lref) = true ∧
    throws (castAt 70 (rref childT) parentT.lref) = true ∧
    castsAt 1 (castAt 70 (lref childT) parentT.lref) = true ∧
    throws (castAt 70 (clref childT) parentT.lref) = true ∧
    throws (castAt 90 (rref convT) intT.lref) = true ∧
    throws (castAt 100 (tmp convT) intT.lref) = true ∧
    throws (castAt 110 (tmp convT).toConst intT.lref) = true := by decide +kernel

/-- cast_test.cpp, test_clref -/
example :
    casts 10 (castAt 10 (lref intT).rvalue intT.cref) = true ∧
    castsAt 1 (castAt 10 (lref intT) intT.cref) = true ∧
    castsAt 1 (castAt 10 (clref intT) intT.cref) = true ∧
    casts 40 (castAt 40 (lref objectT).rvalue objectT.cref) = true ∧
    castsAt 1 (castAt 40 (lref objectT) objectT.cref) = true ∧
    castsAt 1 (castAt 40 (clref objectT) objectT.cref) = true ∧
    runs (castAt 0 (rref noCopyT) noCopyT.cref) = true ∧
    castsAt 1 (castAt 0 (lref noCopyT) noCopyT.cref) = true ∧
    castsAt 1 (castAt 0 (clref noCopyT) noCopyT.cref) = true ∧
    casts 70 (castAt 70 (rref childT) parentT.cref) = true ∧
    castsAt 1 (castAt 70 (lref childT) parentT.cref) = true ∧
    castsAt 1 (castAt 70 (clref childT) parentT.cref) = true ∧
    throws (castAt 90 (rref convT) intT.cref) = true ∧
    throws (castAt 100 (tmp convT) intT.cref) = true ∧
    throws (castAt 110 (tmp convT).toConst intT.cref) = true := by decide +kernel

/-- cast_test.cpp, test_rref -/
example :
    casts 10 (castAt 10 (rref intT) intT.rref) = true ∧
    P.isCastable (lref intT) intT.rref = false ∧
    casts 20 (castAt 20 (lref intT) intT.rref) = true ∧
    P.isCastable (clref intT) intT.rref = false ∧
    casts 30 (castAt 30 (clref intT) intT.rref) = true ∧
    casts 40 (castAt 40 (rref objectT) objectT.rref) = true ∧
    P.isCastable (lref objectT) objectT.rref = false ∧
    casts 50 (castAt 50 (lref objectT) objectT.rref) = true ∧
    P.isCastable (clref objectT) objectT.rref = false ∧
    casts 60 (castAt 60 (clref objectT) objectT.rref) = true ∧
    runs (castAt 0 (rref noCopyT) noCopyT.rref) = true ∧
    runs (castAt 0 (lref noCopyT) noCopyT.rref) = true ∧
    runs (castAt 0 (clref noCopyT) noCopyT.rref) = true ∧
    casts 70 (castAt 70 (rref childT) parentT.rref) = true ∧
    P.isCastable (lref childT) parentT.rref = false ∧
    casts 70 (castAt 70 (lref childT) parentT.rref) = true ∧
    P.isCastable (clref childT) parentT.rref = false ∧
    casts 80 (castAt 80 (clref childT) parentT.rref) = true ∧
    casts 90 (castAt 90 (rref convT) intT.rref) = true ∧
    casts 100 (castAt 100 (tmp convT) intT.rref) = true ∧
    casts 110 (castAt 110 (tmp convT).toConst intT.rref) = true := by decide +kernel

end Reflect.Conform

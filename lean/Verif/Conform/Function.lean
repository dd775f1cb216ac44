import Verif.Conform.Types
/-
  tests/function_test.cpp: which functions take which arguments, and what calls give.
-/
namespace Reflect.Conform
open Reflect World

def e : Env := world.env
def basicsFn : Fn := Fn.make "foo".toList uintT.val [uintT.val, intT.lref, intT.cref, intT.rref] 40
def voidFn : Fn := Fn.make "foo".toList voidT.val [] 41
def copyFn : Fn := Fn.make "foo".toList intT.val [intT.val] 42
def lValueFn : Fn := Fn.make "foo".toList intT.lref [intT.lref] 43
def constLValueFn : Fn := Fn.make "foo".toList intT.cref [intT.cref] 44
def rValueFn : Fn := Fn.make "foo".toList voidT.val [intT.rref] 46
/-- rValue_call has another one -/
def rValueFn' : Fn := Fn.make "foo".toList intT.val [intT.rref] 42
def childParent_copyFn : Fn := Fn.make "doCopy".toList childT.val [parentT.val] 47
def childParent_lrefFn : Fn := Fn.make "doLRef".toList childT.lref [parentT.lref] 45
def childParent_clrefFn : Fn := Fn.make "doConstLRef".toList childT.cref [parentT.cref] 45
/-- its result is an `int` in one test and an `Object` in the other -/
def childParent_rrefFn : Fn := Fn.make "doRRef".toList intT.val [parentT.rref] 42
def childParent_rrefFn' : Fn := Fn.make "doRRef".toList objectT.val [parentT.rref] 42
def converters_copyFn : Fn := Fn.make "doCopy".toList convT.val [intT.val] 42
def converters_lrefFn : Fn := Fn.make "doLRef".toList convT.lref [intT.lref] 45
def converters_clrefFn : Fn := Fn.make "doConstLRef".toList convT.cref [intT.cref] 45
def converters_rrefFn : Fn := Fn.make "doRRef".toList intT.val [intT.rref] 42

/-- function_test.cpp, basics -/
example : basicsFn.testFn e basicsFn = .exact := by decide +kernel

/-- function_test.cpp, void_test -/
example :
    voidFn.test e voidT.val [] = .exact ∧
    voidFn.test e voidT.val [intT.val] = .none ∧
    voidFn.test e voidT.val [valueT.val] = .none ∧
    voidFn.test e intT.val [] = .none ∧
    voidFn.test e valueT.val [] = .exact ∧
    voidFn.test e voidT.val [intT.lref] = .none ∧
    voidFn.test e voidT.val [valueT.lref] = .none ∧
    voidFn.test e intT.lref [] = .none ∧
    voidFn.test e valueT.lref [] = .none ∧
    voidFn.test e voidT.val [intT.cref] = .none ∧
    voidFn.test e voidT.val [valueT.cref] = .none ∧
    voidFn.test e intT.cref [] = .none ∧
    voidFn.test e valueT.cref [] = .none ∧
    voidFn.test e voidT.val [intT.rref] = .none ∧
    voidFn.test e voidT.val [valueT.rref] = .none := by decide +kernel

/-- function_test.cpp, copy_test -/
example :
    copyFn.test e voidT.val [intT.val] = .exact ∧
    copyFn.test e intT.val [] = .none ∧
    copyFn.test e intT.val [intT.val] = .exact ∧
    copyFn.test e intT.val [intT.lref] = .part ∧
    copyFn.test e intT.lref [intT.val] = .none ∧
    copyFn.test e intT.val [intT.cref] = .part ∧
    copyFn.test e intT.cref [intT.val] = .none ∧
    copyFn.test e intT.val [intT.rref] = .exact := by decide +kernel

/-- function_test.cpp, lValue_test -/
example :
    lValueFn.test e voidT.val [intT.lref] = .exact ∧
    lValueFn.test e intT.lref [] = .none ∧
    lValueFn.test e intT.lref [intT.val] = .none ∧
    lValueFn.test e intT.val [intT.lref] = .exact ∧
    lValueFn.test e intT.lref [intT.lref] = .exact ∧
    lValueFn.test e intT.lref [intT.cref] = .none ∧
    lValueFn.test e intT.cref [intT.lref] = .exact ∧
    lValueFn.test e intT.lref [intT.rref] = .none := by decide +kernel

/-- function_test.cpp, constLValue_test -/
example :
    constLValueFn.test e voidT.val [intT.cref] = .exact ∧
    constLValueFn.test e intT.cref [] = .none ∧
    constLValueFn.test e intT.cref [intT.val] = .part ∧
    constLValueFn.test e intT.val [intT.cref] = .exact ∧
    constLValueFn.test e intT.lref [intT.cref] = .none ∧
    constLValueFn.test e intT.cref [intT.lref] = .part ∧
    constLValueFn.test e intT.cref [intT.cref] = .exact ∧
    constLValueFn.test e intT.cref [intT.rref] = .part := by decide +kernel

/-- function_test.cpp, rValue_test -/
example :
    rValueFn.test e voidT.val [] = .none ∧
    rValueFn.test e voidT.val [intT.val] = .none ∧
    rValueFn.test e voidT.val [intT.lref] = .none ∧
    rValueFn.test e voidT.val [intT.cref] = .none ∧
    rValueFn.test e voidT.val [intT.rref] = .exact := by decide +kernel

/-- function_test.cpp, childParent_test -/
example :
    childParent_copyFn.test e voidT.val [childT.val] = .exact ∧
    childParent_copyFn.test e voidT.val [childT.lref] = .part ∧
    childParent_copyFn.test e voidT.val [childT.cref] = .part ∧
    childParent_copyFn.test e voidT.val [childT.rref] = .exact ∧
    childParent_copyFn.test e parentT.val [parentT.val] = .exact ∧
    childParent_copyFn.test e parentT.lref [parentT.val] = .none ∧
    childParent_copyFn.test e parentT.cref [parentT.val] = .none ∧
    childParent_lrefFn.test e voidT.val [childT.val] = .none ∧
    childParent_lrefFn.test e voidT.val [childT.lref] = .exact ∧
    childParent_lrefFn.test e voidT.val [childT.cref] = .none ∧
    childParent_lrefFn.test e voidT.val [childT.rref] = .none ∧
    childParent_lrefFn.test e parentT.val [parentT.lref] = .exact ∧
    childParent_lrefFn.test e parentT.lref [parentT.lref] = .exact ∧
    childParent_lrefFn.test e parentT.cref [parentT.lref] = .exact ∧
    childParent_clrefFn.test e voidT.val [childT.val] = .part ∧
    childParent_clrefFn.test e voidT.val [childT.lref] = .part ∧
    childParent_clrefFn.test e voidT.val [childT.cref] = .exact ∧
    childParent_clrefFn.test e voidT.val [childT.rref] = .part ∧
    childParent_clrefFn.test e parentT.val [parentT.cref] = .exact ∧
    childParent_clrefFn.test e parentT.lref [parentT.cref] = .none ∧
    childParent_clrefFn.test e parentT.cref [parentT.cref] = .exact ∧
    childParent_rrefFn.test e voidT.val [childT.val] = .none ∧
    childParent_rrefFn.test e voidT.val [childT.lref] = .none ∧
    childParent_rrefFn.test e voidT.val [childT.cref] = .none ∧
    childParent_rrefFn.test e voidT.val [childT.rref] = .exact := by decide +kernel

/-- function_test.cpp, converters_test -/
example :
    converters_copyFn.test e voidT.val [convT.val] = .part ∧
    converters_copyFn.test e voidT.val [convT.lref] = .part ∧
    converters_copyFn.test e voidT.val [convT.cref] = .part ∧
    converters_copyFn.test e voidT.val [convT.rref] = .part ∧
    converters_copyFn.test e intT.val [intT.val] = .exact ∧
    converters_copyFn.test e intT.lref [intT.val] = .none ∧
    converters_copyFn.test e intT.cref [intT.val] = .none ∧
    converters_lrefFn.test e voidT.val [convT.val] = .none ∧
    converters_lrefFn.test e voidT.val [convT.lref] = .none ∧
    converters_lrefFn.test e voidT.val [convT.cref] = .none ∧
    converters_lrefFn.test e voidT.val [convT.rref] = .none ∧
    converters_lrefFn.test e intT.val [intT.lref] = .exact ∧
    converters_lrefFn.test e intT.lref [intT.lref] = .none ∧
    converters_lrefFn.test e intT.cref [intT.lref] = .none ∧
    converters_clrefFn.test e voidT.val [convT.val] = .none ∧
    converters_clrefFn.test e voidT.val [convT.lref] = .none ∧
    converters_clrefFn.test e voidT.val [convT.cref] = .none ∧
    converters_clrefFn.test e voidT.val [convT.rref] = .none ∧
    converters_clrefFn.test e intT.val [intT.cref] = .exact ∧
    converters_clrefFn.test e intT.lref [intT.cref] = .none ∧
    converters_clrefFn.test e intT.cref [intT.cref] = .none ∧
    converters_rrefFn.test e voidT.val [convT.val] = .part ∧
    converters_rrefFn.test e voidT.val [convT.lref] = .part ∧
    converters_rrefFn.test e voidT.val [convT.cref] = .part ∧
    converters_rrefFn.test e voidT.val [convT.rref] = .part := by decide +kernel

/-! ### calls: `int i = 10` is at 1, temporaries are at 6 -/

def m10 : Heap := mem1 10 0 0 0
/-- the nesting of calls that conversions make is small -/
def call (g : Nat) (f : Fn) (want : Arg) (as : List Actual) : Res (Heap × Option BArg) :=
  (prog g).callFn 4 m10 f want as
/-- `Value()` -/
def noValue : Actual := .dyn (prog 0).voidHandle

/-- function_test.cpp, basics: `foo(1u, i, 3, std::move(i))` with `i = 2` gives 1 + 1 * 2 -/
example : gives 3 ((prog 0).callFn 4
      { mem := fun a => if a = 1 then 2 else if a = 6 then 1 else if a = 11 then 3 else if a = 16 then 2 else 0,
        next := 21 } basicsFn uintT.val
      [.native uintT.rref 6, .native intT.lref 1, .native intT.rref 11, .native intT.rref 16]) = true := by
  decide +kernel

/-- function_test.cpp, void_call -/
example :
    runs (call 0 voidFn voidT.val []) = true ∧
    throws (call 0 voidFn voidT.val [rv intT]) = true ∧
    throws (call 0 voidFn intT.val []) = true ∧
    (match call 0 voidFn valueT.val [] with
      | .ok (_, some (.val v)) => decide (v.arg.type = voidT) | _ => false) = true ∧
    throws (call 0 voidFn voidT.val [lv intT]) = true ∧
    throws (call 0 voidFn voidT.val [.dyn (lValue intT)]) = true ∧
    throws (call 0 voidFn intT.lref []) = true ∧
    throws (call 0 voidFn valueT.lref []) = true ∧
    throws (call 0 voidFn voidT.val [cv intT]) = true ∧
    throws (call 0 voidFn voidT.val [.dyn (cValue intT)]) = true ∧
    throws (call 0 voidFn intT.cref []) = true ∧
    throws (call 0 voidFn valueT.cref []) = true ∧
    throws (call 0 voidFn voidT.val [rv intT]) = true ∧
    throws (call 0 voidFn voidT.val [.dyn (lValue intT).rvalue]) = true := by decide +kernel

/-- function_test.cpp, copy_call -/
example :
    runs (call 0 copyFn voidT.val [rv intT]) = true ∧
    throws (call 0 copyFn intT.val []) = true ∧
    throws (call 0 copyFn intT.val [noValue]) = true ∧
    gives 11 (call 0 copyFn intT.val [rv intT]) = true ∧
    gives 11 (call 0 copyFn intT.val [lv intT]) = true ∧
    gives 11 (call 0 copyFn intT.val [.dyn (lValue intT)]) = true ∧
    throws (call 0 copyFn intT.lref [rv intT]) = true ∧
    gives 11 (call 0 copyFn intT.val [cv intT]) = true ∧
    gives 11 (call 0 copyFn intT.val [.dyn (cValue intT)]) = true ∧
    throws (call 0 copyFn intT.cref [rv intT]) = true ∧
    gives 11 (call 0 copyFn intT.val [rv intT]) = true ∧
    gives 11 (call 0 copyFn intT.val [.dyn (lValue intT).rvalue]) = true := by decide +kernel

/-- function_test.cpp, lValue_call (the tests evaluate the C++ function first, then the reflected one, on the
    same variable; here each starts from 10) -/
example :
    runs (call 0 lValueFn voidT.val [.dyn (lValue intT)]) = true ∧
    throws (call 0 lValueFn intT.val []) = true ∧
    throws (call 0 lValueFn intT.val [noValue]) = true ∧
    throws (call 0 lValueFn intT.lref [rv intT]) = true ∧
    gives 11 (call 0 lValueFn intT.val [lv intT]) = true ∧
    gives 11 (call 0 lValueFn intT.val [.dyn (lValue intT)]) = true ∧
    isAt 1 (call 0 lValueFn intT.lref [lv intT]) = true ∧
    isAt 1 (call 0 lValueFn intT.lref [.dyn (lValue intT)]) = true ∧
    throws (call 0 lValueFn intT.lref [cv intT]) = true ∧
    throws (call 0 lValueFn intT.lref [.dyn (cValue intT)]) = true ∧
    isAt 1 (call 0 lValueFn intT.cref [lv intT]) = true ∧
    isAt 1 (call 0 lValueFn intT.cref [.dyn (lValue intT)]) = true ∧
    throws (call 0 lValueFn intT.lref [rv intT]) = true ∧
    throws (call 0 lValueFn intT.lref [.dyn (lValue intT).rvalue]) = true := by decide +kernel

/-- function_test.cpp, constLValue_call -/
example :
    runs (call 0 constLValueFn voidT.val [.dyn (cValue intT)]) = true ∧
    throws (call 0 constLValueFn intT.cref []) = true ∧
    throws (call 0 constLValueFn intT.cref [noValue]) = true ∧
    runs (call 0 constLValueFn intT.cref [lv intT]) = true ∧
    gives 10 (call 0 constLValueFn intT.val [cv intT]) = true ∧
    gives 10 (call 0 constLValueFn intT.val [.dyn (cValue intT)]) = true ∧
    isAt 1 (call 0 constLValueFn intT.cref [lv intT]) = true ∧
    isAt 1 (call 0 constLValueFn intT.cref [.dyn (lValue intT)]) = true ∧
    throws (call 0 constLValueFn intT.lref [cv intT]) = true ∧
    throws (call 0 constLValueFn intT.lref [.dyn (cValue intT)]) = true ∧
    isAt 1 (call 0 constLValueFn intT.cref [cv intT]) = true ∧
    isAt 1 (call 0 constLValueFn intT.cref [.dyn (cValue intT)]) = true ∧
    runs (call 0 constLValueFn intT.cref [rv intT]) = true ∧
    runs (call 0 constLValueFn intT.cref [.dyn (lValue intT).rvalue]) = true := by decide +kernel

/-- function_test.cpp, rValue_call -/
example :
    runs (call 0 rValueFn' voidT.val [rv intT]) = true ∧
    throws (call 0 rValueFn' intT.cref []) = true ∧
    throws (call 0 rValueFn' intT.cref [noValue]) = true ∧
    throws (call 0 rValueFn' intT.val [lv intT]) = true ∧
    gives 11 (call 0 rValueFn' intT.val [rv intT]) = true ∧
    throws (call 0 rValueFn' intT.val [.dyn (lValue intT)]) = true ∧
    throws (call 0 rValueFn' intT.lref [rv intT]) = true ∧
    throws (call 0 rValueFn' intT.lref [.dyn (lValue intT).rvalue]) = true ∧
    throws (call 0 rValueFn' intT.val [cv intT]) = true ∧
    throws (call 0 rValueFn' intT.val [.dyn (cValue intT)]) = true ∧
    throws (call 0 rValueFn' intT.cref [rv intT]) = true ∧
    throws (call 0 rValueFn' intT.cref [.dyn (lValue intT).rvalue]) = true ∧
    gives 11 (call 0 rValueFn' intT.val [rv intT]) = true ∧
    runs (call 0 rValueFn' intT.val [.dyn (lValue intT).rvalue]) = true := by decide +kernel

/-- the object obtained is `Child(value, 0)` -/
def givesChild (v : Nat) : Res (Heap × Option BArg) → Bool
  | .ok (hp, some (.obj a _)) => hp.mem a = 0 && hp.mem (a + 2) = v
  | _ => false

/-- function_test.cpp, childParent_call. `Parent copy(10, 0)` and `Child childCopy(10, 0)`: the parent part of
    the latter is default constructed, so that what `doCopy` gives depends on which is passed. The
    object the lambdas capture is at 1. -/
example :
    givesChild 1 ((prog 1).callFn 4 (mem1 0 0 10 0) childParent_copyFn childT.val [lv childT]) = true ∧
    givesChild 1 ((prog 1).callFn 4 (mem1 0 0 10 0) childParent_copyFn childT.val [cv childT]) = true ∧
    givesChild 1 ((prog 1).callFn 4 (mem1 0 0 10 0) childParent_copyFn childT.val [rv childT]) = true ∧
    gives 0 (call 1 childParent_copyFn parentT.val [lv parentT]) = true ∧
    throws (call 1 childParent_copyFn parentT.lref [lv parentT]) = true ∧
    throws (call 1 childParent_copyFn parentT.cref [lv parentT]) = true ∧
    isAt 1 (call 1 childParent_lrefFn childT.lref [lv childT]) = true ∧
    throws (call 1 childParent_lrefFn childT.lref [cv childT]) = true ∧
    throws (call 1 childParent_lrefFn childT.lref [rv childT]) = true ∧
    gives 10 (call 1 childParent_lrefFn parentT.val [lv parentT]) = true ∧
    isAt 1 (call 1 childParent_lrefFn parentT.lref [lv parentT]) = true ∧
    isAt 1 (call 1 childParent_lrefFn parentT.cref [lv parentT]) = true ∧
    isAt 1 (call 1 childParent_clrefFn childT.cref [lv childT]) = true ∧
    isAt 1 (call 1 childParent_clrefFn childT.cref [cv childT]) = true ∧
    isAt 1 (call 1 childParent_clrefFn childT.cref [rv childT]) = true ∧
    gives 10 (call 1 childParent_clrefFn parentT.val [cv parentT]) = true ∧
    throws (call 1 childParent_clrefFn parentT.lref [cv parentT]) = true ∧
    isAt 1 (call 1 childParent_clrefFn parentT.cref [cv parentT]) = true ∧
    throws (call 1 childParent_rrefFn' objectT.val [lv childT]) = true ∧
    throws (call 1 childParent_rrefFn' objectT.val [cv childT]) = true ∧
    gives 11 (call 1 childParent_rrefFn' objectT.val [rv childT]) = true := by decide +kernel

/-- function_test.cpp, converters_call -/
example :
    gives 11 (call 1 converters_copyFn convT.val [lv convT]) = true ∧
    gives 11 (call 1 converters_copyFn convT.val [cv convT]) = true ∧
    gives 11 (call 1 converters_copyFn convT.val [rv convT]) = true ∧
    gives 11 (call 1 converters_copyFn intT.val [lv intT]) = true ∧
    throws (call 1 converters_copyFn intT.lref [lv intT]) = true ∧
    throws (call 1 converters_copyFn intT.cref [lv intT]) = true ∧
    throws (call 1 converters_lrefFn convT.lref [lv convT]) = true ∧
    throws (call 1 converters_lrefFn convT.lref [cv convT]) = true ∧
    throws (call 1 converters_lrefFn convT.lref [rv convT]) = true ∧
    gives 10 (call 1 converters_lrefFn intT.val [lv intT]) = true ∧
    throws (call 1 converters_lrefFn intT.lref [lv intT]) = true ∧
    throws (call 1 converters_lrefFn intT.cref [lv intT]) = true ∧
    throws (call 1 converters_clrefFn convT.cref [lv convT]) = true ∧
    throws (call 1 converters_clrefFn convT.cref [cv convT]) = true ∧
    throws (call 1 converters_clrefFn convT.cref [rv convT]) = true ∧
    gives 10 (call 1 converters_clrefFn intT.val [cv intT]) = true ∧
    throws (call 1 converters_clrefFn intT.lref [cv intT]) = true ∧
    throws (call 1 converters_clrefFn intT.cref [cv intT]) = true ∧
    gives 11 (call 1 converters_rrefFn intT.val [lv convT]) = true ∧
    gives 11 (call 1 converters_rrefFn intT.val [cv convT]) = true ∧
    gives 11 (call 1 converters_rrefFn intT.val [rv convT]) = true := by decide +kernel

end Reflect.Conform

import Verif.Conform.Types
import Verif.Model.ScopeName
import Verif.Model.Globals
import Verif.Model.Operators
import Verif.Model.ValueOps
import Verif.Model.Callable
/-
  tests/scope_test.cpp, reflection_test.cpp, demo_test.cpp (what it asserts, and the sum it prints) and
  value_function_test.cpp.
-/
namespace Reflect.Conform.Misc
open Reflect World Reflect.Conform

/-! ### scope_test.cpp, head and tail -/

def okPair (r : Res (Name × Name)) (a b : String) : Bool := match r with
  | .ok p => p.1 = a.toList && p.2 = b.toList
  | _ => false
example : [("", "", ""), ("::", "", ""), ("a", "a", ""), ("a::b", "a", "b"), ("a::b::c", "a", "b::c"),
    ("::b::c", "", "b::c"), ("a<b>", "a<b>", ""), ("a<b::c>", "a<b::c>", ""), ("a<b>::c", "a<b>", "c"),
    ("a<b::c>::d", "a<b::c>", "d"), ("a<b::c<d::f>::g>::h", "a<b::c<d::f>::g>", "h")].all
    (fun x => okPair (Scope.head x.1.toList) x.2.1 x.2.2) = true := by decide +kernel
example : [("", "", ""), ("::", "", ""), ("a", "a", ""), ("a::b", "b", "a"), ("a::b::c", "c", "a::b"),
    ("b::c::", "", "b::c"), ("a<b>", "a<b>", ""), ("a<b::c>", "a<b::c>", ""), ("c::a<b>", "a<b>", "c"),
    ("d::a<b::c>", "a<b::c>", "d"), ("h::a<b::c<d::f>::g>", "a<b::c<d::f>::g>", "h")].all
    (fun x => okPair (Scope.tail x.1.toList) x.2.1 x.2.2) = true := by decide +kernel

/-! ### the types -/

def voidT : Ty := 0
def valueT : Ty := 1
def intT : Ty := 2
/-- `foo::Foo` and `foo::bar::Bar` of scope_test -/
def nsFoo : Ty := 3
def nsBar : Ty := 4
/-- `test::Bar` and `test::Foo` of reflection_test: cells bar, field, constField, value -/
def barT : Ty := 5
def fooT : Ty := 6
/-- `test::Zorish` and `test::Thingy` of demo_test: cells value, bob -/
def zorT : Ty := 7
def thingT : Ty := 8
/-- `Foo` of value_function_test -/
def vfoo : Ty := 9

def name : Ty → Name
  | 0 => "void".toList | 1 => "reflect::Value".toList | 2 => "int".toList | 3 => "foo::Foo".toList
  | 4 => "foo::bar::Bar".toList | 5 => "test::Bar".toList | 6 => "test::Foo".toList | 7 => "test::Zorish".toList
  | 8 => "test::Thingy".toList | _ => "Foo".toList

/-- the operators the classes declare -/
def fooMembers : Members := fun n =>
  if n = "operator+=".toList then [⟨fooT, fooT.lref, false, [fooT.cref], 20⟩]
  else if n = "operator+".toList then [⟨fooT, fooT.val, true, [fooT.cref], 21⟩] else []
def zorMembers : Members := fun n =>
  if n = "operator+".toList then [⟨zorT, zorT.val, true, [zorT.cref], 22⟩] else []

def fn (n : String) (ret : Arg) (args : List Arg) (body : Nat) : TypeOp :=
  .addFunction n.toList (Fn.make n.toList ret args body)

def desc : Ty → List TypeOp
  | 2 => plumbingOps 2 (name 2) regular ++ [fn "operator+" intT.val [intT.cref, intT.val] 23]
  | 3 => plumbingOps 3 (name 3) regular
  | 4 => plumbingOps 4 (name 4) regular
  | 5 => [.addField "bar".toList intT.val 0]
  | 6 => [.setParent barT, fn "test::Foo" fooT.val [intT.val] 24] ++
    plumbingOps 6 (name 6) ⟨true, true, true, false, false⟩ ++
    reflectOps fooMembers opAssign ++ reflectOps fooMembers opArithmetic ++
    [fn "void_" voidT.val [fooT.lref] 25, .addField "value".toList intT.val 3, .addField "field".toList intT.val 1,
     .addField "constField".toList ⟨intT, .copy, true⟩ 2,
     fn "copyArg" voidT.val [fooT.lref, intT.val] 26, fn "copyRet" intT.val [fooT.cref] 27,
     fn "lValueArg" voidT.val [fooT.lref, intT.lref] 26, fn "lValueRet" intT.lref [fooT.lref] 28,
     fn "constLValueArg" voidT.val [fooT.lref, intT.cref] 26, fn "constLValueRet" intT.cref [fooT.cref] 28,
     fn "rValueArg" voidT.val [fooT.lref, intT.rref] 26, fn "rValueRet" intT.val [fooT.lref] 27,
     fn "fn" voidT.val [fooT.lref, intT.val, intT.val, intT.val] 29,
     fn "staticFn" intT.val [intT.val, intT.val] 30, fn "staticFn" intT.val [intT.val, intT.val, intT.val] 31,
     fn "custom" voidT.val [fooT.lref, intT.val, intT.val] 32]
  | 7 => plumbingOps 7 (name 7) regular ++ [fn "test::Zorish" zorT.val [intT.val] 33, .addField "value".toList intT.val 0,
      .addFunction (converterName "int".toList) (Fn.make (converterName "int".toList) intT.val [zorT.cref] 34)] ++
    reflectOps zorMembers opArithmetic
  | 8 => plumbingOps 8 (name 8) ⟨false, true, true, true, true⟩ ++
    [.setParent zorT, fn "test::Thingy" thingT.val [intT.val] 33, .addField "bob".toList intT.val 1,
     fn "weee" intT.val [thingT.lref, intT.val] 35]
  | _ => []

def rel : Env :=
  { voidT := voidT, valueT := valueT, child := fun a b => a = b || (a = 6 && b = 5) || (a = 8 && b = 7)
    conv := fun a b => (a = 7 || a = 8) && b = 2 }
def built (t : Ty) : TypeD := ((TypeD.new (name t)).runAll rel (desc t)).1
def world : World := { n := 10, ty := built, voidT := voidT, valueT := valueT }
example : (List.range 10).all (fun t => match ((TypeD.new (name t)).runAll rel (desc t)).2 with
    | .ok _ => true | _ => false) = true := by decide +kernel
example : (List.range 10).all (fun a => (List.range 10).all fun b =>
    world.env.child a b == rel.child a b && world.env.conv a b == rel.conv a b) = true := by decide +kernel

/-- the global `foo::baz::i`, the global `test::counter`, and the captured variable of value_function_test -/
def gi : Nat := 1
def counter : Nat := 6
def captured : Nat := 11

def int (hp : Heap) (v : Nat) : Res (Heap × BRet) := let r := put hp v 0 0 0; .ok (r.1, .obj r.2)
def impl : Nat → Heap → List BArg → Res (Heap × BRet)
  | 0, hp, [] => int hp 0
  | 1, hp, [.obj a _] => let r := put hp (hp.mem a) (hp.mem (a + 1)) (hp.mem (a + 2)) (hp.mem (a + 3)); .ok (r.1, .obj r.2)
  | 2, hp, [.obj a _, .obj b _] => .ok (write hp a (hp.mem b), .obj a)
  | 3, hp, [.obj a _] => let r := put hp (hp.mem a) (hp.mem (a + 1)) (hp.mem (a + 2)) (hp.mem (a + 3)); .ok (r.1, .obj r.2)
  | 4, hp, [.obj a _, .obj b _] => .ok (write hp a (hp.mem b), .obj a)
  | 21, hp, [.obj a _, .obj b _] =>
    let r := put hp (hp.mem a) (hp.mem (a + 1) + hp.mem (b + 1)) (hp.mem (a + 2)) (hp.mem (a + 3) + hp.mem (b + 3))
    .ok (r.1, .obj r.2)
  | 22, hp, [.obj a _, .obj b _] => int hp (hp.mem a + hp.mem b)
  | 23, hp, [.obj a _, .obj b _] => int hp (hp.mem a + hp.mem b)
  | 24, hp, [.obj a _] => let r := put hp 0 (hp.mem a) (hp.mem a) (hp.mem a); .ok (r.1, .obj r.2)
  | 26, hp, [.obj a _, .obj b _] => .ok (write hp (a + 3) (hp.mem b), .void)
  | 27, hp, [.obj a _] => int hp (hp.mem (a + 3))
  | 28, hp, [.obj a _] => .ok (hp, .obj (a + 3))
  | 30, hp, [.obj a _, .obj b _] => int hp (hp.mem a * hp.mem b)
  | 31, hp, [.obj a _, .obj b _, .obj c _] => int hp (hp.mem a * hp.mem b + hp.mem c)
  | 32, hp, [.obj o _, .obj a _, .obj b _] => .ok (write hp (o + 3) (hp.mem a + hp.mem b), .void)
  | 33, hp, [.obj a _] => int hp (hp.mem a)
  | 34, hp, [.obj a _] => int hp (hp.mem a)
  -- foo::fooFn, foo::bar::barFn, foo::baz::bazFn, foo::baz::i
  | 40, hp, [.obj a _] => int hp (hp.mem a + 1)
  | 41, hp, [.obj a _] => int hp (hp.mem a * 2)
  | 42, hp, [] => int hp (hp.mem gi)
  | 43, hp, [.obj a _] => .ok (write hp gi (hp.mem a), .void)
  -- test::inc
  | 44, hp, [.obj a _] => let hp := write hp counter (hp.mem counter + hp.mem a); int hp (hp.mem counter)
  -- value_function_test: `foo`, the lambda, the functor and `Foo::bar`, the last lambda
  | 50, hp, [.obj a _, .obj b _] => .ok (write hp a (hp.mem a + hp.mem b), .void)
  | 51, hp, [.obj x _, .obj z _] =>
    let hp := write hp captured (hp.mem x * hp.mem x + hp.mem z); int hp (hp.mem captured)
  | 52, hp, [.obj i _] => .ok (write hp captured (hp.mem captured + hp.mem i), .obj captured)
  | 53, hp, [.obj o _, .obj i _] => .ok (write hp o (hp.mem o + hp.mem i), .obj o)
  | 54, hp, [.obj i _, .obj j _] => .ok (write hp i (hp.mem i + hp.mem j), .obj i)
  | _, _, _ => .error .ub

def prog : Prog := { w := world, size := fun t => if t = intT then 1 else 4, caps := fun _ => regular, moved := fun _ _ => 0, junk := .copy, impl := impl }
/-- the temporaries 10, 1, 2, 100, 20 of the tests' source -/
def hp0 : Heap := { mem := fun a => if a = 16 then 10 else if a = 21 then 1 else if a = 26 then 2 else if a = 31 then 100
    else if a = 36 then 20 else 0, next := 60 }
def ten : Actual := .native intT.rref 16
def one : Actual := .native intT.rref 21
def two : Actual := .native intT.rref 26
def hundred : Actual := .native intT.rref 31
def twenty : Actual := .native intT.rref 36

/-! ### scope_test.cpp, basics -/

/-- what the loader of `reflectScope` and `reflectType` do to the global scope -/
def sc0 : Scope.Tree Fn := (Scope.addType Scope.Tree.root (name nsFoo)).1
def sc1 : Scope.Tree Fn := (Scope.addType sc0 (name nsBar)).1
def sc2 : Scope.Tree Fn := (globalFn world.env sc1 "foo::fooFn".toList intT.val [intT.val] 40).1
def sc3 : Scope.Tree Fn := (globalFn world.env sc2 "foo::bar::barFn".toList intT.val [intT.val] 40).1
def sc4 : Scope.Tree Fn := (globalVar world.env sc3 "foo::baz::i".toList intT 42 43).1
def sc5 : Scope.Tree Fn := (globalFn world.env sc4 "foo::baz::bazFn".toList intT.val [intT.val] 41).1

/-- `scope("foo")` -/
def nFoo : Scope.Tree Fn := (sc5.at ["foo".toList]).getD Scope.Tree.root

def hasFn (t : Ty) (n : String) : Bool := match world.hasFunctionF world.fuel t n.toList with
  | .ok b => b
  | _ => false
example : (match Scope.hasType nFoo "Foo".toList with | .ok x => x | _ => false) = true ∧
    (match Scope.hasType nFoo "bar::Bar".toList with | .ok x => x | _ => false) = true ∧
    hasFn nsFoo "foo::Foo" = true ∧ hasFn nsBar "foo::bar::Bar" = true := by decide +kernel
example : gives 11 (prog.callGlobal 4 hp0 nFoo "fooFn".toList intT.val [ten]) = true ∧
    gives 11 (prog.callGlobal 4 hp0 nFoo "bar::barFn".toList intT.val [ten]) = true ∧
    (match prog.callGlobal 4 hp0 nFoo "baz::i".toList voidT.val [ten] with
      | .ok (hp, _) => hp.mem gi = 10 && gives 10 (prog.callGlobal 4 hp nFoo "baz::i".toList intT.val [])
      | _ => false) = true := by decide +kernel

/-! ### reflection_test.cpp -/

def hasFd (t : Ty) (n : String) : Bool := match world.hasFieldF world.fuel t n.toList with
  | .ok b => b
  | _ => false
example : world.env.child fooT barT = true ∧ world.env.child barT fooT = false ∧ (built fooT).parent = some barT ∧
    hasFd barT "bar" = true ∧ hasFd barT "field" = false ∧ hasFd fooT "bar" = true ∧ hasFd fooT "baz" = false ∧
    hasFd fooT "void_" = false ∧ hasFd fooT "field" = true ∧ hasFn fooT "fn" = true ∧ hasFn fooT "custom" = true := by
  decide +kernel

/-- `Value x = t->construct(args...)` -/
def make (hp : Heap) (t : Ty) (as : List Actual) : Res (Heap × Handle) := match prog.constructWith 4 hp t as with
  | .ok (hp, some (.val v)) => .ok (hp, v)
  | .ok _ => .error .ub
  | .error x => .error x
/-- `x.field<int>(n)` -/
def intField (hp : Heap) (v : Handle) (n : String) : Option Nat := match v.field prog n.toList with
  | .ok f => match prog.castTo (prog.run 4) hp f intT.val with
    | .ok (hp', .obj a _) => some (hp'.mem a)
    | _ => none
  | _ => none
/-- `x.field(n).assign(1)` -/
def setField (hp : Heap) (v : Handle) (n : String) : Res Heap := match v.field prog n.toList with
  | .ok f => prog.assign 4 (write hp 21 1) f one
  | .error x => .error x

example : gives 2 (prog.typeCall 4 hp0 fooT "staticFn".toList intT.val [one, two]) = true := by decide +kernel
example : (match make hp0 fooT [] with
  | .ok (hp, v) => match v.get prog fooT, v.get prog barT with
    | .ok (foo, _), .ok (bar, _) => match setField hp v "bar" with
      | .ok hp => foo = bar && hp.mem foo = 1 && intField hp v "bar" = some 1 &&
        match setField hp v "value" with
        | .ok hp => hp.mem (foo + 3) = 1 && intField hp v "value" = some 1 &&
          match prog.callMethod 4 hp v "copyRet".toList prog.valueArg [] with
          | .ok (hp, some (.val a)) => match prog.callMethod 4 hp v "custom".toList voidT.val [.dyn a, two] with
            | .ok (hp, _) => hp.mem (foo + 3) = 3
            | _ => false
          | _ => false
        | _ => false
      | _ => false
    | _, _ => false
  | _ => false) = true := by decide +kernel

/-- `a op b` on `Value`s -/
def plus (hp : Heap) (a b : Handle) : Res (Heap × Handle) := match prog.valueOp 4 hp a "operator+".toList [.dyn b] with
  | .ok (hp, some (.val v)) => .ok (hp, v)
  | .ok _ => .error .ub
  | .error x => .error x
example : (match make hp0 fooT [hundred] with
  | .ok (hp, a) => match make hp fooT [twenty] with
    | .ok (hp, b) => match plus hp a b with
      | .ok (hp, r) => decide (intField hp r "field" = some 120)
      | _ => false
    | _ => false
  | _ => false) = true := by decide +kernel

/-! ### demo_test.cpp -/

def demo : Scope.Tree Fn :=
  (globalFn world.env (globalVar world.env Scope.Tree.root "test::counter".toList intT 42 43).1 "test::inc".toList intT.val
    [intT.val] 44).1
example : (match demo.at ["test".toList] with
  | none => false
  | some t => match prog.callGlobal 4 hp0 t "inc".toList voidT.val [ten] with
    | .ok (hp, _) => decide (hp.mem counter = 10)
    | _ => false) = true := by decide +kernel
example : world.env.child thingT zorT = true ∧ hasFd thingT "value" = true ∧ hasFn thingT "weee" = true ∧
    (match make hp0 thingT [ten] with | .ok (hp, v) => decide (intField hp v "value" = some 10) | _ => false) = true := by
  decide +kernel
/-- `Value(1) + tZorish->construct(10) + tThingy->construct(100)` is an `int`, 111 -/
example : (match make hp0 zorT [ten] with
  | .ok (hp, z) => match make hp thingT [hundred] with
    | .ok (hp, t) => match prog.wrap hp intT.rref 21 with
      | .ok (hp, i) => match plus hp i z with
        | .ok (hp, s) => match plus hp s t with
          | .ok (hp, r) => match r.get prog intT with
            | .ok (a, _) => decide (r.arg.type = intT ∧ hp.mem a = 111)
            | _ => false
          | _ => false
        | _ => false
      | _ => false
    | _ => false
  | _ => false) = true := by decide +kernel

/-! ### value_function_test.cpp (`unsigned` is the type 2 here) -/

/-- `Value(10u)` -/
def vTen (hp : Heap) : Heap × Handle := match prog.wrap (write hp 16 10) intT.rref 16 with
  | .ok r => r
  | .error _ => (hp, prog.voidHandle)
/-- a variable at 41 -/
def vVar : Handle := ⟨intT.lref, 41, none⟩
def valueOf (hp : Heap) (v : Handle) : Option Nat := match prog.castTo (prog.run 4) hp v intT.val with
  | .ok (hp, .obj a _) => some (hp.mem a)
  | _ => none

/-- fn -/
example : (let f := Fn.make "foo".toList voidT.val [intT.lref, intT.val] 50
  match prog.run 4 (vTen hp0).1 f [vVar, (vTen hp0).2] with
  | .ok (hp, r) => r.arg.type = voidT && hp.mem 41 = 10 &&
    match prog.run 4 (vTen hp).1 f [vVar, (vTen hp).2] with
    | .ok (hp, _) => decide (hp.mem 41 = 20)
    | _ => false
  | _ => false) = true := by decide +kernel
/-- lambda -/
example : (let f := Fn.make "foo".toList intT.val [intT.val, intT.rref] 51
  let a := vTen hp0
  let b := vTen a.1
  match prog.run 4 b.1 f [a.2, b.2] with
  | .ok (hp, r) => decide (hp.mem captured = 110 ∧ valueOf hp r = some 110)
  | _ => false) = true := by decide +kernel
/-- functor -/
example : (let f := Fn.make "foo".toList intT.lref [intT.val] 52
  match prog.run 4 (vTen hp0).1 f [(vTen hp0).2] with
  | .ok (hp, r) => r.arg.ref = .lvalue && prog.isCastable r intT.val && valueOf hp r = some 10 &&
    match prog.run 4 (vTen hp).1 f [(vTen hp).2] with
    | .ok (hp, r) => decide (valueOf hp r = some 20)
    | _ => false
  | _ => false) = true := by decide +kernel
/-- memberFn -/
example : (let f := Fn.make "foo".toList intT.lref [vfoo.lref, intT.val] 53
  match prog.run 4 (vTen hp0).1 f [⟨vfoo.lref, 41, none⟩, (vTen hp0).2] with
  | .ok (hp, r) => r.arg.ref = .lvalue && prog.isCastable r intT.val && valueOf hp r = some 10 && hp.mem 41 = 10
  | _ => false) = true := by decide +kernel
/-- constness -/
example : (let f := Fn.make "foo".toList intT.cref [intT.lref, intT.cref] 54
  match prog.run 4 (vTen hp0).1 f [vVar, (vTen hp0).2] with
  | .ok (hp, r) => r.arg.isConst && r.arg.ref = .lvalue && hp.mem 41 = 10 &&
    castsAt 41 (prog.castTo (prog.run 4) hp r intT.cref)
  | _ => false) = true := by decide +kernel

end Reflect.Conform.Misc

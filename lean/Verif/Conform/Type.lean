import Verif.Conform.Types
/-
  tests/type_test.cpp: what types answer about themselves (`bool` is type `unitT`).
-/
namespace Reflect.Conform
open Reflect World

def hasFn (t : Ty) (n : String) : Bool := world.hasFunctionF world.fuel t n.toList = .ok true
def hasFd (t : Ty) (n : String) : Bool := world.hasFieldF world.fuel t n.toList = .ok true
def fdType (t : Ty) (n : String) : Option Ty := match world.fieldF world.fuel t n.toList with
  | .ok f => some f.arg.type | _ => none

/-- type_test.cpp, void_ -/
example :
    (world.ty voidT).parent = none ∧
    world.env.child voidT voidT = true ∧
    world.env.child voidT voidT = true ∧
    (world.ty voidT).fields = [] ∧
    world.isCopiable voidT = false ∧
    world.isMovable voidT = false := by decide +kernel

/-- type_test.cpp, function_ -/
example :
    hasFn intT "int" = true ∧
    hasFn intT "operator=" = true ∧
    hasFn intT "bob" = false ∧
    hasFn objectT "test::Object" = true ∧
    hasFn objectT "Object" = false ∧
    hasFn objectT "value" = false ∧
    hasFn objectT "operator=" = true ∧
    hasFn objectT "operator+=" = true ∧
    hasFn objectT "operator++" = true ∧
    hasFn objectT "bob" = false ∧
    hasFn parentT "test::Parent" = true ∧
    hasFn parentT "test::Child" = false ∧
    hasFn parentT "value" = false ∧
    hasFn parentT "childValue" = false ∧
    hasFn parentT "shadowed" = false ∧
    hasFn parentT "normalVirtual" = true ∧
    hasFn parentT "pureVirtual" = true ∧
    hasFn childT "test::Child" = true ∧
    hasFn childT "test::Parent" = true ∧
    hasFn childT "value" = false ∧
    hasFn childT "childValue" = false ∧
    hasFn childT "shadowed" = false ∧
    hasFn childT "normalVirtual" = true ∧
    hasFn childT "pureVirtual" = true ∧
    hasFn convT "operator int()" = true ∧
    hasFn convT "operator test::Parent()" = true := by decide +kernel

/-- type_test.cpp, field -/
example :
    hasFd intT "int" = false ∧
    hasFd intT "operator=" = false ∧
    hasFd intT "bob" = false ∧
    hasFd objectT "test::Object" = false ∧
    hasFd objectT "Object" = false ∧
    hasFd objectT "value" = true ∧
    hasFd objectT "operator=" = false ∧
    hasFd objectT "operator+=" = false ∧
    hasFd objectT "operator++" = false ∧
    hasFd objectT "bob" = false ∧
    hasFd parentT "test::Parent" = false ∧
    hasFd parentT "test::Child" = false ∧
    hasFd parentT "value" = true ∧
    hasFd parentT "childValue" = false ∧
    hasFd parentT "shadowed" = true ∧
    hasFd parentT "normalVirtual" = false ∧
    hasFd parentT "pureVirtual" = false ∧
    hasFd childT "test::Child" = false ∧
    hasFd childT "test::Parent" = false ∧
    hasFd childT "value" = true ∧
    hasFd childT "childValue" = true ∧
    hasFd childT "shadowed" = true ∧
    hasFd childT "normalVirtual" = false ∧
    hasFd childT "pureVirtual" = false ∧
    hasFd convT "operator int()" = false ∧
    hasFd convT "operator test::Parent()" = false := by decide +kernel

/-- type_test.cpp, fieldType -/
example :
    fdType objectT "value" = some intT ∧
    fdType parentT "value" = some objectT ∧
    fdType parentT "shadowed" = some intT ∧
    fdType childT "value" = some objectT ∧
    fdType childT "childValue" = some objectT ∧
    fdType childT "shadowed" = some unitT := by decide +kernel

/-- type_test.cpp, moveCopy -/
example :
    world.isCopiable intT = true ∧
    world.isMovable intT = true ∧
    world.isCopiable objectT = true ∧
    world.isMovable objectT = true ∧
    world.isCopiable noCopyT = false ∧
    world.isMovable noCopyT = true ∧
    world.isCopiable noMoveT = false ∧
    world.isMovable noMoveT = false ∧
    world.isCopiable noConsT = false ∧
    world.isMovable noConsT = false := by decide +kernel

/-- type_test.cpp, parentChild -/
example :
    world.env.child intT intT = true ∧
    world.env.child uintT intT = false ∧
    world.env.child objectT intT = false ∧
    world.env.child interfaceT interfaceT = true ∧
    world.env.child parentT interfaceT = true ∧
    world.env.child childT interfaceT = true ∧
    world.env.child objectT interfaceT = false ∧
    world.env.child interfaceT interfaceT = true ∧
    world.env.child interfaceT parentT = false ∧
    world.env.child interfaceT childT = false ∧
    world.env.child interfaceT objectT = false ∧
    world.env.child interfaceT parentT = false ∧
    world.env.child parentT parentT = true ∧
    world.env.child childT parentT = true ∧
    world.env.child objectT parentT = false ∧
    world.env.child parentT interfaceT = true ∧
    world.env.child parentT parentT = true ∧
    world.env.child parentT childT = false ∧
    world.env.child parentT objectT = false ∧
    world.env.child interfaceT childT = false ∧
    world.env.child parentT childT = false ∧
    world.env.child childT childT = true ∧
    world.env.child objectT childT = false ∧
    world.env.child childT interfaceT = true ∧
    world.env.child childT parentT = true ∧
    world.env.child childT childT = true ∧
    world.env.child childT objectT = false := by decide +kernel

/-- type_test.cpp, converter -/
example :
    world.env.conv parentT intT = false ∧
    world.env.conv parentT parentT = false ∧
    world.env.conv parentT convT = false ∧
    world.env.conv convT intT = true ∧
    world.env.conv convT parentT = true ∧
    world.env.conv convT convT = false := by decide +kernel

end Reflect.Conform

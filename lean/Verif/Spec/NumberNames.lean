import Verif.Model.Basic
/-
  Specification for C93: the standard names of the arithmetic types of C++, and what they stand for.
-/
namespace Reflect.Spec

/-- the integer types whose full name ends in `int`, without it -/
def shortNames : List Name :=
  (["", "unsigned "].flatMap fun u => ["short", "long", "long long"].map fun t => (u ++ t).toList)

/-- the typedefs of `<cstdint>` and `<cstddef>`: `int8_t`, `uint_fast16_t`, … -/
def typedefs : List Name :=
  (["", "u"].flatMap fun u => ["", "_fast", "_least"].flatMap fun k => ["8", "16", "32", "64"].map fun w =>
    (u ++ "int" ++ k ++ w ++ "_t").toList) ++
  (["", "u"].flatMap fun u => ["max", "ptr"].map fun k => (u ++ "int" ++ k ++ "_t").toList) ++
  ["size_t".toList, "ssize_t".toList]

def standardNames : List Name := shortNames ++ typedefs

/-- the names the library makes known besides the types' own -/
def StandardName (n : Name) : Prop := n ∈ standardNames

/-- the integer types, by the names under which they are reflected -/
def arithmetic : List Name :=
  ["char", "signed char", "unsigned char", "short int", "unsigned short int", "int", "unsigned int", "long int",
   "unsigned long int", "long long int", "unsigned long long int"].map String.toList

/-- What a standard name stands for: `short` for `short int`, …; a typedef for what the compiler says. -/
def Denotes (plat : Name → Name) (n id : Name) : Prop :=
  (n ∈ shortNames ∧ id = n ++ " int".toList) ∨ (n ∈ typedefs ∧ id = plat n)

/-- the compiler's typedefs are integer types -/
def Sane (plat : Name → Name) : Prop := ∀ n ∈ typedefs, plat n ∈ arithmetic

/-- the names of the fundamental types of C++, spelt in full -/
def fundamental : List Name :=
  (["void", "bool"] ++ ["char", "signed char", "unsigned char"] ++ ["float", "double", "long double"]).map String.toList ++
  (["", "unsigned "].flatMap fun u => ["short ", "", "long ", "long long "].map fun t => (u ++ t ++ "int").toList)

/-- `n` is a name of the fundamental type `id`: its own, or a standard one. -/
def NumberName (plat : Name → Name) (n id : Name) : Prop := (n ∈ fundamental ∧ id = n) ∨ Denotes plat n id

end Reflect.Spec

import Verif.Model.Registry
/-
  The names the library gives to the arithmetic types: src/types/primitives.h:18-40 (the names under which
  they are reflected) and src/types/primitives.cpp:19-65 (further names, registered by the constructor of a
  static object).
-/
namespace Reflect.Registry

/-- The names of the reflected arithmetic types and of `void`: `reflectTypeDecl(T)` makes `id()` the text
    of `T` (primitives.h:18-40, dsl/type.h:29-40). -/
def numberIds : List Name :=
  ["void", "bool", "char", "signed char", "unsigned char", "short int", "unsigned short int", "int",
   "unsigned int", "long int", "unsigned long int", "long long int", "unsigned long long int", "float",
   "double", "long double"].map String.toList

/-- `reflectAlias(T)` for the types that have a keyword name of their own besides the one they are reflected
    under (primitives.cpp:23-30): id and alias. -/
def keywordAliases : List (Name × Name) :=
  [("short int", "short"), ("unsigned short int", "unsigned short"), ("long int", "long"),
   ("unsigned long int", "unsigned long"), ("long long int", "long long"),
   ("unsigned long long int", "unsigned long long")].map fun x => (x.1.toList, x.2.toList)

/-- The typedef names for which `reflectAlias` is used (primitives.cpp:32-63). -/
def typedefNames : List Name :=
  ["size_t", "ssize_t", "intmax_t", "uintmax_t", "intptr_t", "uintptr_t",
   "int8_t", "uint8_t", "int16_t", "uint16_t", "int32_t", "uint32_t", "int64_t", "uint64_t",
   "int_fast8_t", "uint_fast8_t", "int_fast16_t", "uint_fast16_t",
   "int_fast32_t", "uint_fast32_t", "int_fast64_t", "uint_fast64_t",
   "int_least8_t", "uint_least8_t", "int_least16_t", "uint_least16_t",
   "int_least32_t", "uint_least32_t", "int_least64_t", "uint_least64_t"].map String.toList

/-- All of them, in the order of the source. `plat` is the compiler's: the name under which the type behind a
    typedef is reflected (`Reflect<CleanT>::id()`, registry.h:53-58). -/
def aliasTable (plat : Name → Name) : List (Name × Name) :=
  keywordAliases ++ typedefNames.map fun n => (plat n, n)

/-- The static `Loader<T>` objects of the reflected arithmetic types and of `void`: one `Registry::add<T>()` each (`reflectTypeImpl`
    and `reflectNumber` in primitive_{void,bool,char,short,int,long,long_long,float}.cpp:15-17, primitives.tcc, dsl/type.h:46-62),
    here in the order of the headers; between files the order is unspecified. -/
def primitiveLoaders (load : Name → LoaderId) : List Act := numberIds.map fun n => .add n (load n)

/-- The constructor `PrimitiveAliases()`, primitives.cpp:21-64. -/
def primitiveAliases (plat : Name → Name) : List Act := (aliasTable plat).map fun x => .alias x.1 x.2

end Reflect.Registry

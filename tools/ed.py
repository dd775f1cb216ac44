s=open('props.py').read()
s=s.replace("# --- more",'''p("The descriptions of pointers, vectors, maps, smart pointers, numbers and strings are complete and usable",
 "Each description that comes with the library is accepted, whatever types it is instantiated with, and leaves a root type with exactly the functions, overloads, traits (with their values) and pointee of its table: default, copy and move construction and assignment as far as the C++ type has them, plus size, push_back, operator[], at, keys, get, reset, release and so on with their C++ signatures; numbers carry exactly one of bool, integer and float, and integers one of signed and unsigned. push_back through reflection moves a non-const temporary in, copies any other value of the element type or one derived from it, converts and moves in a convertible one, and refuses anything else and every const or temporary vector. Dereferencing a pointer gives a mutable reference only from a mutable pointer variable to mutable objects. Pointers and smart pointers convert to bool, taken by value only; the other types do not. A smart pointer is never taken for a raw one. (A hazard of the code: const X* and X* share one type object, so whichever is described first decides whether its objects can be changed.)",
 "every element, key and pointee type, every inheritance and conversion relation, every argument and wanted result",
 "the library is instantiated with unboundedly many types; the tables and the overload choice must hold for all of them and for all relations between types",
 ["src/types/pointer.h: Reflect<T*>", "src/types/std/vector.h: Reflect<std::vector<ValueT>>", "src/types/std/map.h: reflectMap", "src/types/std/smart_ptr.h: reflectSmartPtr", "src/types/primitives.tcc: reflectNumberImpl", "src/types/std/string.cpp", "src/dsl/plumbing.h: reflectPlumbing"])

# --- more''')
open('props.py','w').write(s)
s=open('notes.py').read()
i=s.rindex("}")
s=s[:i]+"""'C76':('proved','C76_vector, C76_map, C76_pointer, C76_shared, C76_unique, C76_number, C76_string: the tables (Spec/StdTypes.lean); C76_push_back, C76_deref, C76_deref_mutable, C76_bool_conversion, C76_converts: their use. What the bodies do is C++ and not modelled. void* and vector<bool> do not compile.'),
}
"""
open('notes.py','w').write(s)
s=open('/verif/DESIGN.md').read()
s=s.replace("| C36–C38 |","| C76 | the descriptions as lists of calls on a type (Model/StdTypes) run by the model of `addFunction`, `addTrait`, `setPointer` (C19, C30, C72) | one lemma for any description without fields (`runAll_desc`), then the tables of Spec/StdTypes by non-clashing of overloads for every environment; overload choice by the exact form of `isConvertibleTo` (C22, C27) |\n| C36–C38 |",1)
open('/verif/DESIGN.md','w').write(s)
s=open('/verif/lean/Verif.lean').read()
open('/verif/lean/Verif.lean','w').write(s.rstrip()+"\nimport Verif.Props.StdTypes\nimport Verif.Props.StdUse\n")

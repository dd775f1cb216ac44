# Formal model of RAttab/reflect in Lean 4

## Layout

* `lean/Verif/Model/*`  – the model, one definition per C++ function, each citing the lines it models and
  saying where it simplifies.
* `lean/Verif/Spec/*`   – small independent specifications used in the statements (grammar of JSON, what
  "fits" a type, subtype relation, finite maps, …). They import no lemma and use no helper of the model.
* `lean/Verif/Lemmas/*` – helper lemmas.
* `lean/Verif/Props/*`  – the property theorems, named `Cnn_…`, each followed by an `example` in which a
  concrete non-trivial case meets its hypotheses.
* `properties.jsonl`, `MANIFEST.json` – the properties and the theorems that prove each (generated by
  `tools/props.py`, `tools/manifest.py`); `AXIOMS.md` – axioms per theorem (`tools/axioms.py`).
* `seeded/LOG.jsonl` – wrong programs tried on a scratch copy of the model and what became of the theorems.

Conventions. `Res α` is the outcome of a C++ call: a value, `err` (a `reflectError`/exception), `ub`
(undefined behaviour) or `diverge` (the model's recursion bound ran out; theorems about termination say that
it does not). A property that is FALSE of the code is stated in `properties.jsonl` together with the exact
way it fails; it counts as proved when there are (a) a theorem that exhibits the failure, general where
possible, and (b) a theorem that says exactly when the property holds.

## Plan per property

| property | modelled | proved how |
|---|---|---|
| C01 | `Scope::head/tail/join`, character by character | equivalences with "balanced brackets, no bare colon", induction on the string |
| C02 | same | peeling from both ends gives the component list; induction on component lists |
| C03 C04 C07 | scope tree, every method returns tree and outcome, also on error | refinement to sets of component paths by induction on paths; frame theorems |
| C05 | same | false; `second_accepted_iff` is exact, `order_matters_when_enclosing`, `order_irrelevant` cover all pairs |
| C06 | same | false; `lookup_creates` says exactly which scopes appear, `lookup`/`hasFunction` what is answered |
| C08 C09 C11 C12 | registry tables, loaders as scripts of registry operations, histories = lists of operations | invariants over histories |
| C10 | same, recursion with fuel | number of unused loaders decreases: fuel never runs out |
| C13 | same, a loader can raise | false; a started type is served for every program, and its members are exactly an initial part of its loader's |
| C14 | each table access of a lookup is one atomic step, arbitrary interleavings of any number of threads | false (three witnessing schedules); holds for serial schedules; invariants and a decreasing cost over all schedules for what holds always |
| C15–C18, C20 | arbitrary finite type table (`parent_`, `pointee_`, members) | against inductive relations (subtype, nearest declaration); induction on the acyclicity rank |
| C19, C70 | histories of declarations, accepted or rejected | invariant; exact effect of each declaration |
| C21–C25 | `isConvertibleTo`, `testReturn`, `testArguments` over an arbitrary type graph and converter relation | against a declarative table; case analysis |
| C26 | C++ types of any pointer depth and their descriptions | false; exactly what a description loses |
| C27–C31 | overload sets as lists of signatures | against filters and permutations; C30 (order) and C31 false, exact conditions given |
| C72 | a type with the traits of the type, of its fields and of its functions, under histories of calls | invariant relating the recorded value to the first accepted call; lookup by induction along the parents |
| C32–C35, C60, C67–C69, C71 | heap of cells, value handles, casts, converters, constructors, whole calls; bodies are arbitrary functions of the heap | by evaluation of the cast/call functions over an arbitrary program; frame theorems; false parts have general theorems; calls whose parameters move from their arguments by induction on the parameter list (Props/MovingCalls) |
| C73 | classes as tables from names to member functions; the registrations of `reflectOperators()` in order | acceptance of a list of declarations by induction; the table it leaves against `Spec/Operators`; false for a single `operator*` |
| C74 | the operators of `Value` over arbitrary programs | evaluation of the call for reference parameters, any number of them; for the other parameters from C68_call_temporaries and C68_accepted_runs; lookups by C17 |
| C75 | C++ types as terms; `CleanType`, `typeId` by recursion on their size | the name equals a structural text; the text with its stars and closing letters determines the type (unique readability, by induction); joined with C08/C09 for histories and C04 for scopes |
| C76 | the descriptions as lists of calls on a type (Model/StdTypes) run by the model of `addFunction`, `addTrait`, `setPointer` (C19, C30, C72) | one lemma for any description without fields (`runAll_desc`), then the tables of Spec/StdTypes by non-clashing of overloads for every environment; overload choice by the exact form of `isConvertibleTo` (C22, C27) |
| C77 | Model/Globals: `reflectGlobalVar`/`reflectGlobalFn` on the scope tree (C07) with the overload sets of C26-C28; the bodies of the two lambdas on the memory of C32 | the two registrations by C07; which function is called by arity and `isConvertibleTo`; contents through C67/C68 and the assignment lemma of C71 |
| C78 | Model/Print: every `print` as a function to text; types by fuel, endless ancestry is divergence | text as lines (indentation, content); unique readability of lines, then of nested blocks by induction on the ancestry and by mutual induction on scopes |
| C79 | `reflectAllocPlumbing`, `reflectAlloc`, `Type::alloc`, `Type::call` and `*p` (Model/Alloc): a pointer is a one-cell object; freshness, contents and frame by computation on the heap, overload choice by C27/C76. |
| C80 | `FunctionType`, `Function::Function`, `reflectFn`, `reflectCons` and `Type::construct` (Model/Callable): parameters as written (`Written`, C26); choice of const and mutable members from C22/C23/C27, constructing from C67. |
| C81 | The typed parsers and printers once more on a memory of objects with addresses (Model/Json/Graph; pointers as addresses, places as address and path of fields, raw and smart pointers): printing reduced to C44–C66 by following pointers (`reads`), parsing by a simulation where nothing is shared and by a closed-set invariant where something is. |
| C82 | Over the grammar derivation of C46: a property of texts that ASCII characters have and concatenation keeps (`Charset`) holds of every derivation whose strings have it; ASCII and UTF-8 are two such properties, and `FText` gives them for strings. |
| C83 | `Writable` (Spec/JsonFault) says by bytes and options what can be written; equivalent to the existence of an `FText`; print_text gives one direction, doc_text and independence of the recursion bound the other. The loops: induction, for arbitrary call-backs. |
| C84 | A machine with one step per write of `getParser`/`getPrinter` and arbitrary interleavings; a call in use may read any state of a parser object since it got its parser (Model/Json/Share). Invariant: one thread makes, its remaining writes are the tail of the serial run's, entries in use are closed under reference and never written again; hence `parseS` = `parseV` and the outcomes are those of the serial run. Termination by a lexicographic measure. |
| C85 | `std::vector` as three cells (place, length, room) and elements side by side; the seven functions of vector.h as bodies (Model/Vector) behind the description of C76. Spec: the list of the elements' contents. Each call refines the list operation, with a frame; history by induction, the frame keeping the arguments. |
| C86 | `std::map`/`std::unordered_map` as a list of nodes (key cells, then value cells), in any order; the five functions of map.h as bodies (Model/MapFns) behind the description of C76. Spec: the finite map `lookup`, read off the memory. Each call refines the operation on finite maps, with a frame; history by induction. |
| C87 | `std::unique_ptr` as one cell, `std::shared_ptr` as two with a shared count; `delete` as a count in front of the object; the functions of smart_ptr.h and the plumbed copies and moves as bodies (Model/SmartPtr) behind the descriptions of C76. Spec: what each pointer holds, and who lets go of what (Spec/SmartPtr). Invariant: every count is the number of pointers that use it. Each call refines the specification, with a frame; history by induction; exactly-once by induction on the specification. |
| C88 | The parsers of parser.cpp once more, on addresses (Model/Json/Place): every read and write of the value goes through the model of `Value::construct`, `assign`, `field` and `call` (C67–C72, C85, C86), no value is a tree. `Rep` (Spec/JsonPlace) says which tree an object in memory stands for and which cells are part of it, none twice. Simulation by induction on the parser's fuel: the parser on memory ends as the one on trees (C44–C66) does, with the same reader and the same faults, and the memory then stands for the tree it made; what was not part of the object is unchanged. Numbers, strings, vectors, maps (of pointers too), smart pointers and classes of them, recursive ones too; a pointer is the only owner of what it points to (several owners: C81, on trees with sharing, and C87). |
| C89 | The printers of printer.cpp once more, on addresses (Model/Json/PlacePrint): all they learn of the object comes through the model of `cast`, `Value::call`, `operator*` and `field`. `Shows` (Spec/JsonPlacePrint) says which tree an object in memory shows; parts may be shared. Simulation by induction on the printer's fuel (and on the tree for `isEmpty`): same text, same faults as the printer on trees, and no old cell changes. `Rep` implies `Shows` of the tree with its map entries in the maps' own order (`Shuffled`), so with C88 what is printed of one object can be parsed into another in the same memory. Not modelled on memory: `CustomPrinter` (a parameter). The number E bounds the pointers `isEmpty` follows; the theorems ask only that it is large enough. |
| C90 | The map model of C86 with a `std::less`: a new node goes behind those with lesser keys (`Heap.place`). `IsMap` asks of a `std::map` that its keys ascend; insertion keeps it (induction on the nodes), writes to values and other memory too, so C86 and C88 carry it through every history and every parse. Ascending lists with the same lookup are equal. For JSON: `Rep` of an object whose maps are all `std::map`s implies `Shows` of exactly its value (induction on `Rep`), and C89 gives the text. |
| C91 | `operator+` of reflected numbers (primitives.tcc) as the C++ it is: integral promotion, undefined where a signed sum does not fit, modulo 2^w where unsigned (Model/Numbers); Spec/Numbers says which bits hold which number. One call, through overload selection, argument and return conversion (C67), then any number of them, each to the sum so far, by induction on the list. Floating point addition is a parameter. |
| C92 | the traits "min" and "max" of reflected numbers (primitives.tcc, `reflectLimit`) on top of the traits of C72 and the numbers of C91: what `getValue<T>` reads at any later time, compared with the numbers the type has. Floating point types by their bits (Spec/Floats). |
| C93 | the constructor `PrimitiveAliases()` (primitives.cpp) as a list of actions of the registry model of C08–C13; the typedefs of the compiler are a parameter. Induction on the list; the rest follows from the registry's invariants. |
| C94 | `json::parse(text, object)` and `json::print(writer, object)` (parser.tcc, printer.tcc) and adaptive sequences of them over `k` objects in one memory (Model/Json/Session), against the same sequence on `k` values (Spec/JsonSession). Induction on the calls with C88 and C90; the footprints of the objects stay apart. |
| C95 | the messages as they are formatted (Model/Json/Reader: `Msg.text`, `Token::print`, the `%s`, `%c` and `%x` of the error sites, the prefix of `Reader::error`), and `verrorFormat` of C59. Spec/JsonMessage: which message belongs to which malformed text, by cases on the text; both directions by induction on the text. For parsing: an invariant of the reader (its error, if any, is short or about a token) that every call keeps, lifted to parsers by induction on the fuel. |
| C96 | Spec/Doubles: numerals and doubles (bit patterns) as exact rationals, the nearest double, rounding to twelve digits, the text of `%1.12g` (C17 7.21.6.1) and the assumption `Correct` on the functions `stod` and `fmtG` of the environment. By rounding error: the nearest double is within 2^-53, so twelve digits are regained (DBL_DIG is 15); uniqueness of twelve-digit decimals; the written digits evaluated by induction. Round trips by C45. |
| C97 | `getParser` and `getPrinter` choose by traits (`TyD.parserKind`, `printerKind`); Spec/JsonView says which `TyD` a described type is seen as. The descriptions of types/ by C76, classes by C72 over every history of calls; the members by C17, C18 and C72_inherited. |
| C36–C38 | value storage and function handles as state machines over arbitrary operation histories | invariants (use count = number of sharers; each target freed at most once); `live_iff`, `leaked_iff_overwritten`, `null_call_iff` are exact |
| C39 C41 C42 C44 C47 C49 | libstdc++ stream flags, reader, tokenizer, skip, byte by byte, all option combinations | induction on the input; token grammar in `Spec/JsonLex` |
| C40 C43 | string escaping/unescaping, integer formatting/reading | induction on code points / digits; exact failure sets |
| C45 C46 C53 C54 C55 | typed printer over an arbitrary (recursive) type environment, all writer options | mutual induction on values; grammar in `Spec/JsonGrammar`; the layout is erased by a token-level specification |
| C48 C50 C51 C62 C66 | typed parser with its cache | equivalence between running the parser and a declarative relation "text `t` loads value `v` into `v₀`" (`Spec/JsonRead`, `JsonBack`, `JsonCut`) |
| C52 | field traits incl. the uninitialised flag | algebra; witness |
| C63 | typed parser | a fuel bound computed from input and type that is never exhausted |
| C64 | typed parser, UB tracked by a flag | exact set of texts with undefined behaviour (`Spec/JsonUb`) |
| C65 | parser and printer caches survive exceptions | the first call: the cache entries added are parsable and closed under parts (`NewOk`), a failure has a part to blame (`Blame`); later calls: witnesses, general over environments |
| C56 C57 C61 | config paths | induction on components |
| C58 | link tree | refinement to a finite map of sets |
| C59 | error buffer with indeterminate bytes | exact boundary |

No property is planned as not applicable.

## Trusted base

**Kernel and axioms.** Lean 4.33.0's kernel. Every claimed theorem depends on a subset of `propext`,
`Classical.choice`, `Quot.sound` (listed per theorem in `AXIOMS.md`). No axiom is added, nothing rests on
compiled code; `decide +kernel` is used for concrete instances and is checked by the kernel.

**The reading of the C++ code** recorded in the comments of `Model/*`, in particular:

* `reflectError` throws (the library is built with exceptions enabled; with exceptions disabled it prints
  and aborts).
* Memory exhaustion and stack exhaustion do not happen. Where recursion depends on input or program, a
  termination theorem bounds it (C10, C15, C39, C63).
* Streams are in-memory streams: no I/O error. `get`/`peek` behave as libstdc++'s (`eofbit` on the first
  `peek` at the end, `failbit` from the second on).
* `char` is signed, `<cctype>` in the "C" locale; `int64_t`/`size_t` are 64 bits wide.
* `strtod`/`std::stod` and the formatting of doubles are parameters of the model, assumed only to return or
  throw; a theorem that needs more (a printed double reads back as itself) states it as a hypothesis.
* The C library's conversions between text and `double` are parameters of every theorem; only C96 assumes something of them, `Correct` (Spec/Doubles): correct rounding, in the locale whose decimal point is a point.
* `vsnprintf` is given by the message it formats; for the JSON reader the message is modelled too, so parsing is undefined where a message has more than 1024 bytes (C64, C95).
* Hash tables are finite maps; no theorem depends on iteration order (for `unordered_map`s printed as JSON
  the order is a parameter).
* Copy constructors of reflected classes copy cells; move constructors leave an arbitrary function of the
  old cell behind; `isCopiable`/`isMovable` facts about C++ classes are parameters (`Caps`).
* In C14 table accesses are atomic (in C++ they are data races: this is the most favourable reading).
* In C84 the mutex is mutually exclusive and orders memory as C++ requires; the static locals are constructed before
  the threads start (C++ makes their construction thread-safe); what `init` writes to one parser object between two
  calls of `getParser` is one write.
* An indeterminate `bool` or reference kind is an arbitrary value.

**Modelled.** `scope.cpp`, `registry.{h,cpp}`, `type.{h,cpp,tcc}`, `field.*`,
`traits.*`, `argument.*`, `ref_type.h`, `clean_type.h`, `function.{cpp,tcc}`, `function_type.h`, `overloads.*`,
`value.*`, `value_function.*`, `cast.*`, `error.*`, the type-id part of `dsl/template.h`, `dsl/plumbing.h`,
`dsl/operators.h`, `dsl/scope.h`, the trait and registration part of `dsl/{type,field,function}.h`, the descriptions in
`types/` (pointers, vector, map, smart pointers, primitives, string), the functions of `types/std/{vector,map,smart_ptr}.h` and `types/primitives.tcc` also by what they do (C85–C87, C91, C92), the parsers and printers also on the memory of the objects (C88, C89), `utils/json/*` (reader, token, parser, traits, format, writer, printer),
`utils/config/{path,node}.*`.

**Conformance.** The files of `lean/Verif/Conform/` run the model on the assertions of the library's own unit tests
(`tests/{function,cast,type,value,ref,field,pointer,scope,reflection,demo,value_function}_test.cpp`,
`tests/utils/json/{reader,format,parser,printer,value_parser,value_printer}_test.cpp`, the parsing part of
`path_test.cpp`): some 600 assertions, all of which the model satisfies. They are tests of the model, by evaluation
in the kernel; no claim rests on them and the manifest names none of them. One of the recorded files shows an
indeterminate value at work: `value_printer_full.json` lacks `"bob": 0` because `json::alias` leaves `skipEmpty`
uninitialised; the model reproduces the file only when that `bool` is read as `true` (`Env.junk`). Not run: the tests of
`utils/config` accessors (they do not compile), `json_test.cpp` (an interface that no longer exists), counts of destructor calls (C36–C38
prove those).

**Not modelled.** Template meta-programming that only selects code at compile time (`enable_if`, the DSL
macros); bodies of user functions (arbitrary functions in the model); `freeValueFunction`'s cast to
`ValueFunction<0>`; custom JSON
parsers/printers beyond being arbitrary functions; `utils/config/{config,json}.cpp` and the
value accessors of `path.cpp` (commented out of the build, they call functions that no longer exist); perf
tests.

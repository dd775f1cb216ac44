{"id": "C01", "title": "Qualified names are cut only at top-level '::'", "statement": "Splitting a qualified name at its first component returns (first, rest) such that first contains no ':' outside template brackets and first::rest is the input; a name with no top-level ':' is returned whole with an empty rest; the only rejected names are those whose first top-level ':' is not followed by ':' or which have no top-level ':' and unbalanced brackets. Splitting at the last component obeys the mirrored law.", "quantifier": "every byte string used as a name, of any length and any bracket nesting", "why_tests_cant": "the set of names is infinite and the interesting cases (colons inside nested template arguments, stray colons, empty components, unbalanced brackets) combine without bound", "anchors": ["src/scope.cpp: details::head, tail, join", "src/scope.h: Scope"]}
{"id": "C02", "title": "First-component and last-component splitting agree", "statement": "For a name whose brackets balance, peeling components from the front until nothing is left and peeling them from the back yield the same list of components, and joining that list with '::' gives the name back; splitting a join of bracket-balanced, top-level-colon-free components returns exactly those components.", "quantifier": "every list of well-formed components of any length", "why_tests_cant": "types are added by first component and functions by last component, so any disagreement on any name makes a registration unreachable; only a proof covers all names", "anchors": ["src/scope.cpp: details::head, tail, join", "src/scope.cpp: Scope::addFunction, Scope::addType"]}
{"id": "C03", "title": "Scope creation is idempotent and local", "statement": "Asking the (mutable) scope tree for scope n makes hasScope true for n and for every prefix of n, changes no other hasScope answer and no registered type or function, and asking again changes nothing; the scope's id is the qualified name it was asked by.", "quantifier": "every scope tree reachable by any sequence of registrations and every well-formed name", "why_tests_cant": "histories of registrations are unbounded", "anchors": ["src/scope.cpp: Scope::scope, hasScope, id"]}
{"id": "C04", "title": "Scope type registration is exact", "statement": "After a type name is accepted by the scope tree it is reported present by hasType and appears in the recursive type listing under its full qualified name; the recursive listing contains exactly the accepted names, and no lookup of an unrelated name changes its answer.", "quantifier": "every sequence of type registrations and every queried name", "why_tests_cant": "unbounded histories; needs an invariant linking the tree to the set of accepted names", "anchors": ["src/scope.cpp: Scope::addType, hasType, types"]}
{"id": "C05", "title": "Scope registration does not depend on order", "statement": "Registering two type names in either order succeeds or fails alike and gives the same answers afterwards (FALSE of the code: a::b then a is accepted and makes lookups of a::b raise; a then a::b is rejected).", "quantifier": "every pair of names and every reachable tree", "why_tests_cant": "static initialisation order of translation units is unspecified, so tests see one order only", "anchors": ["src/scope.cpp: Scope::addType, hasType"]}
{"id": "C06", "title": "Looking up a scoped function does not change the scope", "statement": "A query for a function by qualified name leaves the set of scopes, types and functions as it was, and hasFunction returns a boolean for every well-formed name (FALSE of the code: a failed lookup creates the missing scopes, and hasFunction raises when the enclosing scope is missing).", "quantifier": "every reachable scope tree and every name", "why_tests_cant": "requires comparing the whole observable state before and after every possible query", "anchors": ["src/scope.cpp: Scope::function, hasFunction, scope"]}
{"id": "C07", "title": "Scoped function registration is exact", "statement": "addFunction on qualified name n makes the overload set at n contain the function in registration order and leaves every other overload set, type and scope answer unchanged.", "quantifier": "every tree and every name", "why_tests_cant": "unbounded histories", "anchors": ["src/scope.cpp: Scope::addFunction, function, hasFunction, functions"]}
{"id": "C08", "title": "Type lookup is stable", "statement": "Once a lookup of a type name has returned a type object, every later lookup of that name returns the same object, whatever registrations, loads and lookups happen in between, unless an alias of that very name is registered later.", "quantifier": "every history of registry operations by one thread, every loader dependency graph", "why_tests_cant": "histories and dependency graphs are unbounded, pointer identity across all of them cannot be sampled", "anchors": ["src/registry.cpp: Registry::get, load, add, alias"]}
{"id": "C09", "title": "A type's loader runs at most once", "statement": "In any history each registered loader is run at most once, the first registration for a name wins, and a type whose loader ran is found without running anything again.", "quantifier": "every history of registrations and lookups", "why_tests_cant": "a double run shows only for specific dependency shapes", "anchors": ["src/registry.cpp: Registry::load, add", "src/dsl/template.h: reflectTemplateLoader"]}
{"id": "C10", "title": "Type lookup terminates on cyclic definitions", "statement": "A lookup of a name terminates for every finite set of registered types, including types whose definitions refer to each other cyclically, running at most one loader per registered name.", "quantifier": "every finite dependency graph between loaders", "why_tests_cant": "termination is a statement about all graphs", "anchors": ["src/registry.cpp: Registry::get, load"]}
{"id": "C11", "title": "Aliases resolve to their target", "statement": "After alias(target, name) is accepted, looking up name gives whatever looking up target directly among types and loaders gives; a second alias for the same name is always refused and leaves the registry unchanged; alias chains are not followed.", "quantifier": "every registry state and every pair of names", "why_tests_cant": "state space unbounded", "anchors": ["src/registry.cpp: Registry::alias, get"]}
{"id": "C12", "title": "A failed lookup changes nothing", "statement": "Looking up the empty name or a name that is neither aliased, loaded nor registered raises an error and leaves the registry exactly as it was.", "quantifier": "every registry state and every unknown name", "why_tests_cant": "needs the whole state compared for all states", "anchors": ["src/registry.cpp: Registry::get, load"]}
{"id": "C13", "title": "A type whose definition fails to load is not served", "statement": "If running a type's loader raises an error (exceptions enabled), later lookups of that name do not hand out the partially defined type (FALSE of the code: the half-defined type stays registered and is returned silently).", "quantifier": "every loader script that fails at any point", "why_tests_cant": "every failure point in every loader", "anchors": ["src/registry.cpp: Registry::load"]}
{"id": "C14", "title": "Concurrent lookups are linearizable", "statement": "Two threads looking up registered names concurrently both obtain the same fully loaded type (FALSE of the code: the lock is released before the tables are read; the second thread can be told no loader exists, or get a half-loaded type, or use a dangling iterator). It holds for lookups that do not overlap: all of them succeed, with complete types. In every schedule, overlapping or not: every lookup comes to an end; successful lookups of one name agree and those of different names differ; a new type has an initial part of its loader's members, in order, and all of them once its loader is done unless a lookup failed; types that are already loaded do not change.", "quantifier": "every interleaving of any number of concurrent lookups", "why_tests_cant": "schedules cannot be enumerated by tests", "anchors": ["src/registry.cpp: Registry::get, load"]}
{"id": "C15", "title": "The child-of relation is exactly declared inheritance plus pointer covariance", "statement": "isChildOf(a,b) holds exactly when b is reachable from a by declared parent links, or both are pointers of the same kind whose pointees are so related; the test terminates on every acyclic declaration and diverges only on a cyclic one.", "quantifier": "every finite set of types with any parent and pointer structure", "why_tests_cant": "chains and pointer depths are unbounded", "anchors": ["src/type.cpp: Type::isChildOf, isParentOf, setPointer", "src/dsl/type.h: reflectParent"]}
{"id": "C16", "title": "The child-of relation is a partial order", "statement": "isChildOf is reflexive, transitive and antisymmetric on every acyclic type graph in which pointer types have no declared parent and a pointer type is determined by its kind and pointee; without those conditions transitivity and antisymmetry fail.", "quantifier": "every acyclic type graph", "why_tests_cant": "triples over unbounded graphs", "anchors": ["src/type.cpp: Type::isChildOf"]}
{"id": "C17", "title": "Member lookup finds the nearest definition", "statement": "function(name)/field(name) on a type return the member declared on the closest type of the parent chain, hasFunction/hasField are true exactly when that lookup succeeds, and otherwise the lookup raises an error.", "quantifier": "every type with a parent chain of any length and every name", "why_tests_cant": "chains of unbounded length", "anchors": ["src/type.cpp: Type::function, hasFunction, field, hasField"]}
{"id": "C18", "title": "Member listings are sorted, duplicate-free and complete", "statement": "functions() and fields() return strictly increasing lists that contain a name exactly when hasFunction/hasField is true for it.", "quantifier": "every type with a parent chain of any length", "why_tests_cant": "unbounded sets of members", "anchors": ["src/type.cpp: Type::functions, fields"]}
{"id": "C19", "title": "A type never has a field and a function of the same name", "statement": "In every type built by any sequence of addField/addFunction calls (rejected ones included) no name is both a field and a function of that type, no field is declared twice, and a rejected call leaves the type unchanged.", "quantifier": "every sequence of member declarations", "why_tests_cant": "unbounded histories", "anchors": ["src/type.cpp: Type::addField, addFunction"]}
{"id": "C20", "title": "Copiable and movable queries reflect the declared constructors", "statement": "isCopiable is true exactly when some declared constructor named like the type accepts one copy of the type and returns it by value; for types registered with the standard plumbing isCopiable is true exactly for copy-constructible types and isMovable exactly for types that are copy- or move-constructible.", "quantifier": "every type and every set of constructor overloads", "why_tests_cant": "the constructor overload set is arbitrary", "anchors": ["src/type.cpp: Type::isCopiable, isMovable", "src/dsl/plumbing.h: reflectCopyConstructor, reflectMoveConstructor"]}
{"id": "C21", "title": "A mutable reference never binds to a const or temporary argument", "statement": "If a non-dynamic argument matches a parameter of mutable lvalue-reference type then the argument is a non-const lvalue whose type is a child of the parameter type; if it matches an rvalue-reference parameter without a converter the argument is an rvalue, and is not const unless the parameter is.", "quantifier": "every pair of argument and parameter descriptions over every type graph", "why_tests_cant": "type graph is arbitrary, so the table of cases is infinite", "anchors": ["src/argument.cpp: Argument::isConvertibleTo", "src/ref_type.h: testConstConversion"]}
{"id": "C22", "title": "The argument match grade is decided by the documented rules", "statement": "For every argument/parameter pair the grade (none, partial, exact) equals the one given by an independent table over: identical, exactly-one-is-Value, converter available, const and reference compatibility, and inheritance.", "quantifier": "every pair of argument and parameter over every type graph", "why_tests_cant": "the type graph and converter set are arbitrary", "anchors": ["src/argument.cpp: Argument::isConvertibleTo, combine"]}
{"id": "C23", "title": "Match grades combine as the worst of the parts", "statement": "The grade of an argument list against a parameter list is none unless lengths agree, and then is the minimum of the grades of the positions; the order of positions is irrelevant.", "quantifier": "argument lists of every length", "why_tests_cant": "length is unbounded", "anchors": ["src/argument.cpp: combine", "src/function.cpp: Function::testArguments"]}
{"id": "C24", "title": "Converters give only partial matches and never bind references to lvalues", "statement": "An argument that fits only because its type declares a conversion operator matches partially, never exactly, and never matches an lvalue-reference parameter, const or not.", "quantifier": "every argument and parameter over every type graph", "why_tests_cant": "arbitrary set of conversion operators, inherited through any chain", "anchors": ["src/argument.cpp: Argument::isConvertibleTo", "src/type.cpp: Type::hasConverter"]}
{"id": "C25", "title": "Return types match safely", "statement": "A call whose wanted return type is an lvalue reference is accepted only if the function returns an lvalue reference of a child type (mutable when a mutable one is wanted), one that wants an rvalue reference, without a converter, only if it returns an rvalue reference of a child type; a temporary is never handed out as a const reference; a wanted void accepts every function. Otherwise the call is accepted exactly when what the function returns could be passed as what is wanted.", "quantifier": "every wanted/declared return pair over every type graph", "why_tests_cant": "type graph is arbitrary", "anchors": ["src/function.cpp: Function::testReturn", "src/argument.cpp: isTemporary, isConstRef"]}
{"id": "C26", "title": "Pointee constness is preserved", "statement": "A pointer to a const object is not accepted where a pointer to a mutable object is expected (FALSE of the code: pointee const and references are erased from type names, so both are one type). Everything else is kept: two parameter types are described alike exactly when they agree in the class, the number of pointers, the way of passing and their own constness.", "quantifier": "every C++ pointer type of any depth", "why_tests_cant": "unbounded type nesting", "anchors": ["src/clean_type.h: CleanType", "src/types/pointer.h: Reflect<T*>", "src/registry.h: typeId"]}
{"id": "C27", "title": "Overload resolution picks the specified candidate", "statement": "A call on an overload set runs the earliest registered exact candidate; when none is exact it runs the only partial candidate; with two or more partial candidates and no exact one, or with no candidate, it raises an error and runs nothing.", "quantifier": "every overload set of any size and every argument list", "why_tests_cant": "number of overloads and argument lists unbounded", "anchors": ["src/overloads.tcc: Overloads::call"]}
{"id": "C28", "title": "Overload resolution does not depend on registration order when unambiguous", "statement": "If at most one overload of a set is an exact match for a call, permuting the registration order changes neither which overload runs nor whether the call raises.", "quantifier": "every permutation of every overload set", "why_tests_cant": "factorially many orders", "anchors": ["src/overloads.tcc: Overloads::call"]}
{"id": "C29", "title": "No function is invoked with a wrong number of arguments", "statement": "Whenever an overload set or function invokes a wrapped function, the number of arguments equals its arity, so the internal downcast by arity is always to the object's real type.", "quantifier": "every call with any number of arguments", "why_tests_cant": "memory safety of the downcast for every arity", "anchors": ["src/function.tcc: Function::call", "src/value_function.h: ValueFunction"]}
{"id": "C30", "title": "Duplicate overloads are rejected", "statement": "No overload set ever contains two overloads whose signatures are identical; a rejected overload leaves the set unchanged. Acceptance does not depend on the order of registration (the second half is FALSE of the code).", "quantifier": "every sequence of registrations", "why_tests_cant": "unbounded histories", "anchors": ["src/overloads.cpp: Overloads::add", "src/function.cpp: Function::test"]}
{"id": "C31", "title": "Querying an overload agrees with calling it", "statement": "The overload returned by get for a signature is the one a call with that signature runs (FALSE of the code when a partial candidate precedes an exact one); it is so whenever a single candidate matches, and get fails exactly when nothing matches.", "quantifier": "every overload set and signature", "why_tests_cant": "unbounded sets", "anchors": ["src/overloads.cpp: Overloads::get, test", "src/overloads.tcc: Overloads::call"]}
{"id": "C32", "title": "Passing by reference reaches the same object, passing by value a fresh one", "statement": "When a reflected call binds an argument to a reference parameter without conversion the callee sees the very object of the argument; when bound by value it sees a fresh object with equal contents, and no existing object changes, except that the object of a mutable rvalue() argument passed by value is moved from.", "quantifier": "every heap, every value and every parameter description", "why_tests_cant": "aliasing over arbitrary heaps", "anchors": ["src/cast.h: Cast", "src/cast.cpp: reflect::cast lref/rref/copy"]}
{"id": "C33", "title": "Calls never modify const objects", "statement": "No sequence of reflected casts from a const handle yields a handle through which the object can be modified or moved from (FALSE of the code for direct casts to rvalue references, for as<T>(), and for calls of functions that take a const rvalue reference); a whole reflected call refuses a const value for an rvalue-reference parameter, and it holds for lvalue-reference parameters and for by-value parameters of plainly copied types.", "quantifier": "every sequence of casts and calls over every type graph", "why_tests_cant": "unbounded sequences", "anchors": ["src/cast.cpp", "src/value.tcc: Value::as, cast"]}
{"id": "C34", "title": "isCastable predicts cast", "statement": "isCastable on a value is true exactly when the cast succeeds (FALSE of the code in both directions). When no converter to the target is declared and neither side is the dynamic value type it is true for lvalue-reference targets and for by-value targets of copiable types; for rvalue references isCastable asks for a temporary of a child type and the cast for a movable target and a child type; a declared converter makes isCastable deny references that can be bound.", "quantifier": "every value and target over every type graph", "why_tests_cant": "infinitely many type graphs", "anchors": ["src/value.tcc: Value::isCastable, cast", "src/cast.cpp"]}
{"id": "C35", "title": "Field access is located in and const-qualified like its object", "statement": "field(name) on a value yields the sub-object at the declared offset of the nearest declaration, is const if the object or the field is, and raises if no such field exists.", "quantifier": "every value, type chain and field name", "why_tests_cant": "unbounded chains", "anchors": ["src/value.cpp: Value::field", "src/type.cpp: Type::field"]}
{"id": "C36", "title": "A stored value lives exactly as long as some handle", "statement": "An object stored in a value is destroyed exactly when the last handle that shares it is destroyed, overwritten or moved away, and never twice, over every sequence of copies, moves, assignments and destructions of handles.", "quantifier": "every finite history of handle operations", "why_tests_cant": "unbounded histories", "anchors": ["src/value.h: Value", "src/value.cpp: copy/move constructors and assignments"]}
{"id": "C37", "title": "Handles never dangle", "statement": "A handle that reports a non-void type refers to a live object (FALSE of the code: a moved-from value keeps type and address, and a field handle does not keep its parent alive; it holds in every history without these two, and in general exactly when some value still shares the object).", "quantifier": "every history of handle operations", "why_tests_cant": "unbounded histories", "anchors": ["src/value.cpp: Value::Value(Value&&), operator=, field"]}
{"id": "C38", "title": "Function handles free their target exactly once", "statement": "Over every history of creating, moving and destroying function handles no wrapped function is freed twice or used after being freed, and all are freed at the end when no live handle is overwritten by move assignment (with such an overwrite one is leaked: FALSE in full; nothing else leaks). Only calls of empty, e.g. moved-from, handles are undefined.", "quantifier": "every history of handle operations", "why_tests_cant": "unbounded histories", "anchors": ["src/function.cpp: Function::Function(Function&&), operator=, ~Function"]}
{"id": "C39", "title": "Reading JSON terminates on every input", "statement": "Tokenising or skipping any byte sequence with any reader options terminates, consuming at least one byte for every token other than end of stream, with memory proportional to the input.", "quantifier": "every finite byte string and option set", "why_tests_cant": "inputs are infinite; a hang needs a particular malformed prefix", "anchors": ["src/utils/json/token.cpp: nextToken", "src/utils/json/parser.tcc: skip, parseObject, parseArray"]}
{"id": "C40", "title": "Strings survive printing and reading back", "statement": "Printing any string and reading it back with matching options yields the same bytes, for default, raw and escaping modes, as long as every code point is in the basic plane (FALSE of the code beyond it in escaping mode).", "quantifier": "every string of any length", "why_tests_cant": "infinite domain", "anchors": ["src/utils/json/format.cpp: formatString, escapeUnicode", "src/utils/json/token.cpp: readString, unescapeUnicode"]}
{"id": "C41", "title": "UTF-8 validation accepts exactly the intended byte sequences", "statement": "With validation on, a reader accepts a non-ASCII byte sequence in a string exactly when it is a 2-4 byte sequence with right continuation bytes and is not overlong; surrogates and values above U+10FFFF are accepted too (so it is not full UTF-8 conformance).", "quantifier": "every byte sequence", "why_tests_cant": "infinite domain and boundary cases in every length class", "anchors": ["src/utils/json/token.cpp: validateUnicode"]}
{"id": "C42", "title": "Unicode escapes decode to the UTF-8 encoding of the code point", "statement": "A \\uXXXX escape is decoded to the UTF-8 encoding of its value, for every four hex digits in either case; surrogate pairs are not combined.", "quantifier": "all 65536 escapes in every capitalisation", "why_tests_cant": "exhaustive coverage of a table combined with arbitrary surrounding input", "anchors": ["src/utils/json/token.cpp: unescapeUnicode"]}
{"id": "C43", "title": "Integers survive printing and reading back", "statement": "Every 64-bit integer printed and read back gives the same integer; an integer literal out of range raises.", "quantifier": "every 64-bit integer and every digit string", "why_tests_cant": "2^64 values and unbounded digit strings", "anchors": ["src/utils/json/format.cpp: formatInt", "src/utils/json/token.cpp: readNumber, Token::asInt"]}
{"id": "C44", "title": "Unknown members are skipped exactly", "statement": "Skipping a well-formed value of any shape consumes exactly the bytes of that value, so the members after an unknown one are read as if it were not there. At the very end of the text the same holds, except for a number without exponent: skipping one that ends the text skips nothing, and the number is still the next token.", "quantifier": "every JSON value of any depth", "why_tests_cant": "unbounded nesting", "anchors": ["src/utils/json/parser.tcc: skip", "src/utils/json/parser.cpp: ObjectParser"]}
{"id": "C45", "title": "Typed values survive printing and reading back", "statement": "Printing a reflected value built from booleans, 64-bit integers, strings, lists, string-keyed maps, smart pointers and objects, and parsing the text into a freshly constructed value of the same type gives an equal value, in default, pretty and raw modes (up to depth 1024 when pretty). FALSE of the code for two kinds of data: a double whose text has neither fraction nor exponent is printed and then refused by the parser, and a pointer to a null pointer comes back as null.", "quantifier": "every type environment (recursive types included) and every value of it", "why_tests_cant": "types and values are unbounded trees", "anchors": ["src/utils/json/parser.cpp", "src/utils/json/printer.cpp"]}
{"id": "C46", "title": "Printed text is well-formed JSON", "statement": "Every text printed without a reported error is derivable from the JSON grammar, in every layout mode, and contains the same data whatever the layout. FALSE of the code for strings with control characters that have no short escape, which are printed bare, and for infinite doubles.", "quantifier": "every value, layout option and depth", "why_tests_cant": "unbounded trees", "anchors": ["src/utils/json/printer.tcc: printObject, printArray", "src/utils/json/format.cpp"]}
{"id": "C47", "title": "Whitespace and comments are insignificant", "statement": "Inserting white space (and, when comments are enabled, line comments) between tokens changes neither the tokens read nor whether reading fails; with comments disabled a comment is an error.", "quantifier": "every token sequence and every insertion", "why_tests_cant": "infinitely many layouts", "anchors": ["src/utils/json/token.cpp: nextChar"]}
{"id": "C48", "title": "Duplicate keys resolve as documented by position", "statement": "For a repeated key the last occurrence wins in string-keyed maps and object fields of scalar type, and the first occurrence wins in untyped values.", "quantifier": "every object text with any repetition pattern", "why_tests_cant": "unbounded number of repetitions", "anchors": ["src/utils/json/parser.cpp: MapParser, ObjectParser, ValueParser"]}
{"id": "C49", "title": "The first error is the one reported, at the right line and column", "statement": "After a reader reports an error it never changes it; the line reported for an error is one plus the number of newline bytes consumed outside comments, and the column one plus the number of bytes consumed since the last of these newlines, running into the end of the text counting as one. Parsing anything with a reader in error changes neither the error nor what is left of the text. Asking for a token of a type the next token does not have is an error about this token, undefined if the message, which contains the text of the token, has more than 1024 bytes.", "quantifier": "every input and every error point", "why_tests_cant": "infinite inputs", "anchors": ["src/utils/json/reader.cpp: Reader::error", "src/utils/json/reader.tcc"]}
{"id": "C50", "title": "Truncated documents are rejected", "statement": "A document cut before its end is reported: by an exception or an error of the reader. (FALSE of the code in exactly these cases: an opening '[' or '{' at top level, with nothing behind it or just a number without exponent that the cut ends, reads as an empty container without error; a number cut to a shorter number is that number; a cut inside a string that is being validated is undefined behaviour, and so may be a cut behind a string or number of more than 969 bytes.)", "quantifier": "every document and every cut position", "why_tests_cant": "quantifies over all prefixes of all documents", "anchors": ["src/utils/json/parser.tcc: parseObject, parseArray"]}
{"id": "C51", "title": "Members absent from the text keep their value", "statement": "Parsing an object text into an existing object changes exactly the fields whose alias occurs as a key, whatever other keys the text holds.", "quantifier": "every object type, every set of keys, every prior object", "why_tests_cant": "unbounded", "anchors": ["src/utils/json/parser.cpp: ObjectParser::parse"]}
{"id": "C52", "title": "Field traits combine as a monoid", "statement": "Combining JSON field traits is associative, skip flags accumulate and the leftmost alias/custom functions win; the combination does not depend on indeterminate data (last part FALSE of the code: skipEmpty is read uninitialised for alias, skip and custom).", "quantifier": "every combination of traits", "why_tests_cant": "uninitialised reads are invisible to tests", "anchors": ["src/utils/json/traits.cpp: Traits::operator|, skip, alias, custom", "src/utils/json/traits.h: Traits"]}
{"id": "C53", "title": "Each object member is printed once under its alias", "statement": "Printing an object emits each non-skipped field exactly once, ordered by key, under its alias (FALSE of the code for colliding aliases: printing repeats the last field; parsing rejects the type).", "quantifier": "every object type with any traits", "why_tests_cant": "unbounded field sets", "anchors": ["src/utils/json/printer.cpp: ObjectPrinter", "src/utils/json/parser.cpp: ObjectParser::init"]}
{"id": "C54", "title": "Compact output drops only empty members and still round-trips", "statement": "In compact mode exactly the empty members of objects are omitted, and reading the text into a freshly constructed object whose omitted members are equal already restores the value; an omitted member is not restored otherwise (a pointer to an empty string comes back null, minus zero comes back as zero).", "quantifier": "every object value", "why_tests_cant": "unbounded", "anchors": ["src/utils/json/printer.cpp: ObjectPrinter::print, isEmpty"]}
{"id": "C55", "title": "Indentation never reads out of bounds", "statement": "Pretty printing stays inside its blank buffer at every depth (FALSE of the code above depth 1024); it does at every smaller depth.", "quantifier": "every nesting depth", "why_tests_cant": "tests do not reach such depth", "anchors": ["src/utils/json/writer.cpp", "src/utils/json/writer.tcc: newline"]}
{"id": "C56", "title": "Configuration paths survive formatting and parsing", "statement": "Formatting a path of non-empty separator-free components and parsing the text gives the same path; parsing accepts exactly the texts with no empty component other than a trailing one.", "quantifier": "every path and every text", "why_tests_cant": "infinite domain", "anchors": ["src/utils/config/path.cpp: Path::parse, toString"]}
{"id": "C57", "title": "Path order is a strict total order compatible with prefixes", "statement": "Path comparison is a strict total order that agrees with equality, and a proper prefix sorts before its extensions.", "quantifier": "every pair and triple of paths", "why_tests_cant": "infinite domain", "anchors": ["src/utils/config/path.cpp: Path::operator<, operator=="]}
{"id": "C58", "title": "The configuration link tree behaves like a finite map from paths to sets of links", "statement": "After any sequence of add and erase, the links held at a path are those a plain map from paths to sets would hold when erase drops the whole subtree below its path; a node exists exactly where it leads to links or was asked for, and erasing leaves no empty branch behind (an empty node on the way to an erased path goes too). FALSE of the code for path components containing a dot, which are listed as several components, or make the listing raise.", "quantifier": "every sequence of operations and every path", "why_tests_cant": "unbounded histories", "anchors": ["src/utils/config/node.cpp: Node"]}
{"id": "C59", "title": "Error messages are reported intact", "statement": "An error message formatted to at most 1022 bytes is reported byte for byte; for longer messages the result is not the message (and above 1024 bytes the code reads outside its buffer).", "quantifier": "every message length", "why_tests_cant": "length boundary and undefined behaviour", "anchors": ["src/error.cpp: verrorFormat"]}
{"id": "C60", "title": "Copying and moving a value use the copy and move constructors", "statement": "Value::copy and passing by value of an lvalue or const value run the type's copy constructor, Value::move of a mutable value its move constructor, and Value::move of a const value the copy constructor, in whatever order the constructors were registered, when no other constructor accepts the object alone. (FALSE of the code in four ways: copy() of a mutable rvalue() moves from the object; a type both constructible from and convertible to another makes copying its mutable objects ambiguous, so it raises; a constructor that takes a mutable reference to a parent is run instead of the copy constructor; and a child with a declared converter to its parent is moved from when passed by value as the parent, even when const.)", "quantifier": "every type, constructor set and registration order", "why_tests_cant": "registration orders and constructor sets are unbounded", "anchors": ["src/value.cpp: Value::copy, Value::move", "src/cast.cpp: copy", "src/type.tcc: Type::construct", "src/argument.tcc: Argument::make"]}
{"id": "C61", "title": "Index components of paths", "statement": "A path extended by an index has that index as its last component, recognised by isIndex and returned by index; only strings of digits are accepted as indexes, and popping undoes extending. (FALSE of the code: isIndex holds for numbers of 2^64 and above, on which index throws; and a component starting with a non-ASCII byte is undefined behaviour.)", "quantifier": "every path and every index", "why_tests_cant": "the numbers and components are unbounded", "anchors": ["src/utils/config/path.cpp: Path(prefix, index), isIndex, index, popFront, popBack"]}
{"id": "C62", "title": "json::parse accepts exactly the texts that begin with a document of the type", "statement": "Parsing a text into a value succeeds exactly when the text begins with a JSON document that fits the type (the cuts of C50 aside), whatever was parsed before; the result is determined by the text and the value parsed into, and whatever follows the document is left unread.", "quantifier": "every type environment without custom parsers, every type, prior value, text and reader options, every history of earlier calls", "why_tests_cant": "an equivalence over all texts", "anchors": ["src/utils/json/parser.cpp", "src/utils/json/parser.tcc", "src/utils/json/token.cpp"]}
{"id": "C63", "title": "Typed parsing always terminates", "statement": "json::parse comes to an end on every input, for every type, recursive ones included: it raises, or returns.", "quantifier": "every input, type environment and prior value", "why_tests_cant": "termination for all inputs", "anchors": ["src/utils/json/parser.cpp", "src/utils/json/parser.tcc: parseObject, parseArray, skip"]}
{"id": "C64", "title": "Parsing never runs into undefined behaviour", "statement": "Whatever the input, json::parse has no undefined behaviour. (FALSE of the code in exactly these cases: with validation on, a text that ends inside a string or has a byte 0xFF in one; for types with reflected objects, a text in which a ',', ':', ']' or '}' stands where a value is due; and a text with a string or number token of more than 969 bytes, which is undefined if the token is not of the type that is due, as the message about it overruns a buffer. On any other text, well-formed or not, it holds; in particular no text of up to 969 bytes is undefined for its long tokens.)", "quantifier": "every input text, type environment and prior value", "why_tests_cant": "all inputs; undefined behaviour may not show in a run", "anchors": ["src/utils/json/parser.tcc: skip", "src/utils/json/token.cpp: readString, validateUnicode", "src/utils/json/parser.cpp"]}
{"id": "C65", "title": "A type refused by the JSON parser or printer stays refused", "statement": "The first json::parse or json::print on a type raises exactly if the type has, at any depth, a part that cannot be parsed or printed (a list or map without value type, a custom function that is missing, two members with one key, void when printing); later calls on the type raise too. (The latter is FALSE of the code: the half-made parser stays in the cache, so the second call goes on to parse; members of an object are then silently ignored, and for a list or map of a refused type, or a pointer to one, the second call is undefined behaviour unless the document is empty or null.)", "quantifier": "every type environment, every type and history of calls", "why_tests_cant": "depends on the history of a global cache", "anchors": ["src/utils/json/parser.cpp: getParser, ObjectParser::init", "src/utils/json/printer.cpp: getPrinter"]}
{"id": "C66", "title": "What parsing does to the value already there", "statement": "null clears a pointer, leaves lists, maps, objects and untyped values as they are, and is refused for booleans, numbers and strings; the elements of an array are appended to a list, in order, each parsed into a newly constructed value; the members of an object are merged into a map, keys that do not occur keeping their value.", "quantifier": "every type, prior value and document", "why_tests_cant": "unbounded values and documents", "anchors": ["src/utils/json/parser.cpp: PointerParser, ListParser, MapParser, ObjectParser, ValueParser"]}
{"id": "C67", "title": "A value made from an lvalue refers to it, one made from a temporary owns a new object", "statement": "Making a Value of an lvalue refers to that very object, keeps its constness and changes nothing. Making a Value of a temporary stores a new object with its contents, which the value owns; the temporary is moved from only if it is not const and has a move constructor, and is unchanged otherwise; a temporary that can be neither moved nor copied is refused. The object is later reached as T exactly when its type is T or derives from it, and no cast reads it as an unrelated type.", "quantifier": "every object, type, constness and value category", "why_tests_cant": "types and their constructors are arbitrary", "anchors": ["src/value.tcc: Value(T&&), store, as, get", "src/cast.cpp: lref, rref, copy"]}
{"id": "C68", "title": "A call hands the caller's arguments over in order and its result back", "statement": "A call with arguments or a wanted result that do not match raises and has no effect. A call that succeeds had one argument per parameter; the body received, in order, the caller's own object for each reference, the Value itself for each Value, and a fresh equal object for each by-value parameter; the caller gets the very object a returned reference refers to, an equal fresh object for a result by value, and nothing when it wants void. Called by name through a Value, the function is the overload that the rules choose among those of the closest of its class and the ancestors that has any; where there is none the call raises before anything runs.", "quantifier": "every function, overload set, argument list, body and memory", "why_tests_cant": "unbounded argument lists, arbitrary bodies", "anchors": ["src/function.tcc: Function::call", "src/value_function.h", "src/cast.h: retCast, cast"]}
{"id": "C69", "title": "Conversions run the one converter the source type declares", "statement": "A value is converted to an unrelated type exactly by the single conversion operator declared for it by the closest ancestor-or-self of the source type that declares one; several, or none, are an error. The converter is run on the very object of the value and the result is handed over as a fresh equal object.", "quantifier": "every type graph, source, target and converter body", "why_tests_cant": "arbitrary inheritance chains and bodies", "anchors": ["src/type.cpp: Type::converter, hasConverter", "src/value.tcc: Value::convert", "src/cast.cpp: rref, copy"]}
{"id": "C70", "title": "A type definition applies its declarations in order and stops at the first rejected one", "statement": "Each declaration (function, field, parent, pointer) is accepted exactly under its rule and then has exactly its own effect; a definition succeeds exactly when every declaration is accepted in the state left by those before it, and otherwise leaves what those before the rejected one made.", "quantifier": "every type state and sequence of declarations", "why_tests_cant": "unbounded sequences", "anchors": ["src/type.cpp: addFunction, addField, setPointer", "src/overloads.cpp: Overloads::add", "src/type.h: parent"]}
{"id": "C71", "title": "Assigning through a value gives its object the source's contents", "statement": "v.assign(x), for a mutable value whose type has the standard assignment operators, gives v's object the contents of x and changes nothing else but a temporary moved from: an lvalue, a const temporary and a Value that is const or not rvalue() are copied from; a non-const temporary and an rvalue() of a mutable object are moved from; an object of a convertible type, or a Value that holds one, is converted first. A type with a move assignment only refuses lvalues and const sources; a const or rvalue() receiver and an object of an unrelated type are refused. (FALSE of the code: an object whose class is a child of the receiver's with a declared converter to it is emptied by the assignment, even when const.)", "quantifier": "every value, source, type graph, constness, value category and memory", "why_tests_cant": "types, converters and aliasing are arbitrary", "anchors": ["src/value.tcc: Value::assign, Value::call", "src/overloads.tcc: Overloads::call", "src/dsl/plumbing.h: reflectPlumbing, copy and move assignment"]}
{"id": "C72", "title": "Traits are recorded once, found where they were given, and read back as given", "statement": "A trait is a name with a value, or with none (a flag). The first call that gives it to a type, or to a field or function the type declares itself, fixes its value; every later call for the same one is refused and changes nothing, as is a call for a field or function the type does not declare itself. traits() lists exactly the traits given, each once. Traits of a field or function are seen through inheritance, from the closest type that declares the member; traits of a type are not inherited. Reading the value of an absent trait, or of a flag, raises; a trait made from an lvalue gives back that very object, one made from a temporary a stored one, and a read by value a fresh equal object. Being a pointer is itself the trait \"pointer\": it cannot be set twice, and when no type is given that trait by hand the inheritance relation is the documented one. (A hazard of the code: a type given it by hand has no pointee, and asking whether one such type is a child of another is undefined behaviour.)", "quantifier": "every history of declarations and trait calls, type table, trait value and memory", "why_tests_cant": "unbounded histories, arbitrary inheritance chains and values", "anchors": ["src/traits.cpp: Traits::addTrait, is, traits", "src/traits.tcc: Traits::addTrait, getValue", "src/type.cpp: Type::field, function, isPointer, setPointer, pointer, pointee, isChildOf", "src/dsl/type.h, src/dsl/field.h, src/dsl/function.h: reflectTypeTrait, reflectFieldTrait, reflectFnTrait"]}
{"id": "C73", "title": "reflectOperators registers exactly the operators a class has", "statement": "Describing a class with reflectOperators() is accepted and registers, under its C++ name, each operator the class has exactly one of, and of ++ and -- the prefix and the postfix form; an operator with several overloads is left out silently; nothing else of the description changes. Each of the macros for a group of operators does so for its group. A registered member takes its object first, and one not declared const only a mutable lvalue. (FALSE of the code for every class with exactly one operator*: reflectOperators() registers it twice, as multiplication and as indirection, the second is refused as a duplicate, and the definition of the type fails.)", "quantifier": "every class, set of member operators and earlier description", "why_tests_cant": "the sets of operators, their overloads and signatures are unbounded", "anchors": ["src/dsl/operators.h: reflectOperators, reflectOp, reflectOpFn, reflectOpTypedFn", "src/function_type.h: FunctionType", "src/overloads.cpp: Overloads::add"]}
{"id": "C74", "title": "The operators of a Value act on its object as those of its class do", "statement": "v op x runs the operator of that name its class declares, or else inherits from the closest ancestor, on the very object of v and the caller's own arguments. The result is a value that refers to the object a returned reference refers to, or owns a fresh object equal to the one returned; comparisons and the conversion to bool answer with the bool the operator returned. !v is the class's own operator! when it has one and the negation of its conversion to bool otherwise. An operator not declared const is refused to a const value or an rvalue() one without touching the object, and an absent operator raises.", "quantifier": "every program, memory, value and operator; every mix of values, lvalues and temporaries as arguments, for reference, Value and plainly copied by-value parameters", "why_tests_cant": "programs, memories and operator bodies are arbitrary", "anchors": ["src/value.h: reflectValueOpUnary, reflectValueOpBinary, reflectValueOpBool, reflectValueOpNary", "src/value.cpp: Value::operator!, Value::operator bool", "src/value.tcc: Value::call"]}
{"id": "C75", "title": "One type object per C++ type, whatever const and references it is written with", "statement": "type<S>() and type<T>() return the same type object exactly when S and T are the same C++ type once const and references are disregarded, at every level (under pointers and in template arguments too): pointers to pointers, vectors, maps and smart pointers of different types never share a name, provided the names given to plain types and templates contain none of < > , *. Such a type lives in the scope of its outermost name, so the qualified names in its arguments open no scope and cause no clash. The price: shared_ptr<const T> and shared_ptr<T>, which are different C++ types, share one type object, described by whichever was asked for first.", "quantifier": "every pair of C++ types built from plain types, pointers, const, references, one- and two-parameter templates; every history of registrations and look-ups", "why_tests_cant": "types nest without bound, so the absence of a clash between two names is a statement about all pairs of type expressions", "anchors": ["src/clean_type.h:CleanType", "src/registry.h:typeId,Registry::get", "src/types/pointer.h:Reflect<T*>::id", "src/dsl/template.h:reflectTemplateDecl", "src/types/std/map.h:Reflect::id"]}
{"id": "C76", "title": "The descriptions of pointers, vectors, maps, smart pointers, numbers and strings are complete and usable", "statement": "Each description that comes with the library is accepted, whatever types it is instantiated with, and leaves a root type with exactly the functions, overloads, traits (with their values) and pointee of its table: default, copy and move construction and assignment as far as the C++ type has them, plus size, push_back, operator[], at, keys, get, reset, release and so on with their C++ signatures; numbers carry exactly one of bool, integer and float, and integers one of signed and unsigned. push_back through reflection moves a non-const temporary in, copies any other value of the element type or one derived from it, converts and moves in a convertible one, and refuses anything else and every const or temporary vector. Dereferencing a pointer gives a mutable reference only from a mutable pointer variable to mutable objects. Pointers and smart pointers convert to bool, taken by value only; the other types do not. A smart pointer is never taken for a raw one. (A hazard of the code: const X* and X* share one type object, so whichever is described first decides whether its objects can be changed.)", "quantifier": "every element, key and pointee type, every inheritance and conversion relation, every argument and wanted result", "why_tests_cant": "the library is instantiated with unboundedly many types; the tables and the overload choice must hold for all of them and for all relations between types", "anchors": ["src/types/pointer.h: Reflect<T*>", "src/types/std/vector.h: Reflect<std::vector<ValueT>>", "src/types/std/map.h: reflectMap", "src/types/std/smart_ptr.h: reflectSmartPtr", "src/types/primitives.tcc: reflectNumberImpl", "src/types/std/string.cpp", "src/dsl/plumbing.h: reflectPlumbing"]}
{"id": "C77", "title": "Global functions and variables are read, written and refused as declared", "statement": "Reflecting a global variable under a new name gives that name exactly a getter and, unless the variable is const, a setter, and leaves every other name and every type as it was; reflecting a global function adds it to the overloads of its name unless one of them takes it exactly. Reading a variable by value, as its type or a class it derives from or as a Value, gives a fresh object with the variable's contents and changes nothing that existed. Writing an lvalue, any Value or a temporary of its type or of a derived class makes the variable's contents those of the object written; lvalues and Values are never moved from. A read after a write gives what was written. Writing a const variable or an unrelated object (convertible ones included), passing more than one argument, asking for a reference into the variable, or calling an unknown name raises. A name that already is a variable of that type is refused and unchanged; a name that already has a void function taking const T& is refused half-way: the getter stays behind.", "quantifier": "every registry state reached by declarations, every name, type, memory, argument and wanted result", "why_tests_cant": "the global scope is grown by any history of declarations and a variable's two functions share the overload rules with whatever else its name has; what a read returns depends on all writes before it", "anchors": ["src/dsl/scope.h: reflectGlobalFunction, reflectGlobalVar", "src/scope.tcc: Scope::addFunction, Scope::call", "src/scope.cpp: Scope::addFunction, Scope::function", "src/overloads.cpp: Overloads::add"]}
{"id": "C78", "title": "Printed text tells types, signatures and scopes apart", "statement": "Two arguments print alike exactly when they agree in the name of the type, in const and in the kind of reference; two signatures exactly when they agree in the return type and in the arguments one by one, so that with distinct names for distinct types the text of an overload identifies it; two types exactly when they and their ancestors, one by one, agree in names, in the names of their traits, in the offset, type, name and traits of their fields by increasing offset, and in the names, traits and signatures of their functions; two scopes exactly when they agree in names, types, functions and the scopes in them. The fields of a type are shown each once, by increasing offset. Printing a type ends exactly when its ancestry does. The text does not show whether a field is const, the values of traits, nor what a pointer points to.", "quantifier": "every type table and every pair of types, signatures and scopes, also of different programs; names that contain no line break, &, ( or [ (types), no spaces (fields and traits) and do not begin like another entry (functions)", "why_tests_cant": "ambiguity of a textual format is a statement about all pairs of descriptions of any size and depth", "anchors": ["src/argument.cpp: Argument::print", "src/function.cpp: signature", "src/overloads.cpp: Overloads::print", "src/traits.cpp: Traits::print", "src/field.cpp: Field::print", "src/type.cpp: Type::print, sortedFields", "src/scope.cpp: Scope::print"]}
{"id": "C79", "title": "Objects made with new are fresh, of the right contents, and reachable through the pointer returned", "statement": "Describing a class with the allocation plumbing gives it one 'new' for each of the default, copy and move constructors it has and changes nothing else; asking for a 'new' without arguments twice is refused. type->alloc() returns a Value that owns a pointer to a default constructed object; pointer and object are new, apart from each other and from everything that existed, and nothing that existed changes; a later allocation leaves earlier ones as they were. new with an lvalue or a Value copies the object and leaves it as it was; new with a temporary or an rvalue() of a mutable object moves it. Objects of unrelated types, classes without the constructor and types without 'new' raise. A type without 'new' of its own answers with its closest ancestor's, so the object made is one of the ancestor. *p on the value returned refers to that very object.", "quantifier": "every class (constructors it has, size), every memory, every argument, every inheritance relation and every sequence of allocations", "why_tests_cant": "freshness and non-interference range over all memories and all earlier allocations; the choice of the constructor over all arguments and inheritance relations", "anchors": ["src/dsl/plumbing.h: reflectAllocPlumbing", "src/dsl/function.h: reflectAllocator", "src/type.cpp: Type::alloc", "src/type.tcc: Type::call", "src/types/pointer.h: Reflect<T*>"]}
{"id": "C80", "title": "What is recorded of a callable, and which of a const and a mutable member runs", "statement": "A function or lambda is recorded with its result and its parameters in order: how many, how each is passed, whether it is const, and its type; a member function has one parameter more, first, a reference to an object of the declaring class, const exactly when the member is. A member function and a function taking the object first cannot both be declared under a name. A const member can be called on every object of the class or of a derived one; a mutable one only on objects that are neither const nor temporary. A const and a mutable member with the same parameters can both be declared in either order; const objects and temporaries run the const one, mutable objects the mutable one when the other arguments match exactly, and when one of those matches only partially the call raises as ambiguous. type->construct(args...) runs the constructor that the rules choose, on the arguments in order, and gives a Value owning a fresh object as constructed; without a fitting constructor named like the type it raises.", "quantifier": "every callable (kind, result, parameter list of any length), every registry, every type relation, every receiver and argument list, every memory", "why_tests_cant": "which overload runs depends on the type relation and on every argument; the statement ranges over parameter lists of any length and all type graphs", "anchors": ["src/function_type.h: FunctorType, FunctionType", "src/function.tcc: reflectReturn, reflectArguments, Function::Function", "src/dsl/function.h: reflectConstructor, reflectFunction, AddLambdaToType", "src/type.tcc: Type::construct", "src/overloads.cpp: Overloads::add"]}
{"id": "C81", "title": "JSON and objects that pointers share", "statement": "Printing an object with pointers prints the tree that is read by following them: an object shared by several pointers is printed once for each. Objects whose pointers lead around in a cycle are never printed without an error. Parsing changes no object that cannot be reached along pointers from the object parsed into. A smart pointer that is not null is parsed into where it points: it keeps pointing there, and every other pointer to that object sees the parsed contents; a null pointer is made to point to a new object that nothing else points to. null resets a smart pointer and nothing else, so that other pointers keep the object; it leaves a raw pointer as it was, in an object, and is refused, wherever it stands, in an array or a map of raw pointers. Where nothing is shared, parsing into objects does the same as parsing into the tree they stand for, nothing gets shared by it, and all other objects stay as they are.", "quantifier": "every memory of objects with any sharing and any cycles, every type table and every document", "why_tests_cant": "aliasing and cycles range over all pointer graphs; that nothing unreachable changes is a statement about all objects of every memory", "anchors": ["src/utils/json/parser.cpp: PointerParser, ArrayParser, MapParser, ObjectParser", "src/utils/json/printer.cpp: PointerPrinter, ObjectPrinter"]}
{"id": "C82", "title": "Printed JSON is ASCII with EscapeUnicode and UTF-8 with ValidateUnicode", "statement": "Whatever bytes the strings, map keys and aliases of a value contain, everything printed without a reported error consists of ASCII characters when the writer escapes unicode, which it does by default, and is UTF-8 when it validates unicode. Without escapes every code point is copied as it is, and without either option every byte is.", "quantifier": "every value, type description, layout and encoding option", "why_tests_cant": "strings of unbounded length with arbitrary bytes in trees of unbounded size", "anchors": ["src/utils/json/format.cpp: formatString, escapeUnicode, validateUnicode", "src/utils/json/writer.h: Writer::Options", "src/utils/json/printer.tcc"]}
{"id": "C83", "title": "Printing reports an error exactly for strings it cannot write, and stops there", "statement": "json::print of a value leaves an error in the writer exactly if some string value, map key or printed member name in it, at any depth, cannot be written under the options: with EscapeUnicode, one that is not cut into ASCII bytes and complete UTF-8 like sequences; with ValidateUnicode only, one that is not UTF-8; with neither, none. printArray and printObject never go on after an error: the element or member that left it is the last one written; if it is not the last of the list nothing follows it, not even the closing bracket; printArray makes no call-back on a writer with an error. printObject makes the call-back of the member whose key was at fault.", "quantifier": "every value, type description, option, call-back, list of elements and keys", "why_tests_cant": "strings with arbitrary bytes at any depth of trees of unbounded size; arbitrary call-backs", "anchors": ["src/utils/json/format.cpp: formatString", "src/utils/json/printer.tcc: printObject, printArray", "src/utils/json/writer.h: Writer::error", "src/utils/json/printer.cpp"]}
{"id": "C84", "title": "json::parse and json::print may be called by several threads at once", "statement": "Threads may call json::parse at the same time, each on its own value and reader, whatever types they parse and whether or not those types have been parsed before. Whatever the schedule, no thread writes a parser object that another is reading, and no two threads make parsers at the same time; the outcome of every call is what it would be had the same calls been made one after the other, in some order that keeps each thread's own order; no thread waits for ever and every schedule ends. If no type involved is to be refused, each outcome is what the call would give alone in a fresh program. The same holds of json::print.", "quantifier": "every number of threads, list of calls of each, type table, value, document and schedule; each write to a parser object is a step of its own, and a call in progress may read each parser object in any state it has had since the call got its parser", "why_tests_cant": "interleavings of an unbounded number of threads and calls; the race window is between the publication of a half-made parser and its completion", "anchors": ["src/utils/json/parser.cpp: getParserLocked, getParser, parse", "src/utils/json/printer.cpp: getPrinterLocked, getPrinter, print"]}
{"id": "C85", "title": "A reflected vector is a sequence", "statement": "Called through a Value, the functions of a std::vector act on the sequence of its elements: size() is its length; at(i) gives a reference to read the element at i and raises past the end; v[i] gives the element itself, so that what is written to it is then the element at i and no other changes, and past the end its behaviour is undefined; v[i].assign(x) makes the element at i a copy of x, also if x is an element of the vector; clear() empties it; resize(k) cuts it, or adds value-initialised elements until there are k; push_back(x) adds a copy of x at the back, also if x is an element of the vector and also when the elements have to be moved for it, and push_back(x.rvalue()) moves x in. After any history of such calls the elements are those of the sequence after the same history, and no object outside of the vector has changed but moved-from arguments; unless a v[i] of it is past the end. The index may be a variable, a Value or a temporary. Const vectors and temporaries refuse all but size and at. This holds also of classes that derive from the vector.", "quantifier": "every vector of every element size, length and capacity, every memory, growth policy, argument and history of calls", "why_tests_cant": "lengths, capacities and histories are unbounded; aliasing between the argument and the elements only shows when the elements move", "anchors": ["src/types/std/vector.h: reflectTemplate(std::vector)", "src/value.tcc: Value::call", "src/overloads.tcc: Overloads::call", "src/function.tcc: Function::call", "src/utils/json/parser.cpp: ArrayParser", "src/utils/json/printer.cpp: ArrayPrinter"]}
{"id": "C86", "title": "A reflected map is a finite map", "statement": "Called through a Value, the functions of a std::map (and of a std::unordered_map) act on the finite map from keys to values it stands for: size() is the number of its keys; count(k) is 1 if k is a key and 0 if not, and changes nothing; at(k) gives a reference to read the value of k and raises if k is no key; m[k] gives the value of k itself, adding a value-initialised one first if there is none, and no other key gains, loses or changes a value; m[k].assign(x) makes the value of k the content of x, also if x is itself a value of the map; keys() gives a new vector with every key exactly once. A reference to a value stays valid, and still refers to the value of its key, when other keys are added, in whatever order the map keeps its keys then. After any history of such calls the map is the finite map after the same history, and nothing outside of it has changed. The key may be a variable, a Value or a temporary. Const maps and temporaries refuse operator[]. This holds also of classes that derive from the map.", "quantifier": "every map of every key and value size, every number of keys and order of iteration (also one that changes when a key is added), every memory, argument and history of calls", "why_tests_cant": "the number of keys, the order of iteration and the histories are unbounded; validity of references across insertions only fails for some orders", "anchors": ["src/types/std/map.h: details::reflectMap, Reflect<std::map>", "src/value.tcc: Value::call", "src/overloads.tcc: Overloads::call", "src/utils/json/parser.cpp: MapParser", "src/utils/json/printer.cpp: MapPrinter"]}
{"id": "C87", "title": "Reflected smart pointers point, own and delete exactly once", "statement": "Called through a Value, get() of a std::shared_ptr or std::unique_ptr gives the address of the object it holds, operator bool() whether it holds one, operator== whether two hold the same, and operator* the object itself, also of a const pointer; none of them changes anything, and operator* of an empty pointer is undefined. reset(), reset(x), assigning, moving and (of a std::unique_ptr) release() change what the receiver holds, and after a move the source holds nothing; what any other pointer holds does not change. An object is deleted by the call with which the last pointer lets go of it, and only then; release() deletes nothing and returns the address. So in any history of such calls in which each object is handed to a pointer at most once, every object is deleted at most once, and exactly those are deleted that some pointer held, no pointer holds and that were not released; nothing else changes. Assigning or moving a pointer to itself keeps what it holds. Constructing one from a plain pointer, and Value::copy of a std::shared_ptr, add a pointer that takes part in this. A std::unique_ptr refuses to be copied; const pointers and temporaries refuse all calls that would change what they hold.", "quantifier": "every number of pointers, every way they share objects, every memory and every history of calls", "why_tests_cant": "the number of owners, their sharing and the histories are unbounded; a double delete or a leak only shows for some order of calls", "anchors": ["src/types/std/smart_ptr.h: details::reflectSmartPtr, Reflect<std::shared_ptr>, Reflect<std::unique_ptr>", "src/dsl/plumbing.h: reflectPlumbing", "src/value.tcc: Value::call, Value::assign", "src/value.cpp: Value::copy", "src/utils/json/parser.cpp: PointerParser"]}
{"id": "C88", "title": "Parsing changes objects in memory as it changes the values they hold", "statement": "Parsing into an object - a number, string, vector, map, smart pointer or class of such - goes through the reflected functions: construct, assign, field access, push_back, operator[], and, for the pointers, the conversion to bool, operator*, alloc and reset. Whatever the text, it ends as parsing into the value of the object does: with the same error or exception, or having read the same text, and the object then holds exactly the value that parsing gives (C44, C48, C62). It changes no memory that is not part of the object: not its neighbours, nor other objects; the vectors, maps and pointers in it may take new memory, and no two parts of it overlap; null empties a pointer, and an empty pointer gets a new object of its own; a map entry that occurs twice ends with the last value, and a pointer it held is replaced. Hence a document that fits the type is read into the object, and what was printed for a value is read back into an object.", "quantifier": "every type made of numbers, bools, strings, vectors, maps, unique_ptr, shared_ptr and classes, recursive ones too (pointers: each the only owner of what it points to), to any depth; every object of the type anywhere in memory, with any contents and sharing nothing with itself; every text, reader and number of parsers made before", "why_tests_cant": "the claim ranges over all types, memories and texts; an element written over a neighbour, or a moved-from temporary left inside a vector, shows only for some layouts and capacities", "anchors": ["src/utils/json/parser.cpp: BoolParser, IntParser, FloatParser, StringParser, PointerParser, ArrayParser, MapParser, ObjectParser, parse", "src/types/std/smart_ptr.h", "src/value.cpp: Value::assign, Value::rvalue", "src/value.tcc: Value::call, Value::field", "src/type.cpp: Type::construct", "src/types/std/vector.h", "src/types/std/map.h"]}
{"id": "C89", "title": "Printing shows the object in memory and leaves it alone", "statement": "Printing an object - a number, bool, string, vector, map, pointer or class of such - goes through the reflected functions: cast, size, at, keys, the conversion to bool, operator* and field access. Whatever the object, it ends as printing the value it has does (C37, C40, C45): with the same text, error or exception. It changes no memory there was before, so the object and all others keep their values; pointers may share or alias objects. Every object that can be parsed into can be printed, and shows its value, map entries in the order the maps have; and what is printed of one object can be parsed into another one in the same memory, which then holds the value that was printed.", "quantifier": "every type made of numbers, bools, strings, vectors, maps, pointers and classes, recursive ones too, to any depth; every object of the type anywhere in memory, also with shared parts; every writer, set of options and number of printers made before", "why_tests_cant": "the claim ranges over all types, memories and options; an element taken from the wrong place, or a read that changes the object, shows only for some layouts", "anchors": ["src/utils/json/printer.cpp: BoolPrinter, IntPrinter, FloatPrinter, StringPrinter, PointerPrinter, ArrayPrinter, MapPrinter, ObjectPrinter, print", "src/utils/json/printer.tcc: printObject, printArray", "src/value.tcc: Value::call", "src/value.cpp: Value::field, Value::operator*", "src/cast.tcc: cast", "src/types/std/vector.h", "src/types/std/map.h", "src/types/std/smart_ptr.h"]}
{"id": "C90", "title": "A reflected std::map lists its keys in ascending order", "statement": "Whatever history of m[k] and m[k].assign(x) a reflected std::map has been through, keys() gives its keys in ascending order of std::less, each once, so that what it lists depends only on what it holds and not on the order in which entries came or where they lie. Hence the JSON of objects whose maps are std::maps from strings is canonical: two objects with the same value print the same text, or fail in the same way, wherever they are in memory and however they came to have it; in particular an object and the one its printed text was parsed into.", "quantifier": "every strict total order of the keys, every history of calls, every memory, and for printing every type made of numbers, bools, strings, vectors, std::maps, pointers and classes, every writer and options", "why_tests_cant": "the order of a map shows only for some sequences of keys; the histories, maps and memories are unbounded", "anchors": ["src/types/std/map.h: details::reflectMap, Reflect<std::map>", "src/utils/json/printer.cpp: MapPrinter", "src/utils/json/parser.cpp: MapParser", "src/value.tcc: Value::call"]}
{"id": "C91", "title": "Adding reflected numbers", "statement": "v.call<Value>(\"operator+\", x) for a reflected number v and an x that can be given as one is their sum, as a new object; neither is changed. For types narrower than int the sum is an int and always exact. For int and wider signed types it is exact if it fits, and undefined if not. For unsigned types it is the sum modulo 2^w. Asking for the type of the sum gives the number itself; asking for the narrow type is refused before anything runs. Adding any number of them, one to the sum of those before, gives the total modulo 2^w for unsigned types; for signed ones the exact total if every sum on the way fits, and an undefined program if one does not.", "quantifier": "every integer type (width and sign), every two numbers of it, every list of numbers to add, every memory, arguments given as values, objects or temporaries", "why_tests_cant": "2^64 pairs and unbounded lists; the sums that wrap or overflow are few", "anchors": ["src/types/primitives.tcc: reflectNumberImpl, operator+", "src/types/primitives.h", "src/value.tcc: Value::call", "src/cast.cpp: cast"]}
{"id": "C92", "title": "The limits of reflected numbers", "statement": "The type of every reflected integer has the traits min and max, and whenever getValue<T> reads them - provided nobody wrote to them - they are the least and the greatest number of T: the numbers of T are exactly those in between. Describing a type that has one of these traits already raises. Adding them changes no other memory and no other trait. A hazard: getValue<T&> hands out the number that the type keeps, so a write to it changes the limit for everyone. For a floating point type max is the greatest finite number and its negative the least, but min is not the least number: it is the least positive number of full precision.", "quantifier": "every width and sign, every binary format of IEEE 754, every memory and set of traits before, every state of the memory in which the traits are read", "why_tests_cant": "all widths and all later states of the memory; a limit that is off by one shows only at the limit", "anchors": ["src/types/primitives.tcc: reflectLimit, reflectNumberImpl", "src/traits.tcc: Traits::addTrait, Traits::getValue"]}
{"id": "C93", "title": "The standard names of the number types", "statement": "Besides the names under which they are reflected (short int, ...) the integer types can be looked up by their standard names: short, unsigned long, ..., size_t, intptr_t, int8_t, uint_fast16_t, .... The library registers these names without an error, in any state of the registry and before or after the types themselves, exactly if none of them is an alias already, and this changes nothing else. From then on, whatever the program does, a standard name gives the same type as the name of the type it stands for (unless the program itself makes that name an alias), and two standard names give the same type exactly if the compiler does. After start-up every fundamental type, void included, can be looked up by its own name and by all its standard names.", "quantifier": "every compiler's choice of typedefs, every history before, between and after, every order of static initialisation", "why_tests_cant": "tests run on one platform and in one order of static initialisation", "anchors": ["src/types/primitives.cpp: PrimitiveAliases", "src/types/primitives.h", "src/dsl/basics.h: reflectAlias", "src/registry.cpp: Registry::alias, Registry::get"]}
{"id": "C94", "title": "A program that parses and prints may think of its objects as values", "statement": "json::parse(text, object) returns the error, or raises the exception, of parsing the text with the default options into the value of the object, which it then has; json::print(writer, object) writes what printing its value does and changes nothing. So a program that holds any number of objects, none of which is part of another, and makes any sequence of such calls on them - what it parses may depend on what was printed and reported before - learns exactly what it would learn if its objects were plain values: the same errors and texts, up to the first exception. Afterwards its objects have those values, are still apart from each other, and no other memory has changed. In particular, printing an object and parsing the text into another copies it.", "quantifier": "every number of objects, of all types of C88 whose maps are std::maps; every sequence of calls, adaptive or not, every text, every state of the caches", "why_tests_cant": "every sequence of calls and every interference between objects, none of which a test of one call sees", "anchors": ["src/utils/json/parser.tcc: parse(const std::string&, T&)", "src/utils/json/printer.tcc: print(Writer&, const T&)", "src/cast.h: Cast<T, Value>", "src/utils/json/parser.cpp", "src/utils/json/printer.cpp"]}
{"id": "C95", "title": "The JSON reader says what is wrong, and where", "statement": "When the text does not go on with a token, the error's text is line:column: message with the message that belongs to what is there: a character no token starts with, a comment that is not allowed, a word that is not null, true or false, a string with a line break, an unknown escape, a digit that is not hexadecimal, a byte that starts no UTF-8 sequence, a sequence that is broken off or longer than needed, or no end; what is left of the text is what comes after the place where this shows. There are no other errors of this kind. When a token is asked for and another one is next, the message names both: the type, and the text of a string, number or truth value; a zero byte in a string ends the name and the bracket behind it. At the end of the text the other one is eos. Whatever is parsed, as whatever type, the error a reader ends with has a text, and it is the whole message unless it is about a token of more than 960 bytes.", "quantifier": "every beginning of a text, every malformed continuation, all reader options; every token and every type asked for; for parsing every type environment and every text", "why_tests_cant": "the ways to go wrong are as many as the texts; tests compare a few messages", "anchors": ["src/utils/json/reader.tcc: Reader::error", "src/utils/json/reader.cpp: expectToken, assertToken", "src/utils/json/token.cpp: readLiteral, readString, readUnicode, validateUnicode, nextToken, print", "src/utils/json/token.h", "src/error.cpp: verrorFormat", "src/error.h: errorConvert"]}
{"id": "C96", "title": "Which real numbers survive JSON", "statement": "If the C library converts correctly - std::stod gives the nearest double, and the same one for equal numbers; %1.12g rounds to twelve significant digits - then: a double is printed as a number of JSON exactly if it is finite, and what is printed differs from it by no more than half a unit of the twelfth digit; it is printed without point and exponent exactly if that is a whole number below 10^12 in absolute value. A decimal number of at most twelve significant digits in the normal range of a double is read as a double that is printed as the same number, and reading that gives the same double; parsing a JSON number with a point or an exponent and printing the double gives a JSON number that stands for the same. Through JSON the double comes back, unless the number is a whole number below 10^12: then the parser raises on what is printed. Every double in the range is printed the same after it has been printed and read once. Of two doubles of the same sign that are as near as a few units in the last place to a number of twelve digits at most one comes back: they are printed alike.", "quantifier": "every text of a number, every double, every state of the caches, every C library that converts correctly; for JSON all options and type environments", "why_tests_cant": "2^64 doubles and all texts; where digits are lost depends on the last bits", "anchors": ["src/utils/json/format.cpp: formatFloat", "src/utils/json/token.cpp: Token::asFloat", "src/utils/json/parser.tcc: parseFloat", "src/utils/json/printer.tcc: printFloat"]}
{"id": "C97", "title": "C++ types and kinds of JSON values", "statement": "Every number type, std::string, every pointer, shared_ptr, unique_ptr, vector and map, as the library describes them, is read and written as the one kind of JSON value it stands for (truth value, integer, real number, string, null or pointee, array or object of the element type); void as any value; a class whose description gives it no trait of these as an object, or by the functions its trait json names. A custom parser or printer of a type with one of the traits bool, float, integer, string, map, list is ignored. A type given both traits float and integer is read as a real number and written as an integer. The members of a class are the fields it declares or inherits, each once and in the order of their names; the member of a name has the type and the trait json of the field of the closest of the class and its ancestors that declares it.", "quantifier": "every acyclic table of types; every element type, capability set and name of the described type; every history of calls describing a class", "why_tests_cant": "unboundedly many types and descriptions; the kind is decided by traits found under run-time names", "anchors": ["src/utils/json/parser.cpp: getParser, customParser", "src/utils/json/printer.cpp: getPrinter, customPrinter", "src/types/primitives.tcc: reflectNumberImpl", "src/types/primitive_void.cpp", "src/types/pointer.h", "src/types/std: vector.h, map.h, smart_ptr.h, string.cpp"]}

import json
props=[json.loads(l) for l in open('/verif/properties.jsonl')]
plan={
"scope names":("C01 C02","`Model/ScopeName`: `head`, `tail`, `join` character by character. Full characterisation against `Spec/ScopeName` (component = balanced, no bare colon), then round trips by induction on the component list."),
"scope tree":("C03 C04 C05 C06 C07","`Model/Scope`: the tree of scopes, each method returning the new tree and the outcome, also on error. Invariant/refinement to sets of component paths; false parts (C05, C06) get a concrete witness and a `_partial` theorem."),
"registry":("C08 C09 C10 C11 C12 C13 C14","`Model/Registry`: tables types/aliases/loaders; a loader is a script of registry operations. Termination by the number of unused loaders. Histories are lists of operations; invariants by induction. C14 in `Model/RegistryConc`: each table access a separate atomic step, any interleaving; witness + partial."),
"types":("C15 C16 C17 C18 C19 C20","`Model/TypeGraph`: an arbitrary finite table of types with parents, pointers, members. `isChildOf` with fuel that stands for the C++ stack; equal to an inductively defined subtype relation whenever the graph is acyclic."),
"arguments":("C21 C22 C23 C24 C25 C26","`Model/Argument`: `isConvertibleTo`, `testReturn`, `testArguments` over an abstract type graph (parent relation, converter relation, distinguished Value type). Compared with a declarative table."),
"overloads":("C27 C28 C29 C30 C31","`Model/Overloads`: list of functions; call/get/test/add. Spec by filter of exact/partial candidates; permutations by `List.Perm`."),
"values":("C32 C33 C34 C35 C36 C37 C38","`Model/Cast`, `Model/Ownership`: heap of objects with addresses, value handles with (type, const, ref, address, owner); reference counts for shared storage; function handles."),
"json":("C39 C40 C41 C42 C43 C44 C45 C46 C47 C48 C49 C50 C51 C52 C53 C54 C55","`Model/Json*`: byte stream with libstdc++ eof/fail bits, tokenizer, parser and printer over a nominal type environment. Round trips by induction on values; termination by stream length."),
"config":("C56 C57 C58","`Model/Path`, `Model/Node`: split/format, lexicographic order, trie with refinement to a finite map path -> set of links."),
"errors":("C59","`Model/ErrorFormat`: buffer of 1024 possibly-indeterminate bytes."),
}

p='/tmp/w/props.py'; s=open(p).read()
s=s.replace("# --- more",'''p("A reflected std::map lists its keys in ascending order",
 "Whatever history of m[k] and m[k].assign(x) a reflected std::map has been through, keys() gives its keys in ascending order of std::less, each once, so that what it lists depends only on what it holds and not on the order in which entries came or where they lie. Hence the JSON of objects whose maps are std::maps from strings is canonical: two objects with the same value print the same text, or fail in the same way, wherever they are in memory and however they came to have it; in particular an object and the one its printed text was parsed into.",
 "every strict total order of the keys, every history of calls, every memory, and for printing every type made of numbers, bools, strings, vectors, std::maps, pointers and classes, every writer and options",
 "the order of a map shows only for some sequences of keys; the histories, maps and memories are unbounded",
 ["src/types/std/map.h: details::reflectMap, Reflect<std::map>", "src/utils/json/printer.cpp: MapPrinter", "src/utils/json/parser.cpp: MapParser", "src/value.tcc: Value::call"])

# --- more''',1)
open(p,'w').write(s)
p='/tmp/w/notes.py'; s=open(p).read().rstrip()
assert s.endswith('}')
s=s[:-1]+"""'C90':('proved','C90_keys: the list that keys() gives; C90_history: any number of calls; C90_same: two maps, anywhere; C90_print, C90_same_text, C90_copy: JSON. That the keys ascend is part of IsMap (Spec/MapFns.lean), which C86 and C88 show to hold after every call and every parse. OrderDemo: a std::map with keys of two cells; PlaceDemo: a std::map of strings.'),
}
"""
open(p,'w').write(s)
p='/verif/DESIGN.md'; L=open(p).read().split('\n')
i=[k for k,l in enumerate(L) if l.startswith('| C89 |')][0]
L.insert(i+1,"| C90 | The map model of C86 with a `std::less`: a new node goes behind those with lesser keys (`Heap.place`). `IsMap` asks of a `std::map` that its keys ascend; insertion keeps it (induction on the nodes), writes to values and other memory too, so C86 and C88 carry it through every history and every parse. Ascending lists with the same lookup are equal. For JSON: `Rep` of an object whose maps are all `std::map`s implies `Shows` of exactly its value (induction on `Rep`), and C89 gives the text. |")
open(p,'w').write('\n'.join(L))
p='Verif.lean'; s=open(p).read()
s=s.replace("import Verif.Props.JsonPlacePrint\n","import Verif.Props.JsonPlacePrint\nimport Verif.Props.MapOrder\nimport Verif.Spec.JsonSorted\nimport Verif.Props.JsonSorted\n")
open(p,'w').write(s)

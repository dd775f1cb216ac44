s=open('props.py').read()
s=s.replace("# --- more","""p("A program that parses and prints may think of its objects as values",
 "json::parse(text, object) returns the error, or raises the exception, of parsing the text with the default options into the value of the object, which it then has; json::print(writer, object) writes what printing its value does and changes nothing. So a program that holds any number of objects, none of which is part of another, and makes any sequence of such calls on them - what it parses may depend on what was printed and reported before - learns exactly what it would learn if its objects were plain values: the same errors and texts, up to the first exception. Afterwards its objects have those values, are still apart from each other, and no other memory has changed. In particular, printing an object and parsing the text into another copies it.",
 "every number of objects, of all types of C88 whose maps are std::maps; every sequence of calls, adaptive or not, every text, every state of the caches",
 "every sequence of calls and every interference between objects, none of which a test of one call sees",
 ["src/utils/json/parser.tcc: parse(const std::string&, T&)", "src/utils/json/printer.tcc: print(Writer&, const T&)", "src/cast.h: Cast<T, Value>", "src/utils/json/parser.cpp", "src/utils/json/printer.cpp"])

# --- more""",1)
open('props.py','w').write(s)
s=open('notes.py').read().rstrip()
assert s.endswith('}')
s=s[:-1]+"""'C94':('proved','C94_parse, C94_print: one call; C94_session: any sequence; C94_copy: an instance of it. A call that raises ends the sequence, as it leaves its object half parsed. json::print(std::ostream&, object) and json::print(object) are not modelled: they call parse on the output stream, which no overload takes, so they cannot be instantiated. The hypotheses on the reflected functions are those of C88 and C89; PlaceDemo: two maps.'),
}
"""
open('notes.py','w').write(s)
f='/verif/DESIGN.md'
s=open(f).read()
i=s.index("| C93 |"); j=s.index("\n",i)+1
s=s[:j]+"| C94 | `json::parse(text, object)` and `json::print(writer, object)` (parser.tcc, printer.tcc) and adaptive sequences of them over `k` objects in one memory (Model/Json/Session), against the same sequence on `k` values (Spec/JsonSession). Induction on the calls with C88 and C90; the footprints of the objects stay apart. |\n"+s[j:]
open(f,'w').write(s)
f='/verif/lean/Verif.lean'
s=open(f).read()
s=s.replace("import Verif.Props.NumberNames\n","import Verif.Props.NumberNames\nimport Verif.Model.Json.Session\nimport Verif.Spec.JsonSession\nimport Verif.Props.JsonSession\n")
open(f,'w').write(s)

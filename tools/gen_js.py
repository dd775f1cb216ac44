def lean_str(path):
    s=open(path).read().rstrip()
    lines=s.split("\n")
    esc=lambda l:l.replace("\\","\\\\").replace('"','\\"')
    return lines,esc
def block(name,path,doc):
    lines,esc=lean_str(path)
    out=f"/-- {doc} -/\ndef {name} : List String := [\n"
    out+=",\n".join('  "'+esc(l)+'"' for l in lines)
    return out+"]\n"
T="/repo/tests/utils/json/"
o=open("/verif/lean/Verif/Conform/JsonTyped.lean","w")
o.write('''import Verif.Model.Json.Typed
import Verif.Conform.JsonText
/-
  tests/utils/json/value_parser_test.cpp, value_printer_test.cpp and printer_test.cpp.

  * Raw pointers are treated as the smart pointers of the model; what the tests do with them is the same.
  * `std::stod` and `snprintf` of the two floating point numbers that occur are given.
  * `value_printer_full.json` has no `"bob": 0` in the nested objects: `json::alias` leaves `skipEmpty`
    uninitialised (traits.cpp:14) and the file records a run in which it was found to be `true`; so `junk` is `true`.
-/
namespace Reflect.Conform.Json
open Reflect Reflect.Json

/-- the lines of a file, each ended as in the file, without what ends the last one -/
def lines : List String → Bytes
  | [] => []
  | [l] => b l
  | l :: ls => b l ++ [10] ++ lines ls

''')
for n in ["generic.json","value_parser.json","value_printer_compact.json","value_printer_full.json"]:
    o.write(block(n.replace(".json","").replace("value_","").replace("generic","genericFile").replace("parser","parserFile").replace("printer_compact","compactFile").replace("printer_full","fullFile"),T+n,"tests/utils/json/"+n))
    o.write("\n")
o.write(open("/tmp/w/js_tail.lean").read())

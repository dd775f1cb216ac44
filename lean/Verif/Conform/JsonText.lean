import Verif.Model.Json.Writer
import Verif.Model.Json.Parser
import Verif.Model.Config.Path
/-
  tests/utils/json/reader_test.cpp, format_test.cpp and parser_test.cpp; `parsing` of tests/path_test.cpp.
  (Numbers with a fraction are checked up to `std::stod`, whose text is what the model keeps.)
-/
namespace Reflect.Conform.Json
open Reflect Reflect.Json

/-- the bytes of a text of ASCII characters -/
def b (s : String) : Bytes := s.toList.map fun c => UInt8.ofNat c.toNat
/-- the test's `s`: a text in quotes -/
def q (s : Bytes) : Bytes := [34] ++ s ++ [34]
def none_ : ROpts := ⟨false, false, false⟩
def validate : ROpts := ⟨false, false, true⟩
def comments : ROpts := ⟨true, false, false⟩

/-! ### reader_test.cpp -/

/-- `checkToken(s, type)`: `expectToken` has no error to report -/
def isTok (s : Bytes) (t : TokType) (o : ROpts := ROpts.default) : Bool :=
  match (Reader.open o s).expectToken t with
  | .ok (tok, r) => tok.type == t && r.err.isNone
  | .error _ => false
def isBool (s : Bytes) (x : Bool) : Bool := match (Reader.open ROpts.default s).expectToken .bool with
  | .ok (t, r) => r.err.isNone && (match t.asBool r with | .ok y => x == y | _ => false)
  | .error _ => false
def isInt (s : Bytes) (x : Int) : Bool := match (Reader.open ROpts.default s).expectToken .int with
  | .ok (t, r) => r.err.isNone && (match t.asInt r with | .ok y => x == y | _ => false)
  | .error _ => false
def isFloat (s x : Bytes) : Bool := match (Reader.open ROpts.default s).expectToken .float with
  | .ok (t, r) => r.err.isNone && (match t.asFloatText r with | .ok y => x == y | _ => false)
  | .error _ => false
def isStr (s x : Bytes) (o : ROpts := ROpts.default) : Bool := match (Reader.open o s).expectToken .string with
  | .ok (t, r) => r.err.isNone && (match t.asString r with | .ok y => x == y | _ => false)
  | .error _ => false
/-- `errorToken(s)` -/
def bad (s : Bytes) (o : ROpts := ROpts.default) : Bool := match (Reader.open o s).nextToken with
  | .ok (_, r) => r.err.isSome
  | .error _ => false

-- test_basics
example : isTok (b "") .eos := by decide +kernel
example : isTok (b " ") .eos := by decide +kernel
example : isTok (b "{") .objectStart := by decide +kernel
example : isTok (b "}") .objectEnd := by decide +kernel
example : isTok (b "[") .arrayStart := by decide +kernel
example : isTok (b "]") .arrayEnd := by decide +kernel
example : isTok (b ",") .separator := by decide +kernel
example : isTok (b ":") .keySeparator := by decide +kernel
example : bad (b "<") := by decide +kernel
example : isTok (b "null") .null := by decide +kernel
example : bad (b "nul") := by decide +kernel
example : bad (b "nul l") := by decide +kernel
example : isBool (b "true") true := by decide +kernel
example : isBool (b "false") false := by decide +kernel
example : isTok (b "   ,") .separator := by decide +kernel
example : isTok (b " \t  ,") .separator := by decide +kernel
example : isTok (b " \n  ,") .separator := by decide +kernel
example : isTok (b " // weeeeeeeee\n,") .separator comments := by decide +kernel
example : bad (b " // weeeeeeeee\n,") := by decide +kernel

-- test_number
example : isInt (b "123") 123 := by decide +kernel
example : isInt (b "-123") (-123) := by decide +kernel
example : isInt (b "000001") 1 := by decide +kernel
example : ∀ s ∈ ["0.1", "-0.1", "123.321", "123e10", "123E10", "123e-10", "123e+10", "1.23e4", "123.456e78"],
    isFloat (b s) (b s) := by decide +kernel
example : bad (b ".1") := by decide +kernel
example : isFloat (b "1.1.1") (b "1.1") := by decide +kernel

-- test_string
example : isStr (q (b "abc")) (b "abc") := by decide +kernel
example : isStr (q (b "\\/")) (b "/") := by decide +kernel
example : isStr (q (b "\\b")) [8] := by decide +kernel
example : isStr (q (b "\\f")) [12] := by decide +kernel
example : isStr (q (b "\\n")) [10] := by decide +kernel
example : isStr (q (b "\\r")) [13] := by decide +kernel
example : isStr (q (b "\\t")) [9] := by decide +kernel
example : isStr (q (b "\\\\")) [92] := by decide +kernel
example : isStr (q (b "\\\"")) [34] := by decide +kernel
example : bad (q (b "\\g")) := by decide +kernel
example : bad (q (b "\n")) := by decide +kernel

/-- U+1234, U+FFFF, U+0FFF and U+00FF in UTF-8 -/
def u1234 : Bytes := [0xE1, 0x88, 0xB4]
def uFFFF : Bytes := [0xEF, 0xBF, 0xBF]
def u0FFF : Bytes := [0xE0, 0xBF, 0xBF]
def u00FF : Bytes := [0xC3, 0xBF]

example : ∀ s ∈ [u1234, uFFFF, u0FFF, u00FF, [0x0F], [48] ++ u1234 ++ [53], u1234 ++ u1234], isStr (q s) s := by
  decide +kernel
example : isStr (q (b "\\u1234")) u1234 := by decide +kernel
example : isStr (q (b "\\uFFFF")) uFFFF := by decide +kernel
example : isStr (q (b "\\u0FFF")) u0FFF := by decide +kernel
example : isStr (q (b "\\u00FF")) u00FF := by decide +kernel
example : isStr (q (b "\\u000F")) [0x0F] := by decide +kernel
example : isStr (q (b "0\\u12345")) ([48] ++ u1234 ++ [53]) := by decide +kernel
example : ∀ s ∈ ["\\u123", "\\u123G", "\\uG234"], bad (q (b s)) ∧ bad (q (b s)) validate := by decide +kernel
example : isStr (q (b "\\u1234")) (b "\\u1234") validate := by decide +kernel
example : isStr (q [0xCF, 0x8F]) [0xCF, 0x8F] := by decide +kernel
example : ∀ s ∈ ([[0xF0], [0xC0, 0x8F], [0xE0, 0x8F], [0xE0, 0x8F, 0x0F]] : List Bytes),
    isStr (q s) s none_ ∧ bad (q s) := by decide +kernel

/-! ### format_test.cpp -/

def wNone : WOpts := ⟨false, false, false, false⟩
def wValidate : WOpts := ⟨false, false, false, true⟩
def fmt (s : Bytes) (o : WOpts := WOpts.default) : Option Bytes := match formatString { opts := o } s with
  | .ok w => if w.err.isNone then some w.out else none
  | .error _ => none
/-- `checkError` -/
def fmtBad (s : Bytes) (o : WOpts) : Bool := match formatString { opts := o } s with
  | .ok w => w.err.isSome
  | .error _ => false

example : (formatNull { opts := WOpts.default }).out = b "null" := by decide +kernel
example : (formatBool { opts := WOpts.default } false).out = b "false" := by decide +kernel
example : (formatBool { opts := WOpts.default } true).out = b "true" := by decide +kernel
example : (formatInt { opts := WOpts.default } 123).out = b "123" := by decide +kernel
example : (formatInt { opts := WOpts.default } (-123)).out = b "-123" := by decide +kernel

example : fmt (b "abc") = some (q (b "abc")) := by decide +kernel
example : fmt (b "/") = some (q (b "\\/")) := by decide +kernel
example : fmt [34] = some (q (b "\\\"")) := by decide +kernel
example : fmt [92] = some (q (b "\\\\")) := by decide +kernel
example : fmt [8] = some (q (b "\\b")) := by decide +kernel
example : fmt [12] = some (q (b "\\f")) := by decide +kernel
example : fmt [10] = some (q (b "\\n")) := by decide +kernel
example : fmt [13] = some (q (b "\\r")) := by decide +kernel
example : fmt [9] = some (q (b "\\t")) := by decide +kernel
example : fmt u1234 = some (q (b "\\u1234")) := by decide +kernel
example : fmt u1234 wNone = some (q u1234) := by decide +kernel
example : fmt u1234 wValidate = some (q u1234) := by decide +kernel
example : fmt uFFFF = some (q (b "\\uffff")) := by decide +kernel
example : fmt u0FFF = some (q (b "\\u0fff")) := by decide +kernel
example : fmt u00FF = some (q (b "\\u00ff")) := by decide +kernel
example : fmt [0x0F] = some (q [0x0F]) := by decide +kernel
example : fmt ([48] ++ u1234 ++ [53]) = some (q (b "0\\u12345")) := by decide +kernel
example : fmt (u1234 ++ u1234) = some (q (b "\\u1234\\u1234")) := by decide +kernel
example : fmt (b "\\u1234") = some (q (b "\\\\u1234")) := by decide +kernel
example : fmt [0xCF, 0x8F] wValidate = some (q [0xCF, 0x8F]) := by decide +kernel
example : ∀ s ∈ ([[0xF0], [0xC0, 0x8F], [0xE0, 0x8F], [0xE0, 0x8F, 0x0F]] : List Bytes),
    fmt s wNone = some (q s) ∧ fmtBad s wValidate := by decide +kernel

/-! ### parser_test.cpp -/

/-- the test's items: a path and a leaf -/
inductive Leaf where
  | null | bool (x : Bool) | int (i : Int) | float (text : Bytes) | str (s : Bytes)
  deriving DecidableEq

/-- `PathParser::parse`, parser_test.cpp:107-146 -/
def pathParse : Nat → Bytes → List (Bytes × Leaf) → Reader → Res (List (Bytes × Leaf) × Reader)
  | 0, _, _, _ => .error .diverge
  | n + 1, pre, items, r => do
    let p ← r.peekToken
    match p.1.type with
    | .null => do let x ← p.2.nextToken; .ok (items ++ [(pre, .null)], x.2)
    | .bool => do let x ← parseBool p.2; .ok (items ++ [(pre, .bool x.1)], x.2)
    | .int => do let x ← parseInt p.2; .ok (items ++ [(pre, .int x.1)], x.2)
    | .float => do let x ← parseFloatText p.2; .ok (items ++ [(pre, .float x.1)], x.2)
    | .string => do let x ← parseString p.2; .ok (items ++ [(pre, .str x.1)], x.2)
    | .arrayStart => parseArray (fun i a r => pathParse n (pre ++ [46] ++ decDigits i) a r) 20 items p.2
    | .objectStart => parseObject (fun k a r => pathParse n (pre ++ [46] ++ k) a r) 20 items p.2
    | _ => .error .err

/-- `check(str, exp)` -/
def parses (s : String) (exp : List (String × Leaf)) : Bool :=
  match pathParse 9 [] [] (Reader.open ROpts.default (b s)) with
  | .ok (items, r) => r.err.isNone && items == exp.map fun x => (b x.1, x.2)
  | .error _ => false

example : parses "null" [("", .null)] := by decide +kernel
example : parses "true" [("", .bool true)] := by decide +kernel
example : parses "false" [("", .bool false)] := by decide +kernel
example : parses "123" [("", .int 123)] := by decide +kernel
example : parses "123.321" [("", .float (b "123.321"))] := by decide +kernel
example : parses "\"hello\"" [("", .str (b "hello"))] := by decide +kernel
example : parses "[]" [] := by decide +kernel
example : parses "[ true ]" [(".0", .bool true)] := by decide +kernel
example : parses "[ null, true, false, 123, 123.321, \"hello\" ]"
    [(".0", .null), (".1", .bool true), (".2", .bool false), (".3", .int 123), (".4", .float (b "123.321")),
     (".5", .str (b "hello"))] := by decide +kernel
example : parses "[ [ true ] ]" [(".0.0", .bool true)] := by decide +kernel
example : parses "[ 1, [ 2 ], [], 3 ]" [(".0", .int 1), (".1.0", .int 2), (".3", .int 3)] := by decide +kernel
example : parses "{}" [] := by decide +kernel
example : parses "{ \"a\": true }" [(".a", .bool true)] := by decide +kernel
example : parses "{ \"a\": null, \"b\": true, \"c\": 123, \"d\": \"hello\" }"
    [(".a", .null), (".b", .bool true), (".c", .int 123), (".d", .str (b "hello"))] := by decide +kernel
example : parses "{ \"a\": { \"b\": true } }" [(".a.b", .bool true)] := by decide +kernel
example : parses "{ \"a\": [ 1, 2 ] }" [(".a.0", .int 1), (".a.1", .int 2)] := by decide +kernel
example : parses "{ \"a\": 1, \"b\": { \"c\": 2 }, \"d\": {}, \"e\": 3 }"
    [(".a", .int 1), (".b.c", .int 2), (".e", .int 3)] := by decide +kernel

/-! ### path_test.cpp, `parsing` -/

example : ∀ s ∈ ["a", "a.b.c", "a.0", "a.0.c"],
    ((match Config.Path.ofText (b s) with | .ok p => some (p.toText) | .error _ => none) : Option Bytes) = some (b s) := by
  decide +kernel

end Reflect.Conform.Json

import Verif.Model.Json.Typed
import Verif.Conform.JsonText
/-
  tests/utils/json/value_parser_test.cpp, value_printer_test.cpp and printer_test.cpp.

  * Raw pointers are treated as the smart pointers of the model; what the tests do with them is the same.
  * `std::stod` and `snprintf` of the two floating point numbers that occur are given.
  * `value_printer_full.json` has no `"bob": 0` in the nested objects: `json::alias` leaves `skipEmpty`
    uninitialised (traits.cpp:14) and the file records a run in which it was found to be `true`; so `junk` is `true`.
-/
namespace Reflect.Conform.Json
open Reflect Reflect.Json

/-- the lines of a file, each ended as in the file, without what ends the last one -/
def lines : List String → Bytes
  | [] => []
  | [l] => b l
  | l :: ls => b l ++ [10] ++ lines ls

/-- tests/utils/json/generic.json -/
def genericFile : List String := [
  "{",
  "    \"null\": null,",
  "    \"bool\": true,",
  "    \"int\": 123,",
  "    \"float\": 123.321,",
  "    \"string\": \"abc\",",
  "    \"array\": [",
  "        1,",
  "        [ 2 ],",
  "        { \"3\": 4 }",
  "    ],",
  "    \"object\": {",
  "        \"a\": 1,",
  "        \"b\": [ 2 ],",
  "        \"c\": { \"3\": 4 }",
  "    }",
  "}"]

/-- tests/utils/json/value_parser.json -/
def parserFile : List String := [
  "{",
  "    \"boolean\": true,",
  "    \"integer\": 123,",
  "    \"floating\": 123.321,",
  "",
  "    \"string\": \"abc\",",
  "    \"stringPtr\": \"def\",",
  "    \"stringShared\": \"ghi\",",
  "",
  "    \"nullPtr\": null,",
  "    \"nullShared\": null,",
  "",
  "    \"skip\": 456,",
  "    \"bob\": 654,",
  "    \"custom\": \"789\",",
  "",
  "    \"vector\": [ 1, 2, 3 ],",
  "    \"vectorPtr\": [ 4, 5, 6 ],",
  "",
  "    \"map\": { \"abc\": 10, \"def\": 20 },",
  "    \"mapPtr\": { \"hig\": 30 },",
  "",
  "    \"next\": {",
  "        \"integer\": 10,",
  "        \"next\": { \"integer\": 20 }",
  "    }",
  "}"]

/-- tests/utils/json/value_printer_compact.json -/
def compactFile : List String := [
  "{",
  "    \"bob\": 654,",
  "    \"boolean\": true,",
  "    \"custom\": \"789\",",
  "    \"floating\": 123.321,",
  "    \"integer\": 123,",
  "    \"map\": { \"abc\": 10, \"def\": 20 },",
  "    \"mapPtr\": { \"hig\": 30 },",
  "    \"next\": {",
  "        \"boolean\": false,",
  "        \"custom\": \"0\",",
  "        \"integer\": 10,",
  "        \"next\": {",
  "            \"boolean\": false,",
  "            \"custom\": \"0\",",
  "            \"integer\": 20",
  "        }",
  "    },",
  "    \"string\": \"abc\",",
  "    \"stringPtr\": \"def\",",
  "    \"stringShared\": \"ghi\",",
  "    \"vector\": [ 1, 2, 3 ],",
  "    \"vectorPtr\": [ 4, 5, 6 ]",
  "}"]

/-- tests/utils/json/value_printer_full.json -/
def fullFile : List String := [
  "{",
  "    \"bob\": 654,",
  "    \"boolean\": true,",
  "    \"custom\": \"789\",",
  "    \"floating\": 123.321,",
  "    \"integer\": 123,",
  "    \"map\": {",
  "        \"abc\": 10,",
  "        \"def\": 20",
  "    },",
  "    \"mapPtr\": { \"hig\": 30 },",
  "    \"next\": {",
  "        \"boolean\": false,",
  "        \"custom\": \"0\",",
  "        \"floating\": 0,",
  "        \"integer\": 10,",
  "        \"map\": {  },",
  "        \"mapPtr\": {  },",
  "        \"next\": {",
  "            \"boolean\": false,",
  "            \"custom\": \"0\",",
  "            \"floating\": 0,",
  "            \"integer\": 20,",
  "            \"map\": {  },",
  "            \"mapPtr\": {  },",
  "            \"nullPtr\": null,",
  "            \"nullShared\": null,",
  "            \"string\": \"\",",
  "            \"stringPtr\": null,",
  "            \"stringShared\": null,",
  "            \"vector\": [  ],",
  "            \"vectorPtr\": [  ]",
  "        },",
  "        \"nullPtr\": null,",
  "        \"nullShared\": null,",
  "        \"string\": \"\",",
  "        \"stringPtr\": null,",
  "        \"stringShared\": null,",
  "        \"vector\": [  ],",
  "        \"vectorPtr\": [  ]",
  "    },",
  "    \"nullPtr\": null,",
  "    \"nullShared\": null,",
  "    \"string\": \"abc\",",
  "    \"stringPtr\": \"def\",",
  "    \"stringShared\": \"ghi\",",
  "    \"vector\": [",
  "        1,",
  "        2,",
  "        3",
  "    ],",
  "    \"vectorPtr\": [",
  "        4,",
  "        5,",
  "        6",
  "    ]",
  "}"]

/-! ### `getParser` and `getPrinter` by structural recursion, so that the kernel can run them -/

def initInnerS (get : TyId → PCache → Res Unit × PCache) (ty : TyId) (st : PState) : Option TyId → PCache → Res Unit × PCache
  | none, c => (.error .err, c)
  | some t, c =>
    let p := get t c
    match p.1 with
    | .error e => (.error e, p.2)
    | .ok _ => (.ok (), Assoc.set p.2 ty { st with inner := some t })

def initFieldsS (get : TyId → PCache → Res Unit × PCache) (ty : TyId) : List FieldD → PState → PCache → Res Unit × PCache
  | [], _, c => (.ok (), c)
  | f :: fs, st, c =>
    match f.alias? with
    | none => initFieldsS get ty fs st c
    | some a =>
      if (Assoc.get st.keys a).isSome then (.error .err, c)
      else
        let st1 := { st with keys := Assoc.set st.keys a f.name }
        let p := get f.type (Assoc.set c ty st1)
        match p.1 with
        | .error e => (.error e, p.2)
        | .ok _ =>
          let st2 := { st1 with fields := Assoc.emplace st1.fields f.name f.type }
          initFieldsS get ty fs st2 (Assoc.set p.2 ty st2)

def getParserS (env : Env) : Nat → TyId → PCache → Res Unit × PCache
  | 0, _, c => (.error .diverge, c)
  | n + 1, ty, c =>
    match Assoc.get c ty with
    | some _ => (.ok (), c)
    | none =>
      match env.types[ty]? with
      | none => (.error .ub, c)
      | some d =>
        let st : PState := { kind := d.parserKind }
        let c := Assoc.set c ty st
        match d.parserKind with
        | .bool | .float | .int | .string | .value => (.ok (), c)
        | .pointer => initInnerS (getParserS env n) ty st d.pointee c
        | .map | .list => initInnerS (getParserS env n) ty st d.valueType c
        | .custom =>
          match env.parseFn ty d.customParser with
          | none => (.error .err, c)
          | some _ => (.ok (), Assoc.set c ty { st with fn := some d.customParser })
        | .object => initFieldsS (getParserS env n) ty d.fields st c

theorem initFields_eqS (env : Env) (n : Nat) (get : TyId → PCache → Res Unit × PCache)
    (h : ∀ ty c, getParser env n ty c = get ty c) (ty : TyId) :
    ∀ (fs : List FieldD) (st : PState) (c : PCache), initFields env n ty fs st c = initFieldsS get ty fs st c
  | [], _, _ => by rw [initFields, initFieldsS]
  | f :: fs, st, c => by
    rw [initFields, initFieldsS]
    simp only [h, initFields_eqS env n get h ty fs]
    rfl

theorem getParser_eqS (env : Env) : ∀ (n : Nat) (ty : TyId) (c : PCache), getParser env n ty c = getParserS env n ty c
  | 0, _, _ => by rw [getParser, getParserS]
  | n + 1, ty, c => by
    have hi : ∀ ty st o c, initInner env n ty st o c = initInnerS (getParserS env n) ty st o c := by
      intro ty st o c
      cases o with
      | none => rw [initInner, initInnerS]
      | some t => rw [initInner, initInnerS]; simp only [getParser_eqS env n]; rfl
    rw [getParser, getParserS]
    simp only [hi, initFields_eqS env n _ (getParser_eqS env n)]
    rfl

def initInnerWS (get : TyId → WCache → Res Unit × WCache) (ty : TyId) (st : WState) : Option TyId → WCache → Res Unit × WCache
  | none, c => (.error .err, c)
  | some t, c =>
    let p := get t c
    match p.1 with
    | .error e => (.error e, p.2)
    | .ok _ => (.ok (), Assoc.set p.2 ty { st with inner := some t })

def initFieldsWS (env : Env) (get : TyId → WCache → Res Unit × WCache) (ty : TyId) :
    List FieldD → WState → WCache → Res Unit × WCache
  | [], st, c => (.ok (), Assoc.set c ty { st with sortedKeys := sortKeys st.sortedKeys })
  | f :: fs, st, c =>
    match f.alias? with
    | none => initFieldsWS env get ty fs st c
    | some a =>
      if (Assoc.get st.fields f.name).isSome then (.error .err, c)
      else
        let st1 := { st with keys := Assoc.set st.keys a f.name, sortedKeys := st.sortedKeys ++ [a],
                             skipEmpty := if env.skipEmpty ty f then a :: st.skipEmpty else st.skipEmpty }
        let p := get f.type (Assoc.set c ty st1)
        match p.1 with
        | .error e => (.error e, p.2)
        | .ok _ =>
          let st2 := { st1 with fields := Assoc.emplace st1.fields f.name f.type }
          initFieldsWS env get ty fs st2 (Assoc.set p.2 ty st2)

def getPrinterS (env : Env) : Nat → TyId → WCache → Res Unit × WCache
  | 0, _, c => (.error .diverge, c)
  | n + 1, ty, c =>
    match Assoc.get c ty with
    | some _ => (.ok (), c)
    | none =>
      match env.types[ty]? with
      | none => (.error .ub, c)
      | some d =>
        match d.printerKind with
        | none => (.error .err, c)
        | some k =>
          let st : WState := { kind := k }
          let c := Assoc.set c ty st
          match k with
          | .bool | .float | .int | .string => (.ok (), c)
          | .pointer => initInnerWS (getPrinterS env n) ty st d.pointee c
          | .map | .list => initInnerWS (getPrinterS env n) ty st d.valueType c
          | .custom =>
            match env.printFn ty d.customPrinter with
            | none => (.error .err, c)
            | some _ => (.ok (), Assoc.set c ty { st with fn := some d.customPrinter })
          | .object => initFieldsWS env (getPrinterS env n) ty d.fields st c

theorem initFieldsW_eqS (env : Env) (n : Nat) (get : TyId → WCache → Res Unit × WCache)
    (h : ∀ ty c, getPrinter env n ty c = get ty c) (ty : TyId) :
    ∀ (fs : List FieldD) (st : WState) (c : WCache), initFieldsW env n ty fs st c = initFieldsWS env get ty fs st c
  | [], _, _ => by rw [initFieldsW, initFieldsWS]
  | f :: fs, st, c => by
    rw [initFieldsW, initFieldsWS]
    simp only [h, initFieldsW_eqS env n get h ty fs]
    rfl

theorem getPrinter_eqS (env : Env) : ∀ (n : Nat) (ty : TyId) (c : WCache), getPrinter env n ty c = getPrinterS env n ty c
  | 0, _, _ => by rw [getPrinter, getPrinterS]
  | n + 1, ty, c => by
    have hi : ∀ ty st o c, initInnerW env n ty st o c = initInnerWS (getPrinterS env n) ty st o c := by
      intro ty st o c
      cases o with
      | none => rw [initInnerW, initInnerWS]
      | some t => rw [initInnerW, initInnerWS]; simp only [getPrinter_eqS env n]; rfl
    rw [getPrinter, getPrinterS]
    simp only [hi, initFieldsW_eqS env n _ (getPrinter_eqS env n)]
    rfl

/-! ### The types of tests/utils/json/test_types.h -/

/-- the bits of 123.321 -/
def f123 : UInt64 := 0x405ED48B43958106
def tBool : TyId := 0
def tInt : TyId := 1
def tFloat : TyId := 2
def tStr : TyId := 3
def tIntPtr : TyId := 4
def tStrPtr : TyId := 5
def tCustom : TyId := 6
def tVec : TyId := 7
def tVecPtr : TyId := 8
def tMap : TyId := 9
def tMapPtr : TyId := 10
def tBasics : TyId := 11
def tBasicsPtr : TyId := 12
def tValue : TyId := 13

/-- `Basics()` with some members already set -/
def basics (i : Int) (next : JV) : JV := .obj
  [(b "boolean", .bool false), (b "integer", .int i), (b "floating", .flt 0), (b "string", .str []), (b "stringPtr", .null),
   (b "stringShared", .null), (b "nullPtr", .null), (b "nullShared", .null), (b "skip", .int 0), (b "alias", .int 0),
   (b "custom", .obj [(b "a", .int 0)]), (b "vector", .list []), (b "vectorPtr", .list []), (b "map", .map []),
   (b "mapPtr", .map []), (b "next", next)]

/-- `Basics::construct` -/
def expected : JV := .obj
  [(b "boolean", .bool true), (b "integer", .int 123), (b "floating", .flt f123), (b "string", .str (b "abc")),
   (b "stringPtr", .ptr (.str (b "def"))), (b "stringShared", .ptr (.str (b "ghi"))), (b "nullPtr", .null), (b "nullShared", .null),
   (b "skip", .int 0), (b "alias", .int 654), (b "custom", .obj [(b "a", .int 789)]),
   (b "vector", .list [.int 1, .int 2, .int 3]), (b "vectorPtr", .list [.ptr (.int 4), .ptr (.int 5), .ptr (.int 6)]),
   (b "map", .map [(b "abc", .int 10), (b "def", .int 20)]), (b "mapPtr", .map [(b "hig", .ptr (.int 30))]),
   (b "next", .ptr (basics 10 (.ptr (basics 20 .null))))]

def types : List TyD := [
  { isBool := true, make := some (.bool false), alloc := true },
  { isInt := true, make := some (.int 0), alloc := true },
  { isFloat := true, make := some (.flt 0), alloc := true },
  { isString := true, make := some (.str []), alloc := true },
  { pointee := some tInt, make := some .null },
  { pointee := some tStr, make := some .null },
  { json := some (Traits.mkCustom (b "parseJson") (b "printJson")), make := some (.obj [(b "a", .int 0)]) },
  { isList := true, valueType := some tInt, make := some (.list []) },
  { isList := true, valueType := some tIntPtr, make := some (.list []) },
  { isMap := true, valueType := some tInt, make := some (.map []) },
  { isMap := true, valueType := some tIntPtr, make := some (.map []) },
  { fields := [⟨b "boolean", tBool, none⟩, ⟨b "integer", tInt, none⟩, ⟨b "floating", tFloat, none⟩,
      ⟨b "string", tStr, none⟩, ⟨b "stringPtr", tStrPtr, none⟩, ⟨b "stringShared", tStrPtr, none⟩,
      ⟨b "nullPtr", tIntPtr, none⟩, ⟨b "nullShared", tStrPtr, none⟩, ⟨b "skip", tInt, some Traits.mkSkip⟩,
      ⟨b "alias", tInt, some (Traits.mkAlias (b "bob"))⟩, ⟨b "custom", tCustom, none⟩, ⟨b "vector", tVec, none⟩,
      ⟨b "vectorPtr", tVecPtr, none⟩, ⟨b "map", tMap, none⟩, ⟨b "mapPtr", tMapPtr, none⟩,
      ⟨b "next", tBasicsPtr, some Traits.mkSkipEmpty⟩]
    make := some (basics 0 .null), alloc := true },
  { pointee := some tBasics, make := some .null },
  { isVoid := true }]

def jenv : Env :=
  { types := types
    fmtG := fun x => if x = f123 then b "123.321" else if x = 0 then b "0" else []
    stod := fun s => if s = b "123.321" then .ok f123 else .error .std
    junk := fun _ _ => true
    parseFn := fun t n => if t = tCustom ∧ n = b "parseJson" then some fun _ r => do
        let p ← parseString r
        let i ← stol p.1
        .ok (.obj [(b "a", .int i)], p.2)
      else none
    printFn := fun t n => if t = tCustom ∧ n = b "printJson" then some fun v w =>
        match v with
        | .obj [(_, .int i)] => formatString w (decText i)
        | _ => .error .err
      else none }

/-- `parseFile<T>(file)`: no error, and the object -/
def parseFile (t : TyId) (v : JV) (file : List String) : Option JV :=
  match (parse jenv 60 [] t v (Reader.open .default (lines file))).1 with
  | .ok (v, r) => if r.err.isNone then some v else none
  | .error _ => none

/-- value_parser_test.cpp, `test_basics` -/
example : parseFile tBasics (basics 0 .null) parserFile = some expected := by
  simp only [parseFile, parse, getParser_eqS]; decide +kernel

/-- value_parser_test.cpp, `test_value_parser` (the entries of the map in the order of their keys) -/
example : parseFile tValue .void genericFile = some (.map
    [(b "array", .list [.int 1, .list [.int 2], .map [(b "3", .int 4)]]), (b "bool", .bool true), (b "float", .flt f123),
     (b "int", .int 123), (b "null", .void), (b "object", .map [(b "a", .int 1), (b "b", .list [.int 2]), (b "c", .map [(b "3", .int 4)])]),
     (b "string", .str (b "abc"))]) := by
  simp only [parseFile, parse, getParser_eqS]; decide +kernel

/-- `checkFile`: what is printed, with no error -/
def printed (o : WOpts) (v : JV) : Option Bytes :=
  match (print jenv 60 [] tBasics v { opts := o }).1 with
  | .ok w => if w.err.isNone then some w.out else none
  | .error _ => none

/-- value_printer_test.cpp, `test_full` -/
example : printed { WOpts.default with pretty := true } expected = some (lines fullFile) := by
  simp only [printed, print, getPrinter_eqS]; decide +kernel
/-- value_printer_test.cpp, `test_compact`: the file is compared without its white space -/
example : printed { WOpts.default with compact := true } expected = some ((lines compactFile).filter (!isSpace ·)) := by
  simp only [printed, print, getPrinter_eqS]; decide +kernel

/-! ### printer_test.cpp -/

def onLeafObject (k : Bytes) (w : Writer) : Res Writer := if k = b "3" then .ok (formatInt w 4) else .error .err
def onLeafArray (i : Nat) (w : Writer) : Res Writer := if i = 0 then .ok (formatInt w 2) else .error .err
def noSkip : Bytes → Res Bool := fun _ => .ok false
def onObject (k : Bytes) (w : Writer) : Res Writer :=
  if k = b "a" then .ok (formatInt w 1)
  else if k = b "b" then printArray onLeafArray (List.range 1) w
  else if k = b "c" then printObject onLeafObject noSkip [b "3"] w else .error .err
def onArray (i : Nat) (w : Writer) : Res Writer :=
  if i = 0 then .ok (formatInt w 1)
  else if i = 1 then printArray onLeafArray (List.range 1) w
  else if i = 2 then printObject onLeafObject noSkip [b "3"] w else .error .err
def onField (k : Bytes) (w : Writer) : Res Writer :=
  if k = b "null" then .ok (formatNull w)
  else if k = b "bool" then .ok (formatBool w true)
  else if k = b "int" then .ok (formatInt w 123)
  else if k = b "float" then .ok (w.push (jenv.fmtG f123))
  else if k = b "string" then formatString w (b "abc")
  else if k = b "array" then printArray onArray (List.range 3) w
  else if k = b "object" then printObject onObject noSkip [b "a", b "b", b "c"] w else .error .err
def genericPrinted (o : WOpts) : Option Bytes :=
  match printObject onField noSkip [b "null", b "bool", b "int", b "float", b "string", b "array", b "object"] { opts := o } with
  | .ok w => if w.err.isNone then some w.out else none
  | .error _ => none

/-- `test_compact` -/
example : genericPrinted WOpts.default = some ((lines genericFile).filter (!isSpace ·)) := by decide +kernel
/-- `test_pretty` -/
example : genericPrinted ⟨true, false, false, false⟩ = some (lines genericFile) := by decide +kernel

end Reflect.Conform.Json

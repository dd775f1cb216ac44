import Verif.Model.Json.Types
/-
  The typed JSON parsers and printers and their caches.

  Code modelled: src/utils/json/parser.cpp, src/utils/json/printer.cpp.

  * A parser object is identified with the type it is for: `getParser` makes one object per type and never
    replaces it, so the pointer `inner.parser` of another parser is the type that parser is for.
  * `getParser` runs with the cache as state, and the cache survives an exception raised by `init`.
  * Fuel as in `Verif.Model.Json.Parser`.
-/
namespace Reflect.Json

/-! ### Parsers -/

/-- the classes derived from `Parser`, parser.cpp:56-327 -/
inductive PKind where
  | bool | float | int | string | pointer | map | list | custom | value | object
  deriving DecidableEq, Repr

/-- The members of a parser object.  `inner` is `inner.type`/`inner.parser` (parser.cpp:38-49), absent
until initialised; `keys`, `fields` are those of `ObjectParser` (246-247); `fn` is the name of the custom
function (271). -/
structure PState where
  kind : PKind
  inner : Option TyId := none
  keys : Assoc Bytes Bytes := []
  fields : Assoc Bytes TyId := []
  fn : Option Bytes := none
  deriving DecidableEq, Repr

/-- `parsers`, parser.cpp:336 -/
abbrev PCache := Assoc TyId PState

/-- Which class `getParser` instantiates, parser.cpp:343-355 -/
def TyD.parserKind (d : TyD) : PKind :=
  if d.isBool then .bool
  else if d.isFloat then .float
  else if d.isInt then .int
  else if d.isString then .string
  else if d.pointee.isSome then .pointer
  else if d.isMap then .map
  else if d.isList then .list
  else if d.customParser ≠ [] then .custom
  else if d.isVoid then .value
  else .object

/-- `alias` of a field that is not skipped, parser.cpp:207-212, printer.cpp:243-251 -/
def FieldD.alias? (f : FieldD) : Option Bytes :=
  match f.json with
  | none => some f.name
  | some t => if t.skip then none else some (if t.alias = [] then f.name else t.alias)

mutual
/-- `getParser`, parser.cpp:334-361: the outcome and the cache as it is left. -/
def getParser (env : Env) : Nat → TyId → PCache → Res Unit × PCache
  | 0, _, c => (.error .diverge, c)
  | n + 1, ty, c =>
    match Assoc.get c ty with
    | some _ => (.ok (), c)
    | none =>
      match env.types[ty]? with
      | none => (.error .ub, c)
      | some d =>
        let st : PState := { kind := d.parserKind }
        let c := Assoc.set c ty st
        match d.parserKind with
        | .bool | .float | .int | .string | .value => (.ok (), c)
        | .pointer => initInner env n ty st d.pointee c
        | .map | .list => initInner env n ty st d.valueType c
        | .custom =>
          -- CustomParser::init, parser.cpp:257-264
          match env.parseFn ty d.customParser with
          | none => (.error .err, c)
          | some _ => (.ok (), Assoc.set c ty { st with fn := some d.customParser })
        | .object => initFields env n ty d.fields st c
/-- `inner.init(...)`, parser.cpp:40-44, 97, 141, 171: `getValue` raises if there is no value type. -/
def initInner (env : Env) : Nat → TyId → PState → Option TyId → PCache → Res Unit × PCache
  | _, _, _, none, c => (.error .err, c)
  | n, ty, st, some t, c =>
    let p := getParser env n t c
    match p.1 with
    | .error e => (.error e, p.2)
    | .ok _ => (.ok (), Assoc.set p.2 ty { st with inner := some t })
/-- the loop of `ObjectParser::init`, parser.cpp:204-221; `st` is the parser's own state so far -/
def initFields (env : Env) : Nat → TyId → List FieldD → PState → PCache → Res Unit × PCache
  | _, _, [], _, c => (.ok (), c)
  | n, ty, f :: fs, st, c =>
    match f.alias? with
    | none => initFields env n ty fs st c
    | some a =>
      if (Assoc.get st.keys a).isSome then (.error .err, c)
      else
        let st1 := { st with keys := Assoc.set st.keys a f.name }
        let p := getParser env n f.type (Assoc.set c ty st1)
        match p.1 with
        | .error e => (.error e, p.2)
        | .ok _ =>
          let st2 := { st1 with fields := Assoc.emplace st1.fields f.name f.type }
          initFields env n ty fs st2 (Assoc.set p.2 ty st2)
end

/-- `Type::construct()` with no arguments -/
def Env.construct (env : Env) (t : TyId) : Res JV :=
  match env.types[t]? with
  | none => .error .ub
  | some d => match d.make with | none => .error .err | some v => .ok v

/-- `Type::alloc()` and the dereference of its result, parser.cpp:118-119 -/
def Env.allocate (env : Env) (t : TyId) : Res JV :=
  match env.types[t]? with
  | none => .error .ub
  | some d => if d.alloc then env.construct t else .error .err

/-- whether `Value::assign`/`cast` of the exact C++ type work on values of the type -/
def Env.exact (env : Env) (t : TyId) : Bool :=
  match env.types[t]? with | none => false | some d => d.exact

/-- `ValueParser::parse`, parser.cpp:285-326.  (The final check cannot fail: every value made here is
stored.) -/
def parseUntyped (env : Env) : Nat → JV → Reader → Res (JV × Reader)
  | 0, _, _ => .error .diverge
  | n + 1, v, r => do
    let p ← r.peekToken
    match p.1.type with
    | .null => do let q ← parseNull p.2; .ok (v, q)
    | .bool => do let q ← parseBool p.2; .ok (.bool q.1, q.2)
    | .int => do let q ← parseInt p.2; .ok (.int q.1, q.2)
    | .float => do let q ← parseFloatText p.2; .ok (.flt (← env.stod q.1), q.2)
    | .string => do let q ← parseString p.2; .ok (.str q.1, q.2)
    | .arrayStart => do
      let q ← parseArray (fun _ (vs : List JV) r => do
        let q ← parseUntyped env n .void r
        .ok (vs ++ [q.1], q.2)) n [] p.2
      .ok (.list q.1, q.2)
    | .objectStart => do
      let q ← parseObject (fun k (m : List (Bytes × JV)) r => do
        let q ← parseUntyped env n .void r
        .ok (mapEmplace m k q.1, q.2)) n [] p.2
      .ok (.map q.1, q.2)
    | t => .ok (v, p.2.error (.unknownToken t (p.1.text p.2)))

/-- `parser->parse(reader, value)` of the parser for `ty`, parser.cpp:56-327, on a value `v` that is
changed in place. -/
def parseV (env : Env) (c : PCache) : Nat → TyId → JV → Reader → Res (JV × Reader)
  | 0, _, _, _ => .error .diverge
  | n + 1, ty, v, r =>
    match Assoc.get c ty with
    | none => .error .ub
    | some st =>
      match st.kind with
      | .bool => do      -- parser.cpp:58-61
        let p ← parseBool r
        if env.exact ty then .ok (.bool p.1, p.2) else .error .err
      | .int => do       -- parser.cpp:66-69
        let p ← parseInt r
        if env.exact ty then .ok (.int p.1, p.2) else .error .err
      | .float => do     -- parser.cpp:74-77
        let p ← parseFloatText r
        let x ← env.stod p.1
        if env.exact ty then .ok (.flt x, p.2) else .error .err
      | .string => do    -- parser.cpp:82-85
        let p ← parseString r
        if env.exact ty then .ok (.str p.1, p.2) else .error .err
      | .pointer => do   -- parser.cpp:101-125
        let p ← r.peekToken
        if p.1.type = .null then
          let q ← p.2.nextToken
          .ok (.null, q.2)
        else
          match st.inner, v with
          | some t, .ptr w => do
            let q ← parseV env c n t w p.2
            .ok (.ptr q.1, q.2)
          | some t, .null => do
            let m ← env.allocate t
            let q ← parseV env c n t m p.2
            .ok (.ptr q.1, q.2)
          | none, _ => .error .ub
          | _, _ => .error .err
      | .list =>         -- parser.cpp:144-156
        match st.inner, v with
        | some t, .list vs => do
          let q ← parseArray (fun _ (vs : List JV) r => do
            let m ← env.construct t
            let q ← parseV env c n t m r
            if q.2.ok then .ok (vs ++ [q.1], q.2) else .ok (vs, q.2)) n vs r
          .ok (.list q.1, q.2)
        | none, .list vs => do   -- left half-made by an exception: no inner parser to call
          let q ← parseArray (fun _ (_ : List JV) _ => (.error .ub : Res (List JV × Reader))) n vs r
          .ok (.list q.1, q.2)
        | _, _ => .error .err
      | .map =>          -- parser.cpp:174-188
        match st.inner, v with
        | some t, .map m => do
          let q ← parseObject (fun k (m : List (Bytes × JV)) r => do
            let d ← env.construct t
            let q ← parseV env c n t d r
            if q.2.ok then .ok (mapSet m k q.1, q.2) else .ok (m, q.2)) n m r
          .ok (.map q.1, q.2)
        | none, .map m => do
          let q ← parseObject (fun _ (_ : List (Bytes × JV)) _ => (.error .ub : Res (List (Bytes × JV) × Reader))) n m r
          .ok (.map q.1, q.2)
        | _, _ => .error .err
      | .object =>       -- parser.cpp:224-243
        match v with
        | .obj fs => do
          let q ← parseObject (fun a (fs : List (Bytes × JV)) r =>
            match Assoc.get st.keys a with
            | none => do
              let r ← skip n r
              .ok (fs, r)
            | some k =>
              match Assoc.get st.fields k with
              | none => .error .err
              | some t =>
                match Assoc.get fs k with
                | none => .error .err
                | some x => do
                  let q ← parseV env c n t x r
                  .ok (objSet fs k q.1, q.2)) n fs r
          .ok (.obj q.1, q.2)
        | _ => .error .err
      | .custom =>       -- parser.cpp:266-269
        match st.fn with
        | none => .error .ub
        | some name =>
          match env.parseFn ty name with
          | none => .error .ub
          | some f => f v r
      | .value => parseUntyped env n v r

/-- `json::parse(reader, value)`, parser.cpp:363-381: the parser is looked up, under a mutex, and used;
the cache is left changed whatever happens. -/
def parse (env : Env) (n : Nat) (c : PCache) (ty : TyId) (v : JV) (r : Reader) : Res (JV × Reader) × PCache :=
  let p := getParser env n ty c
  match p.1 with
  | .error e => (.error e, p.2)
  | .ok _ => (parseV env p.2 n ty v r, p.2)

/-! ### Printers -/

/-- the classes derived from `Printer`, printer.cpp:93-334 -/
inductive WKind where
  | bool | int | float | string | pointer | map | list | custom | object
  deriving DecidableEq, Repr

/-- The members of a printer object (printer.cpp:77-86, 305-308, 333). -/
structure WState where
  kind : WKind
  inner : Option TyId := none
  sortedKeys : List Bytes := []
  skipEmpty : List Bytes := []
  keys : Assoc Bytes Bytes := []
  fields : Assoc Bytes TyId := []
  fn : Option Bytes := none
  deriving DecidableEq, Repr

/-- `printers`, printer.cpp:343 -/
abbrev WCache := Assoc TyId WState

/-- Which class `getPrinter` instantiates, printer.cpp:350-363 (`none`: it raises) -/
def TyD.printerKind (d : TyD) : Option WKind :=
  if d.isBool then some .bool
  else if d.isInt then some .int
  else if d.isFloat then some .float
  else if d.isString then some .string
  else if d.pointee.isSome then some .pointer
  else if d.isMap then some .map
  else if d.isList then some .list
  else if d.customPrinter ≠ [] then some .custom
  else if d.isVoid then none
  else some .object

/-- `isSkipEmpty` of a field of `ty`, printer.cpp:244-250 -/
def Env.skipEmpty (env : Env) (ty : TyId) (f : FieldD) : Bool :=
  match f.json with | none => false | some t => t.skipEmpty.read (env.junk ty f.name)

mutual
/-- `getPrinter`, printer.cpp:341-369 -/
def getPrinter (env : Env) : Nat → TyId → WCache → Res Unit × WCache
  | 0, _, c => (.error .diverge, c)
  | n + 1, ty, c =>
    match Assoc.get c ty with
    | some _ => (.ok (), c)
    | none =>
      match env.types[ty]? with
      | none => (.error .ub, c)
      | some d =>
        match d.printerKind with
        | none => (.error .err, c)
        | some k =>
          let st : WState := { kind := k }
          let c := Assoc.set c ty st
          match k with
          | .bool | .float | .int | .string => (.ok (), c)
          | .pointer => initInnerW env n ty st d.pointee c
          | .map | .list => initInnerW env n ty st d.valueType c
          | .custom =>
            match env.printFn ty d.customPrinter with
            | none => (.error .err, c)
            | some _ => (.ok (), Assoc.set c ty { st with fn := some d.customPrinter })
          | .object => initFieldsW env n ty d.fields st c
/-- `inner.init(...)`, printer.cpp:79-82, 147, 178, 208 -/
def initInnerW (env : Env) : Nat → TyId → WState → Option TyId → WCache → Res Unit × WCache
  | _, _, _, none, c => (.error .err, c)
  | n, ty, st, some t, c =>
    let p := getPrinter env n t c
    match p.1 with
    | .error e => (.error e, p.2)
    | .ok _ => (.ok (), Assoc.set p.2 ty { st with inner := some t })
/-- the loop of `ObjectPrinter::init` and the final sort, printer.cpp:240-265.  The check of line 253
looks at the field's name, not at its alias. -/
def initFieldsW (env : Env) : Nat → TyId → List FieldD → WState → WCache → Res Unit × WCache
  | _, ty, [], st, c => (.ok (), Assoc.set c ty { st with sortedKeys := sortKeys st.sortedKeys })
  | n, ty, f :: fs, st, c =>
    match f.alias? with
    | none => initFieldsW env n ty fs st c
    | some a =>
      if (Assoc.get st.fields f.name).isSome then (.error .err, c)
      else
        let st1 := { st with keys := Assoc.set st.keys a f.name, sortedKeys := st.sortedKeys ++ [a],
                             skipEmpty := if env.skipEmpty ty f then a :: st.skipEmpty else st.skipEmpty }
        let p := getPrinter env n f.type (Assoc.set c ty st1)
        match p.1 with
        | .error e => (.error e, p.2)
        | .ok _ =>
          let st2 := { st1 with fields := Assoc.emplace st1.fields f.name f.type }
          initFieldsW env n ty fs st2 (Assoc.set p.2 ty st2)
end

/-- `printer->isEmpty(value)`, printer.cpp:66, 103-106, 116-119, 129-132, 149-152, 181-184, 211-214 -/
def isEmptyV (env : Env) (c : WCache) : JV → TyId → Res Bool
  | v, ty =>
    match Assoc.get c ty with
    | none => .error .ub
    | some st =>
      match st.kind with
      | .bool | .custom | .object => .ok false
      | .int =>
        match v with
        | .int i => if env.exact ty then .ok (i == 0) else .error .err
        | _ => .error .err
      | .float =>
        match v with
        | .flt x => if env.exact ty then .ok (x == 0 || x == 0x8000000000000000) else .error .err
        | _ => .error .err
      | .string => match v with | .str s => .ok (s == []) | _ => .error .err
      | .pointer =>
        match v with
        | .null => .ok true
        | .ptr w => match st.inner with | none => .error .ub | some t => isEmptyV env c w t
        | _ => .error .err
      | .list => match v with | .list vs => .ok vs.isEmpty | _ => .error .err
      | .map => match v with | .map m => .ok m.isEmpty | _ => .error .err

/-- `printer->print(writer, value)` of the printer for `ty`, printer.cpp:93-334 -/
def printV (env : Env) (c : WCache) : Nat → TyId → JV → Writer → Res Writer
  | 0, _, _, _ => .error .diverge
  | n + 1, ty, v, w =>
    match Assoc.get c ty with
    | none => .error .ub
    | some st =>
      match st.kind with
      | .bool =>     -- printer.cpp:22-25
        match v with
        | .bool b => if env.exact ty then .ok (formatBool w b) else .error .err
        | _ => .error .err
      | .int =>      -- printer.cpp:27-30
        match v with
        | .int i => if env.exact ty then .ok (formatInt w i) else .error .err
        | _ => .error .err
      | .float =>    -- printer.cpp:32-35; "%1.12g" never needs the whole 128-byte buffer
        match v with
        | .flt x => if env.exact ty then .ok (w.push (env.fmtG x)) else .error .err
        | _ => .error .err
      | .string =>   -- printer.cpp:37-40
        match v with
        | .str s => if env.exact ty then formatString w s else .error .err
        | _ => .error .err
      | .pointer =>  -- printer.cpp:154-163
        match v with
        | .null => .ok (formatNull w)
        | .ptr x => match st.inner with | none => .error .ub | some t => printV env c n t x w
        | _ => .error .err
      | .list =>     -- printer.cpp:186-193
        match v with
        | .list vs =>
          match st.inner with
          | none => if vs = [] then printArray (fun _ w => .ok w) ([] : List JV) w else .error .ub
          | some t => printArray (printV env c n t) vs w
        | _ => .error .err
      | .map =>      -- printer.cpp:216-225
        match v with
        | .map m =>
          let d := env.types[ty]?
          let order := match d with | none => id | some d => d.order
          printObject (fun k w =>
            match Assoc.get m k with
            | none => .error .err
            | some x => match st.inner with | none => .error .ub | some t => printV env c n t x w)
            (fun _ => .ok false) (order (m.map (·.1))) w
        | _ => .error .err
      | .object =>   -- printer.cpp:268-302
        match v with
        | .obj fs =>
          let getField := fun a =>
            match Assoc.get st.keys a with
            | none => (.error .err : Res (TyId × JV))
            | some k =>
              match Assoc.get st.fields k with
              | none => .error .err
              | some t => match Assoc.get fs k with | none => .error .err | some x => .ok (t, x)
          printObject (fun a w => do
              let p ← getField a
              printV env c n p.1 p.2 w)
            (fun a =>
              if !w.opts.compact && !st.skipEmpty.contains a then .ok false
              else do
                let p ← getField a
                isEmptyV env c p.2 p.1)
            st.sortedKeys w
        | _ => .error .err
      | .custom =>   -- printer.cpp:327-330
        match st.fn with
        | none => .error .ub
        | some name =>
          match env.printFn ty name with
          | none => .error .ub
          | some f => f v w

/-- `json::print(writer, value)`, printer.cpp:371-389 -/
def print (env : Env) (n : Nat) (c : WCache) (ty : TyId) (v : JV) (w : Writer) : Res Writer × WCache :=
  let p := getPrinter env n ty c
  match p.1 with
  | .error e => (.error e, p.2)
  | .ok _ => (printV env p.2 n ty v w, p.2)

end Reflect.Json

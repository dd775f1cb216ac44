import Verif.Model.Json.Typed
/-
  The typed JSON parsers and printers on objects that pointers share: src/utils/json/parser.cpp and
  printer.cpp once more, with pointers as addresses instead of subtrees, raw pointers included.

  * An object has an address; the fields of an object are stored in it, so that a `Value` refers to a place: an
    address and a path of fields.
  * `delete` is not modelled: an object nobody points to stays where it is.
  * Conversions and the dispatch of the functions of the standard reflections as in `Model/Json/Typed.lean`.
-/
namespace Reflect.Json

/-- a reflected value as it is stored: `JV` with addresses -/
inductive GV where
  | void
  | bool (b : Bool)
  | int (i : Int)
  | flt (x : UInt64)
  | str (s : Bytes)
  | null
  | ptr (a : Nat)
  | list (vs : List GV)
  | map (kvs : List (Bytes × GV))
  | obj (fs : List (Bytes × GV))

/-- the objects of the program; addresses from `next` on are free -/
structure GHeap where
  mem : Nat → GV
  next : Nat

/-- what a `Value` that is no temporary refers to -/
structure Place where
  addr : Nat
  path : List Bytes := []
  deriving DecidableEq, Repr

/-- storing into the field `k` of an object -/
def gset : List (Bytes × GV) → Bytes → GV → List (Bytes × GV)
  | [], _, _ => []
  | (l, u) :: m, k, v => if l = k then (l, v) :: m else (l, u) :: gset m k v

/-- `map[key].assign(value)` on the ordered entries -/
def gput : List (Bytes × GV) → Bytes → GV → List (Bytes × GV)
  | [], k, v => [(k, v)]
  | (l, u) :: m, k, v =>
    if k = l then (k, v) :: m
    else if bytesLt k l then (k, v) :: (l, u) :: m
    else (l, u) :: gput m k v

/-- the subobject a path of `Value::field`s leads to -/
def GV.sub : GV → List Bytes → Option GV
  | v, [] => some v
  | .obj fs, k :: p => match Assoc.get fs k with | none => none | some x => GV.sub x p
  | _, _ :: _ => none

/-- the object after a store there -/
def GV.put : GV → List Bytes → GV → GV
  | _, [], x => x
  | .obj fs, k :: p, x => match Assoc.get fs k with
    | none => .obj fs
    | some y => .obj (gset fs k (GV.put y p x))
  | v, _ :: _, _ => v

namespace GHeap

def get (h : GHeap) (pl : Place) : Option GV := (h.mem pl.addr).sub pl.path

/-- a store to a place -/
def put (h : GHeap) (pl : Place) (x : GV) : GHeap :=
  { h with mem := fun a => if a = pl.addr then (h.mem a).put pl.path x else h.mem a }

/-- a new object -/
def new (h : GHeap) (x : GV) : GHeap × Nat :=
  ({ mem := fun a => if a = h.next then x else h.mem a, next := h.next + 1 }, h.next)

/-- the end of the lifetime of an object -/
def drop (h : GHeap) (a : Nat) : GHeap := { h with mem := fun b => if b = a then .void else h.mem b }

end GHeap

mutual
/-- a default constructed object, with the objects its pointers point to -/
def build : JV → GHeap → GV × GHeap
  | .void, h => (.void, h)
  | .bool b, h => (.bool b, h)
  | .int i, h => (.int i, h)
  | .flt x, h => (.flt x, h)
  | .str s, h => (.str s, h)
  | .null, h => (.null, h)
  | .ptr v, h =>
    let p := build v h
    let q := p.2.new p.1
    (.ptr q.2, q.1)
  | .list vs, h => let p := buildL vs h; (.list p.1, p.2)
  | .map kvs, h => let p := buildM kvs h; (.map p.1, p.2)
  | .obj fs, h => let p := buildM fs h; (.obj p.1, p.2)
def buildL : List JV → GHeap → List GV × GHeap
  | [], h => ([], h)
  | v :: vs, h =>
    let p := build v h
    let q := buildL vs p.2
    (p.1 :: q.1, q.2)
def buildM : List (Bytes × JV) → GHeap → List (Bytes × GV) × GHeap
  | [], h => ([], h)
  | (k, v) :: vs, h =>
    let p := build v h
    let q := buildM vs p.2
    ((k, p.1) :: q.1, q.2)
end

/-- the program, and what differs between pointers and trees -/
structure GEnv where
  env : Env
  /-- `type->is("smartPtr")`, parser.cpp:98 -/
  smart : TyId → Bool
  /-- custom parsers and printers, which reach the shared objects too -/
  parseFn : TyId → Bytes → Option (Place → GHeap → Reader → Res (GHeap × Reader)) := fun _ _ => none
  printFn : TyId → Bytes → Option (GV → GHeap → Writer → Res Writer) := fun _ _ => none

/-- `Type::construct()`: a `Value` of a new object -/
def GEnv.construct (g : GEnv) (t : TyId) (h : GHeap) : Res (Nat × GHeap) := do
  let v ← g.env.construct t
  let p := build v h
  let q := p.2.new p.1
  .ok (q.2, q.1)

/-- `Type::alloc()` and the dereference of its result, parser.cpp:118-119 -/
def GEnv.allocate (g : GEnv) (t : TyId) (h : GHeap) : Res (Nat × GHeap) := do
  let v ← g.env.allocate t
  let p := build v h
  let q := p.2.new p.1
  .ok (q.2, q.1)

/-- `parser->parse(reader, value)`, parser.cpp:56-327. The `Value&` may be made to refer to another object: the first
    component is what it refers to afterwards. -/
def parseG (g : GEnv) (c : PCache) : Nat → TyId → Place → GHeap → Reader → Res (Place × GHeap × Reader)
  | 0, _, _, _, _ => .error .diverge
  | n + 1, ty, pl, h, r =>
    match Assoc.get c ty with
    | none => .error .ub
    | some st =>
      match st.kind with
      | .bool => do      -- parser.cpp:58-61
        let p ← parseBool r
        if g.env.exact ty then .ok (pl, h.put pl (.bool p.1), p.2) else .error .err
      | .int => do       -- parser.cpp:66-69
        let p ← parseInt r
        if g.env.exact ty then .ok (pl, h.put pl (.int p.1), p.2) else .error .err
      | .float => do     -- parser.cpp:74-77
        let p ← parseFloatText r
        let x ← g.env.stod p.1
        if g.env.exact ty then .ok (pl, h.put pl (.flt x), p.2) else .error .err
      | .string => do    -- parser.cpp:82-85
        let p ← parseString r
        if g.env.exact ty then .ok (pl, h.put pl (.str p.1), p.2) else .error .err
      | .pointer => do   -- parser.cpp:101-125
        let p ← r.peekToken
        if p.1.type = .null then
          let q ← p.2.nextToken
          if g.smart ty then .ok (pl, h.put pl .null, q.2)
          else match st.inner with
            | none => .error .ub
            | some t => do
              -- `ptr = inner.type->construct()`: the `Value` now refers to a new object of the pointee's type
              let m ← g.construct t h
              .ok (⟨m.1, []⟩, m.2, q.2)
        else
          match st.inner, h.get pl with
          | some t, some (.ptr a) => do
            let q ← parseG g c n t ⟨a, []⟩ h p.2
            .ok (pl, q.2.1, q.2.2)
          | some t, some .null => do
            let m ← g.allocate t h
            let q ← parseG g c n t ⟨m.1, []⟩ m.2 p.2
            .ok (pl, q.2.1.put pl (.ptr m.1), q.2.2)
          | none, _ => .error .ub
          | _, _ => .error .err
      | .list =>         -- parser.cpp:144-156
        match st.inner, h.get pl with
        | some t, some (.list _) => do
          let q ← parseArray (fun _ (h : GHeap) r => do
            let m ← g.construct t h
            let q ← parseG g c n t ⟨m.1, []⟩ m.2 r
            if q.2.2.ok then
              -- `push_back` takes no object of another type
              if q.1 = ⟨m.1, []⟩ then
                match q.2.1.get pl with
                | some (.list vs) => .ok ((q.2.1.put pl (.list (vs ++ [q.2.1.mem m.1]))).drop m.1, q.2.2)
                | _ => .error .err
              else .error .err
            else .ok (q.2.1.drop m.1, q.2.2)) n h r
          .ok (pl, q.1, q.2)
        | none, some (.list _) => do   -- left half-made by an exception: no inner parser to call
          let q ← parseArray (fun _ (_ : GHeap) _ => (.error .ub : Res (GHeap × Reader))) n h r
          .ok (pl, q.1, q.2)
        | _, _ => .error .err
      | .map =>          -- parser.cpp:174-188
        match st.inner, h.get pl with
        | some t, some (.map _) => do
          let q ← parseObject (fun k (h : GHeap) r => do
            let m ← g.construct t h
            let q ← parseG g c n t ⟨m.1, []⟩ m.2 r
            if q.2.2.ok then
              -- `assign` takes no object of another type
              if q.1 = ⟨m.1, []⟩ then
                match q.2.1.get pl with
                | some (.map kvs) => .ok ((q.2.1.put pl (.map (gput kvs k (q.2.1.mem m.1)))).drop m.1, q.2.2)
                | _ => .error .err
              else .error .err
            else .ok (q.2.1.drop m.1, q.2.2)) n h r
          .ok (pl, q.1, q.2)
        | none, some (.map _) => do
          let q ← parseObject (fun _ (_ : GHeap) _ => (.error .ub : Res (GHeap × Reader))) n h r
          .ok (pl, q.1, q.2)
        | _, _ => .error .err
      | .object =>       -- parser.cpp:224-243
        match h.get pl with
        | some (.obj _) => do
          let q ← parseObject (fun a (h : GHeap) r =>
            match Assoc.get st.keys a with
            | none => do
              let r ← skip n r
              .ok (h, r)
            | some k =>
              match Assoc.get st.fields k with
              | none => .error .err
              | some t =>
                match h.get ⟨pl.addr, pl.path ++ [k]⟩ with
                | none => .error .err
                | some _ => do
                  let q ← parseG g c n t ⟨pl.addr, pl.path ++ [k]⟩ h r
                  .ok (q.2.1, q.2.2)) n h r
          .ok (pl, q.1, q.2)
        | _ => .error .err
      | .custom =>       -- parser.cpp:266-269
        match st.fn with
        | none => .error .ub
        | some name =>
          match g.parseFn ty name with
          | none => .error .ub
          | some f => do
            let q ← f pl h r
            .ok (pl, q.1, q.2)
      | .value =>        -- parser.cpp:285-326: `value = Value(...)`
        match h.get pl with
        | some .void => do
          let q ← parseUntyped g.env n .void r
          match q.1 with
          | .void => .ok (pl, h, q.2)
          | v =>
            let p := build v h
            let m := p.2.new p.1
            .ok (⟨m.2, []⟩, m.1, q.2)
        | _ => .error .err

/-- `json::parse(reader, value)`, parser.cpp:363-381 -/
def parseShared (g : GEnv) (n : Nat) (c : PCache) (ty : TyId) (pl : Place) (h : GHeap) (r : Reader) :
    Res (Place × GHeap × Reader) × PCache :=
  let p := getParser g.env n ty c
  match p.1 with
  | .error e => (.error e, p.2)
  | .ok _ => (parseG g p.2 n ty pl h r, p.2)

/-- `printer->isEmpty(value)`, printer.cpp:66, 103-106, 116-119, 129-132, 149-152, 181-184, 211-214 -/
def isEmptyG (g : GEnv) (c : WCache) (h : GHeap) : Nat → TyId → GV → Res Bool
  | 0, _, _ => .error .diverge
  | n + 1, ty, v =>
    match Assoc.get c ty with
    | none => .error .ub
    | some st =>
      match st.kind with
      | .bool | .custom | .object => .ok false
      | .int =>
        match v with
        | .int i => if g.env.exact ty then .ok (i == 0) else .error .err
        | _ => .error .err
      | .float =>
        match v with
        | .flt x => if g.env.exact ty then .ok (x == 0 || x == 0x8000000000000000) else .error .err
        | _ => .error .err
      | .string => match v with | .str s => .ok (s == []) | _ => .error .err
      | .pointer =>
        match v with
        | .null => .ok true
        | .ptr a => match st.inner with | none => .error .ub | some t => isEmptyG g c h n t (h.mem a)
        | _ => .error .err
      | .list => match v with | .list vs => .ok vs.isEmpty | _ => .error .err
      | .map => match v with | .map m => .ok m.isEmpty | _ => .error .err

/-- `printer->print(writer, value)`, printer.cpp:93-334 -/
def printG (g : GEnv) (c : WCache) (h : GHeap) : Nat → TyId → GV → Writer → Res Writer
  | 0, _, _, _ => .error .diverge
  | n + 1, ty, v, w =>
    match Assoc.get c ty with
    | none => .error .ub
    | some st =>
      match st.kind with
      | .bool =>     -- printer.cpp:22-25
        match v with
        | .bool b => if g.env.exact ty then .ok (formatBool w b) else .error .err
        | _ => .error .err
      | .int =>      -- printer.cpp:27-30
        match v with
        | .int i => if g.env.exact ty then .ok (formatInt w i) else .error .err
        | _ => .error .err
      | .float =>    -- printer.cpp:32-35
        match v with
        | .flt x => if g.env.exact ty then .ok (w.push (g.env.fmtG x)) else .error .err
        | _ => .error .err
      | .string =>   -- printer.cpp:37-40
        match v with
        | .str s => if g.env.exact ty then formatString w s else .error .err
        | _ => .error .err
      | .pointer =>  -- printer.cpp:154-163
        match v with
        | .null => .ok (formatNull w)
        | .ptr a => match st.inner with | none => .error .ub | some t => printG g c h n t (h.mem a) w
        | _ => .error .err
      | .list =>     -- printer.cpp:186-193
        match v with
        | .list vs =>
          match st.inner with
          | none => if vs.isEmpty then printArray (fun _ w => .ok w) ([] : List GV) w else .error .ub
          | some t => printArray (printG g c h n t) vs w
        | _ => .error .err
      | .map =>      -- printer.cpp:216-225
        match v with
        | .map m =>
          let d := g.env.types[ty]?
          let order := match d with | none => id | some d => d.order
          printObject (fun k w =>
            match Assoc.get m k with
            | none => .error .err
            | some x => match st.inner with | none => .error .ub | some t => printG g c h n t x w)
            (fun _ => .ok false) (order (m.map (·.1))) w
        | _ => .error .err
      | .object =>   -- printer.cpp:268-302
        match v with
        | .obj fs =>
          let getField := fun a =>
            match Assoc.get st.keys a with
            | none => (.error .err : Res (TyId × GV))
            | some k =>
              match Assoc.get st.fields k with
              | none => .error .err
              | some t => match Assoc.get fs k with | none => .error .err | some x => .ok (t, x)
          printObject (fun a w => do
              let p ← getField a
              printG g c h n p.1 p.2 w)
            (fun a =>
              if !w.opts.compact && !st.skipEmpty.contains a then .ok false
              else do
                let p ← getField a
                isEmptyG g c h n p.1 p.2)
            st.sortedKeys w
        | _ => .error .err
      | .custom =>   -- printer.cpp:327-330
        match st.fn with
        | none => .error .ub
        | some name =>
          match g.printFn ty name with
          | none => .error .ub
          | some f => f v h w

/-- `json::print(writer, value)`, printer.cpp:371-389 -/
def printShared (g : GEnv) (n : Nat) (c : WCache) (ty : TyId) (v : GV) (h : GHeap) (w : Writer) :
    Res Writer × WCache :=
  let p := getPrinter g.env n ty c
  match p.1 with
  | .error e => (.error e, p.2)
  | .ok _ => (printG g p.2 h n ty v w, p.2)

end Reflect.Json

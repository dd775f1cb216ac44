import Verif.Model.Json.Typed
import Verif.Model.ValueOps
import Verif.Model.Alloc
/-
  The typed JSON parsers on objects in memory, through the calls they make: src/utils/json/parser.cpp:51-243 once
  more, where `Model/Json/Typed.lean` has them on values that are trees. Here a `Value` is a `Handle`, an object is cells in the
  memory of `Model/Value.lean`, and everything a parser does to the object goes through `Value::assign`,
  `Value::call`, `Value::field`, `Type::construct` and `Type::alloc` of that model: overload resolution, casts,
  temporaries and the bodies of the reflected functions included.

  The parser objects and their cache are those of `Model/Json/Typed.lean`. `CustomParser` and `ValueParser`
  (parser.cpp:250-327) are not modelled here: `other` stands for what they do.
-/
namespace Reflect.Json

/-- How the values that the parsers make themselves lie in memory: the types `bool`, `int64_t`, `double` and
`std::string`, and the contents of the cells of each. -/
structure Native where
  boolT : Ty
  intT : Ty
  floatT : Ty
  stringT : Ty
  bool : Bool → Nat → Nat
  int : Int → Nat → Nat
  flt : UInt64 → Nat → Nat
  str : Bytes → Nat → Nat

/-- a name, as the bytes of a `std::string` and as the model of types has it -/
def nameOf (b : Bytes) : Name := b.map fun c => Char.ofNat c.toNat

variable (p : Prog)

/-- `value.assign(x)` for a temporary `x` of type `t`, parser.cpp:60, 68, 76, 84 -/
def assignNew (fuel : Nat) (hp : Heap) (v : Handle) (t : Ty) (cs : Nat → Nat) : Res Heap :=
  let q := hp.newObj cs (p.size t)
  p.assign fuel q.1 v (.native ⟨t, .rvalue, false⟩ q.2)

/-- `type->construct()`, type.tcc:33-38 -/
def make (fuel : Nat) (hp : Heap) (t : Ty) : Res (Heap × Handle) :=
  match p.typeCall fuel hp t (p.w.ty t).id p.valueArg [] with
  | .error e => .error e
  | .ok (hp', some (.val v)) => .ok (hp', v)
  | .ok _ => .error .ub

/-- a call whose result is a `Value` -/
def callValue (fuel : Nat) (hp : Heap) (v : Handle) (name : Name) (as : List Actual) : Res (Heap × Handle) :=
  match p.callMethod fuel hp v name p.valueArg as with
  | .error e => .error e
  | .ok (hp', some (.val r)) => .ok (hp', r)
  | .ok _ => .error .ub

/-- `type->alloc()`, parser.cpp:118 -/
def allocValue (fuel : Nat) (hp : Heap) (t : Ty) : Res (Heap × Handle) :=
  match p.alloc fuel hp t with
  | .error e => .error e
  | .ok (hp', some (.val r)) => .ok (hp', r)
  | .ok _ => .error .ub

/-- a call whose result is dropped -/
def callVoid (fuel : Nat) (hp : Heap) (v : Handle) (name : Name) (as : List Actual) : Res Heap :=
  (p.callMethod fuel hp v name p.voidArg as).map (·.1)

/-- `cast<bool>(ptr)`, parser.cpp:112 -/
def castBool (boolT : Ty) (fuel : Nat) (hp : Heap) (v : Handle) : Res (Heap × Bool) :=
  match p.castTo (p.run fuel) hp v boolT.val with
  | .error e => .error e
  | .ok (hp', .obj a _) => .ok (hp', hp'.mem a ≠ 0)
  | .ok _ => .error .ub

/-- `if (inner.movable) item = item.rvalue()`, parser.cpp:152, 182 -/
def given (t : Ty) (v : Handle) : Handle := if p.w.isMovable t then v.rvalue else v

/-- what the parsers that are not modelled here do -/
abbrev Other := TyId → PState → Handle → Heap → Reader → Res (Handle × Heap × Reader)

/-- `parser->parse(reader, value)`, parser.cpp:56-243. The `Value&` may be made to refer to another object: the first
component is what it is afterwards. `smart` is `type->is("smartPtr")`, parser.cpp:98. -/
def parseP (N : Native) (smart : Ty → Bool) (other : Other) (env : Env) (c : PCache) (F : Nat) :
    Nat → TyId → Handle → Heap → Reader → Res (Handle × Heap × Reader)
  | 0, _, _, _, _ => .error .diverge
  | n + 1, ty, o, hp, r =>
    match Assoc.get c ty with
    | none => .error .ub
    | some st =>
      match st.kind with
      | .bool => do      -- parser.cpp:58-61
        let q ← parseBool r
        let h ← assignNew p F hp o N.boolT (N.bool q.1)
        .ok (o, h, q.2)
      | .int => do       -- parser.cpp:66-69
        let q ← parseInt r
        let h ← assignNew p F hp o N.intT (N.int q.1)
        .ok (o, h, q.2)
      | .float => do     -- parser.cpp:74-77
        let q ← parseFloatText r
        let x ← env.stod q.1
        let h ← assignNew p F hp o N.floatT (N.flt x)
        .ok (o, h, q.2)
      | .string => do    -- parser.cpp:82-85
        let q ← parseString r
        let h ← assignNew p F hp o N.stringT (N.str q.1)
        .ok (o, h, q.2)
      | .pointer => do   -- parser.cpp:101-125
        let q ← r.peekToken
        if q.1.type = .null then
          let e ← q.2.nextToken
          if smart ty then
            let h ← callVoid p F hp o "reset".toList []
            .ok (o, h, e.2)
          else match st.inner with
            | none => .error .ub
            | some t => do
              let m ← make p F hp t
              .ok (m.2, m.1, e.2)
        else
          let b ← castBool p N.boolT F hp o
          match st.inner with
          | none => .error .ub
          | some t =>
            if b.2 then do
              let d ← callValue p F b.1 o "operator*".toList []
              let s ← parseP N smart other env c F n t d.2 d.1 q.2
              .ok (o, s.2.1, s.2.2)
            else do
              let v ← allocValue p F b.1 t
              let d ← callValue p F v.1 v.2 "operator*".toList []
              let s ← parseP N smart other env c F n t d.2 d.1 q.2
              if smart ty then
                let h ← callVoid p F s.2.1 o "reset".toList [.dyn v.2]
                .ok (o, h, s.2.2)
              else do
                let h ← p.assign F s.2.1 o (.dyn v.2)
                .ok (o, h, s.2.2)
      | .list => do      -- parser.cpp:144-156
        let q ← parseArray (fun _ (h : Heap) r =>
          match st.inner with
          | none => .error .ub
          | some t => do
            let m ← make p F h t
            let s ← parseP N smart other env c F n t m.2 m.1 r
            if s.2.2.ok then
              let h ← callVoid p F s.2.1 o "push_back".toList [.dyn (given p t s.1)]
              .ok (h, s.2.2)
            else .ok (s.2.1, s.2.2)) n hp r
        .ok (o, q.1, q.2)
      | .map => do       -- parser.cpp:174-188
        let q ← parseObject (fun k (h : Heap) r =>
          match st.inner with
          | none => .error .ub
          | some t => do
            let key := h.newObj (N.str k) (p.size N.stringT)
            let m ← make p F key.1 t
            let s ← parseP N smart other env c F n t m.2 m.1 r
            if s.2.2.ok then
              let e ← callValue p F s.2.1 o "operator[]".toList [.native N.stringT.lref key.2]
              let h ← p.assign F e.1 e.2 (.dyn (given p t s.1))
              .ok (h, s.2.2)
            else .ok (s.2.1, s.2.2)) n hp r
        .ok (o, q.1, q.2)
      | .object => do    -- parser.cpp:224-243
        let q ← parseObject (fun a (h : Heap) r =>
          match Assoc.get st.keys a with
          | none => do
            let r ← skip n r
            .ok (h, r)
          | some k =>
            match Assoc.get st.fields k with
            | none => .error .err
            | some t => do
              let f ← o.field p (nameOf k)
              let s ← parseP N smart other env c F n t f h r
              .ok (s.2.1, s.2.2)) n hp r
        .ok (o, q.1, q.2)
      | .custom | .value => other ty st o hp r

/-- `json::parse(reader, value)`, parser.cpp:363-381 -/
def parseMem (N : Native) (smart : Ty → Bool) (other : Other) (env : Env) (F n : Nat) (c : PCache) (ty : TyId) (o : Handle)
    (hp : Heap) (r : Reader) : Res (Handle × Heap × Reader) × PCache :=
  let q := getParser env n ty c
  match q.1 with
  | .error e => (.error e, q.2)
  | .ok _ => (parseP p N smart other env q.2 F n ty o hp r, q.2)

end Reflect.Json

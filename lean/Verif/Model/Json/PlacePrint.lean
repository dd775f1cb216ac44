import Verif.Model.Json.Place
/-
  The typed JSON printers on objects in memory, through the calls they make: src/utils/json/printer.cpp:12-334 and
  printer.tcc:21-98 once more, where `Model/Json/Typed.lean` has them on values that are trees. A `Value` is a
  `Handle`, and everything a printer learns of the object comes through `cast`, `Value::call`, `Value::operator*` and
  `Value::field` of the model of memory: overload resolution, casts, temporaries and the bodies of the reflected
  functions included.

  The printer objects and their cache are those of `Model/Json/Typed.lean`. `CustomPrinter` (printer.cpp:311-334)
  is not modelled here: `other` stands for what it does.
-/
namespace Reflect.Json

/-- What a printer makes of the contents of the cells of a `bool`, an `int64_t`, a `double` or a `std::string`; the types
`size_t` and `std::vector<std::string>`. -/
structure NativeW extends Native where
  sizeT : Ty
  keysT : Ty
  toBool : List Nat → Bool
  toInt : List Nat → Int
  toFlt : List Nat → UInt64
  toStr : List Nat → Bytes

/-- the contents of the `n` cells at `a` -/
def readCells (hp : Heap) (a n : Nat) : List Nat := (List.range n).map fun j => hp.mem (a + j)

variable (p : Prog)

/-- `cast<T>(value)`, printer.cpp:24, 29, 34, 39: a copy of the object -/
def castCopy (t : Ty) (fuel : Nat) (hp : Heap) (v : Handle) : Res (Heap × List Nat) :=
  match p.castTo (p.run fuel) hp v t.val with
  | .error e => .error e
  | .ok (hp', .obj a _) => .ok (hp', readCells hp' a (p.size t))
  | .ok _ => .error .ub

/-- `cast<const T&>(value)`, printer.cpp:105, 118: the object itself -/
def castRef (t : Ty) (fuel : Nat) (hp : Heap) (v : Handle) : Res (Heap × List Nat) :=
  match p.castTo (p.run fuel) hp v t.cref with
  | .error e => .error e
  | .ok (hp', .obj a _) => .ok (hp', readCells hp' a (p.size t))
  | .ok _ => .error .ub

/-- `value.call<size_t>("size")`, printer.cpp:131, 183, 192, 213 -/
def callSize (sizeT : Ty) (fuel : Nat) (hp : Heap) (v : Handle) : Res (Heap × Nat) :=
  match p.callMethod fuel hp v "size".toList sizeT.val [] with
  | .error e => .error e
  | .ok (hp', some (.obj a _)) => .ok (hp', hp'.mem a)
  | .ok _ => .error .ub

/-- `map.call< std::vector<std::string> >("keys")`, printer.cpp:218: the addresses of the strings in the vector that it gives -/
def callKeys (keysT stringT : Ty) (fuel : Nat) (hp : Heap) (v : Handle) : Res (Heap × List Nat) :=
  match p.callMethod fuel hp v "keys".toList keysT.val [] with
  | .error e => .error e
  | .ok (hp', some (.obj a _)) => .ok (hp', (List.range (hp'.mem (a + 1))).map fun i => hp'.mem a + p.size stringT * i)
  | .ok _ => .error .ub

section loops
variable {σ α : Type}

/-- The loop of `printObject`, printer.tcc:33-48, with call-backs that use memory; `name` is the text of a key. -/
def printMembersM (name : σ → α → Bytes) (fn : α → σ → Writer → Res (σ × Writer)) (skip : α → σ → Res (σ × Bool)) :
    List α → Bool → σ → Writer → Res (σ × Writer × Bool)
  | [], _, s, w => .ok (s, w, true)
  | k :: ks, first, s, w =>
    if w.ok then do
      let q ← skip k s
      if q.2 then printMembersM name fn skip ks first q.1 w
      else
        let w1 ← itemLayout first w
        let w2 ← formatString w1 (name q.1 k)
        let r ← fn k q.1 (w2.push [58]).space
        printMembersM name fn skip ks false r.1 r.2
    else .ok (s, w, false)

/-- `printObject`, printer.tcc:21-57 -/
def printObjectM (name : σ → α → Bytes) (fn : α → σ → Writer → Res (σ × Writer)) (skip : α → σ → Res (σ × Bool)) (keys : List α)
    (s : σ) (w : Writer) : Res (σ × Writer) := do
  let many := decide (keys.length > 1)
  let w1 ← openLayout many (w.push [123])
  let q ← printMembersM name fn skip keys true s w1
  if q.2.2 then
    let w2 ← closeLayout many q.2.1
    .ok (q.1, w2.push [125])
  else .ok (q.1, q.2.1)

/-- The loop of `printArray`, printer.tcc:78-89, over the indices -/
def printItemsM (fn : Nat → σ → Writer → Res (σ × Writer)) : List Nat → Bool → σ → Writer → Res (σ × Writer × Bool)
  | [], _, s, w => .ok (s, w, true)
  | i :: is, first, s, w =>
    if w.ok then do
      let w1 ← itemLayout first w
      let r ← fn i s w1
      printItemsM fn is false r.1 r.2
    else .ok (s, w, false)

/-- `printArray`, printer.tcc:59-98 -/
def printArrayM (fn : Nat → σ → Writer → Res (σ × Writer)) (n : Nat) (s : σ) (w : Writer) : Res (σ × Writer) := do
  let many := decide (n > 1)
  let w1 ← openLayout many (w.push [91])
  let q ← printItemsM fn (List.range n) true s w1
  if q.2.2 then
    let w2 ← closeLayout many q.2.1
    .ok (q.1, w2.push [93])
  else .ok (q.1, q.2.1)

end loops

/-- `printer->isEmpty(value)`, printer.cpp:66, 103-106, 116-119, 129-132, 149-152, 181-184, 211-214. The first number bounds how
many pointers are followed; C++ has no bound but the stack. -/
def isEmptyP (N : NativeW) (c : WCache) (F : Nat) : Nat → TyId → Handle → Heap → Res (Heap × Bool)
  | 0, _, _, _ => .error .diverge
  | n + 1, ty, o, hp =>
    match Assoc.get c ty with
    | none => .error .ub
    | some st =>
      match st.kind with
      | .bool | .custom | .object => .ok (hp, false)
      | .int => do
        let q ← castRef p N.intT F hp o
        .ok (q.1, N.toInt q.2 == 0)
      | .float => do
        let q ← castRef p N.floatT F hp o
        .ok (q.1, N.toFlt q.2 == 0 || N.toFlt q.2 == 0x8000000000000000)
      | .string | .list | .map => do
        let q ← callSize p N.sizeT F hp o
        .ok (q.1, q.2 == 0)
      | .pointer => do
        let b ← castBool p N.boolT F hp o
        if b.2 then
          let d ← callValue p F b.1 o "operator*".toList []
          match st.inner with
          | none => .error .ub
          | some t => isEmptyP N c F n t d.2 d.1
        else .ok (b.1, true)

/-- what the printers that are not modelled here do -/
abbrev OtherW := TyId → WState → Handle → Heap → Writer → Res (Heap × Writer)

/-- `printer->print(writer, value)`, printer.cpp:93-334. `E` bounds how many pointers `isEmpty` follows. -/
def printP (N : NativeW) (other : OtherW) (env : Env) (c : WCache) (F E : Nat) :
    Nat → TyId → Handle → Heap → Writer → Res (Heap × Writer)
  | 0, _, _, _, _ => .error .diverge
  | n + 1, ty, o, hp, w =>
    match Assoc.get c ty with
    | none => .error .ub
    | some st =>
      match st.kind with
      | .bool => do      -- printer.cpp:22-25, 93-96
        let q ← castCopy p N.boolT F hp o
        .ok (q.1, formatBool w (N.toBool q.2))
      | .int => do       -- printer.cpp:27-30, 108-111
        let q ← castCopy p N.intT F hp o
        .ok (q.1, formatInt w (N.toInt q.2))
      | .float => do     -- printer.cpp:32-35, 121-124
        let q ← castCopy p N.floatT F hp o
        .ok (q.1, w.push (env.fmtG (N.toFlt q.2)))
      | .string => do    -- printer.cpp:37-40, 134-137
        let q ← castCopy p N.stringT F hp o
        let w' ← formatString w (N.toStr q.2)
        .ok (q.1, w')
      | .pointer => do   -- printer.cpp:154-163
        let b ← castBool p N.boolT F hp o
        if b.2 then
          let d ← callValue p F b.1 o "operator*".toList []
          match st.inner with
          | none => .error .ub
          | some t => printP N other env c F E n t d.2 d.1 w
        else .ok (b.1, formatNull w)
      | .list => do      -- printer.cpp:186-193
        let s ← callSize p N.sizeT F hp o
        printArrayM (fun i (h : Heap) w => do
          let ix := h.newObj (fun _ => i) (p.size N.sizeT)
          let e ← callValue p F ix.1 o "at".toList [.native N.sizeT.lref ix.2]
          match st.inner with
          | none => .error .ub
          | some t => printP N other env c F E n t e.2 e.1 w) s.2 s.1 w
      | .map => do       -- printer.cpp:216-225
        let ks ← callKeys p N.keysT N.stringT F hp o
        printObjectM (fun (h : Heap) k => N.toStr (readCells h k (p.size N.stringT))) (fun k h w => do
          let e ← callValue p F h o "at".toList [.native N.stringT.cref k]
          match st.inner with
          | none => .error .ub
          | some t => printP N other env c F E n t e.2 e.1 w) (fun _ h => .ok (h, false)) ks.2 ks.1 w
      | .object =>       -- printer.cpp:268-302
        let getField := fun a =>
          match Assoc.get st.keys a with
          | none => (.error .err : Res (Bytes × TyId))
          | some k =>
            match Assoc.get st.fields k with
            | none => .error .err
            | some t => .ok (k, t)
        printObjectM (fun (_ : Heap) (a : Bytes) => a) (fun a h w => do
            let f ← getField a
            let v ← o.field p (nameOf f.1)
            printP N other env c F E n f.2 v h w)
          (fun a h =>
            if !w.opts.compact && !st.skipEmpty.contains a then .ok (h, false)
            else do
              let f ← getField a
              let v ← o.field p (nameOf f.1)
              isEmptyP p N c F E f.2 v h)
          st.sortedKeys hp w
      | .custom => other ty st o hp w

/-- `json::print(writer, value)`, printer.cpp:371-389 -/
def printMem (N : NativeW) (other : OtherW) (env : Env) (F E n : Nat) (c : WCache) (ty : TyId) (o : Handle) (hp : Heap) (w : Writer) :
    Res (Heap × Writer) × WCache :=
  let q := getPrinter env n ty c
  match q.1 with
  | .error e => (.error e, q.2)
  | .ok _ => (printP p N other env q.2 F E n ty o hp w, q.2)

end Reflect.Json

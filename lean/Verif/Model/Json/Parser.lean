import Verif.Model.Json.Reader
/-
  The generic parsing functions of src/utils/json/parser.tcc.

  * A call-back `fn` of `parseObject`/`parseArray` is a function on a state `σ` (what the C++ lambda
    captures by reference) and the reader; a fault of the call-back is the exception it throws.
  * Every loop and every recursion is driven by a fuel argument; running out of it is the fault
    `diverge`, which the theorems show does not happen with enough fuel.
-/
namespace Reflect.Json

/-- The loop of `parseObject`, parser.tcc:60-70.  `key` is a reference to the reader's buffer
(parser.tcc:62), so what the call-back gets is the buffer as it is after the next token was read. -/
def objLoop {σ : Type} (fn : Bytes → σ → Reader → Res (σ × Reader)) : Nat → σ → Reader → Res (σ × Reader)
  | 0, _, _ => .error .diverge
  | n + 1, a, r =>
    if r.ok then do
      let p ← r.expectToken .string
      let _ ← p.1.asString p.2
      let q ← p.2.expectToken .keySeparator
      let c ← fn q.2.buf a q.2
      let e ← c.2.nextToken
      if e.1.type = .objectEnd then .ok (c.1, e.2)
      else do
        let _ ← e.2.mayAssert e.1 .separator
        objLoop fn n c.1 (e.2.assertToken e.1 .separator).2
    else .ok (a, r)

/-- `parseObject`, parser.tcc:47-71 -/
def parseObject {σ : Type} (fn : Bytes → σ → Reader → Res (σ × Reader)) (n : Nat) (a : σ) (r : Reader) :
    Res (σ × Reader) := do
  let p ← r.nextToken
  if p.1.type = .null then .ok (a, p.2)
  else do
    let _ ← p.2.mayAssert p.1 .objectStart
    let q ← (p.2.assertToken p.1 .objectStart).2.peekToken
    if q.1.type = .objectEnd then
      let e ← q.2.expectToken .objectEnd
      .ok (a, e.2)
    else objLoop fn n a q.2

/-- The loop of `parseArray`, parser.tcc:86-92; `i` is the loop variable. -/
def arrLoop {σ : Type} (fn : Nat → σ → Reader → Res (σ × Reader)) : Nat → Nat → σ → Reader → Res (σ × Reader)
  | 0, _, _, _ => .error .diverge
  | n + 1, i, a, r =>
    if r.ok then do
      let c ← fn i a r
      let e ← c.2.nextToken
      if e.1.type = .arrayEnd then .ok (c.1, e.2)
      else do
        let _ ← e.2.mayAssert e.1 .separator
        arrLoop fn n (i + 1) c.1 (e.2.assertToken e.1 .separator).2
    else .ok (a, r)

/-- `parseArray`, parser.tcc:73-93 -/
def parseArray {σ : Type} (fn : Nat → σ → Reader → Res (σ × Reader)) (n : Nat) (a : σ) (r : Reader) :
    Res (σ × Reader) := do
  let p ← r.nextToken
  if p.1.type = .null then .ok (a, p.2)
  else do
    let _ ← p.2.mayAssert p.1 .arrayStart
    let q ← (p.2.assertToken p.1 .arrayStart).2.peekToken
    if q.1.type = .arrayEnd then
      let e ← q.2.expectToken .arrayEnd
      .ok (a, e.2)
    else arrLoop fn n 0 a q.2

/-- `skip`, parser.tcc:96-124.  In the last case the code hands a `Token` object to a `%s` of a
variadic function, which is undefined. -/
def skip : Nat → Reader → Res Reader
  | 0, _ => .error .diverge
  | n + 1, r => do
    let p ← r.peekToken
    if p.2.ok then
      match p.1.type with
      | .null | .bool | .int | .float | .string => do
        let q ← p.2.nextToken
        .ok q.2
      | .arrayStart => do
        let q ← parseArray (fun _ (_ : Unit) r => do .ok ((), ← skip n r)) n () p.2
        .ok q.2
      | .objectStart => do
        let q ← parseObject (fun _ (_ : Unit) r => do .ok ((), ← skip n r)) n () p.2
        .ok q.2
      | _ => .error .ub
    else .ok p.2

/-- `parseNull`, parser.tcc:17-20 -/
def parseNull (r : Reader) : Res Reader := do
  let p ← r.expectToken .null
  .ok p.2

/-- `parseBool`, parser.tcc:22-25: on a mismatch `expectToken` hands out an end-of-stream token, whose
`asBool` raises. -/
def parseBool (r : Reader) : Res (Bool × Reader) := do
  let p ← r.expectToken .bool
  .ok (← p.1.asBool p.2, p.2)

/-- `parseInt`, parser.tcc:27-30 -/
def parseInt (r : Reader) : Res (Int × Reader) := do
  let p ← r.expectToken .int
  .ok (← p.1.asInt p.2, p.2)

/-- `parseFloat`, parser.tcc:32-40, up to `std::stod`: integer tokens are let through and then refused
by `asFloat`. -/
def parseFloatText (r : Reader) : Res (Bytes × Reader) := do
  let p ← r.nextToken
  let _ ← (if p.1.type = .int then .ok () else p.2.mayAssert p.1 .float : Res Unit)
  let r' := if p.1.type = .int then p.2 else (p.2.assertToken p.1 .float).2
  .ok (← p.1.asFloatText r', r')

/-- `parseString`, parser.tcc:42-45 -/
def parseString (r : Reader) : Res (Bytes × Reader) := do
  let p ← r.expectToken .string
  .ok (← p.1.asString p.2, p.2)

end Reflect.Json

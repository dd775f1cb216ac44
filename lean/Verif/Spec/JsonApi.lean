import Verif.Spec.JsonTree
/-
  Uses of the reader's interface, as sequences of calls.
-/
namespace Reflect.Json

/-- the text of a token just delivered -/
def tokText (t : Token) (r : Reader) : Option Bytes := if t.val = .buffer then some r.buf else none

/-- Call `nextToken` until it delivers the end of the stream; `n` bounds the number of calls. -/
def readAll : Nat → Reader → Res (List Tok × Reader)
  | 0, _ => .error .diverge
  | n + 1, r => do
    let p ← r.nextToken
    if p.1.type = .eos then .ok ([], p.2)
    else
      let q ← readAll n p.2
      .ok ((p.1, tokText p.1 p.2) :: q.1, q.2)

/-- Call `nextToken` exactly `n` times. -/
def takeToks : Nat → Reader → Res (List Tok × Reader)
  | 0, r => .ok ([], r)
  | n + 1, r => do
    let p ← r.nextToken
    let q ← takeToks n p.2
    .ok ((p.1, tokText p.1 p.2) :: q.1, q.2)

/-- A call on a reader. -/
inductive ROp where
  | peek
  | next
  | expect (t : TokType)
  | error (m : Msg)

/-- The reader after a sequence of calls (a call that runs into undefined behaviour ends it). -/
def runOps : List ROp → Reader → Res Reader
  | [], r => .ok r
  | .peek :: l, r => do let p ← r.peekToken; runOps l p.2
  | .next :: l, r => do let p ← r.nextToken; runOps l p.2
  | .expect t :: l, r => do let p ← r.expectToken t; runOps l p.2
  | .error m :: l, r => runOps l (r.error m)

end Reflect.Json

import Verif.Model.Json.Reader
/-
  JSON output: `json::Writer`, the formatting functions and the generic printing functions.

  Code modelled: src/utils/json/writer.{h,tcc,cpp}, src/utils/json/format.cpp,
  src/utils/json/printer.tcc (lines 14-98).

  * The stream is an in-memory stream that never fails, so `operator bool` (writer.h:36) is "no error".
  * Error texts are an enumeration of the call sites.
-/
namespace Reflect.Json

/-- `Writer::Options`, writer.h:19-28 -/
structure WOpts where
  pretty : Bool
  compact : Bool
  escapeUnicode : Bool
  validateUnicode : Bool
  deriving DecidableEq, Repr

/-- `Writer::Default`, writer.h:27 -/
def WOpts.default : WOpts := ⟨false, false, true, true⟩

/-- The error sites of format.cpp. -/
inductive WMsg where
  | utf8Header      -- format.cpp:59, 79
  | utf8Encoding    -- format.cpp:60, 67, 80, 88, 94-96
  deriving DecidableEq, Repr

/-- `json::Writer`, writer.h:58-65: the text written so far, the error and the indentation depth. -/
structure Writer where
  out : Bytes := []
  err : Option WMsg := none
  indent : Nat := 0
  opts : WOpts
  deriving DecidableEq, Repr

/-- `Writer::operator bool`, writer.h:36 -/
def Writer.ok (w : Writer) : Bool := w.err.isNone

/-- `Writer::error`, writer.tcc:16-22: unlike the reader's, the latest error replaces the others. -/
def Writer.error (w : Writer) (m : WMsg) : Writer := { w with err := some m }

/-- `if (cond) writer.error(...)` -/
def Writer.errorIf (w : Writer) (cond : Bool) (m : WMsg) : Writer := if cond then w.error m else w

/-- `Writer::push`, writer.h:42-44 -/
def Writer.push (w : Writer) (bs : Bytes) : Writer := { w with out := w.out ++ bs }

/-- `Writer::indent`, writer.h:53 -/
def Writer.indented (w : Writer) : Writer := { w with indent := w.indent + 1 }

/-- `Writer::unindent`, writer.h:54 (`size_t` below zero does not occur: the calls are paired). -/
def Writer.unindented (w : Writer) : Writer := { w with indent := w.indent - 1 }

/-- the size of the string of blanks, writer.cpp:13 -/
def blanks : Nat := 4096

/-- `Writer::space`, writer.cpp:15-20 -/
def Writer.space (w : Writer) : Writer := if w.opts.pretty then w.push [32] else w

/-- `Writer::newline`, writer.cpp:22-30: writes `indent * 4` bytes from a string of 4096 blanks; more
than that is a read outside of it. -/
def Writer.newline (w : Writer) : Res Writer :=
  if w.opts.pretty then
    if w.indent * 4 ≤ blanks then .ok ((w.push [10]).push (List.replicate (w.indent * 4) 32))
    else .error .ub
  else .ok w

/-! ### Numbers -/

/-- `%ld` -/
def decText (i : Int) : Bytes := if i < 0 then 45 :: decDigits i.natAbs else decDigits i.natAbs

/-- `formatInt`, format.cpp:46-49 by `format`, 30-42: at most twenty characters, so the 128-byte buffer
is large enough. -/
def formatInt (w : Writer) (i : Int) : Writer := w.push (decText i)

/-- `%04x` -/
def hex4 (n : Nat) : Bytes := List.replicate (4 - (hexDigits n).length) 48 ++ hexDigits n

/-! ### Strings -/

/-- The loop of format.cpp:66-69 (`push := false`) and 87-91 (`push := true`): `n` continuation bytes
left, `s` the string from position `i`.  Positions past the end are not reached: the code reports an
error before the loop in that case, and the loop then does not run. -/
def contBytes (push : Bool) : Nat → Bytes → Nat → Writer → Nat × Bytes × Writer
  | 0, s, code, w => (code, s, w)
  | n + 1, s, code, w =>
    if w.ok then
      match s with
      | [] => (code, [], w)
      | c :: s =>
        let w1 := w.errorIf (c.toNat &&& 0xC0 != 0x80) .utf8Encoding
        let w2 := if push then w1.push [c] else w1
        contBytes push n s ((code <<< 6) ||| (c.toNat &&& 0x3F)) w2
    else (code, s, w)

/-- `escapeUnicode`, format.cpp:56-74: gives the rest of the string.  A header of 0xFF makes `clz`
undefined. -/
def escapeUnicode (w : Writer) (c : Byte) (s : Bytes) : Res (Bytes × Writer) :=
  match leadingOnes c with
  | none => .error .ub
  | some bytes =>
    let w1 := w.errorIf (bytes > 4 || bytes < 2) .utf8Header
    let w2 := w1.errorIf (bytes > s.length + 1) .utf8Encoding
    let p := contBytes false (bytes - 1) s (c.toNat &&& ((1 <<< (7 - bytes)) - 1)) w2
    .ok (p.2.1, p.2.2.push ([92, 117] ++ hex4 p.1))

/-- `readUnicode`, format.cpp:76-100 -/
def copyUnicode (w : Writer) (c : Byte) (s : Bytes) : Res (Bytes × Writer) :=
  match leadingOnes c with
  | none => .error .ub
  | some bytes =>
    let w1 := w.errorIf (bytes > 4 || bytes < 2) .utf8Header
    let w2 := w1.errorIf (bytes > s.length + 1) .utf8Encoding
    let p := contBytes true (bytes - 1) s (c.toNat &&& ((1 <<< (7 - bytes)) - 1)) (w2.push [c])
    .ok (p.2.1, p.2.2.errorIf ((bytes == 4 && p.1 ≤ 0xFFFF) || (bytes == 3 && p.1 ≤ 0x7FF)
      || (bytes == 2 && p.1 ≤ 0x7F)) .utf8Encoding)

/-- The `switch` of format.cpp:120-131 -/
def escapeChar (c : Byte) : Bytes :=
  if c = 34 then [92, 34]
  else if c = 47 then [92, 47]
  else if c = 92 then [92, 92]
  else if c = 8 then [92, 98]
  else if c = 12 then [92, 102]
  else if c = 10 then [92, 110]
  else if c = 13 then [92, 114]
  else if c = 9 then [92, 116]
  else [c]

/-- The loop of format.cpp:106-132; the first argument bounds the number of turns (each turn takes at
least one byte, so the length of the string is enough). -/
def formatLoop : Nat → Bytes → Writer → Res Writer
  | _, [], w => .ok w
  | 0, _ :: _, _ => .error .diverge
  | n + 1, c :: s, w =>
    if 0x80 ≤ c.toNat ∧ w.opts.escapeUnicode = true then do
      let p ← escapeUnicode w c s
      formatLoop n p.1 p.2
    else if 0x80 ≤ c.toNat ∧ w.opts.validateUnicode = true then do
      let p ← copyUnicode w c s
      formatLoop n p.1 p.2
    else formatLoop n s (w.push (escapeChar c))

/-- `formatString`, format.cpp:102-135 -/
def formatString (w : Writer) (s : Bytes) : Res Writer := do
  let w1 ← formatLoop s.length s (w.push [34])
  .ok (w1.push [34])

/-- `formatNull`, format.cpp:13-17 -/
def formatNull (w : Writer) : Writer := w.push [110, 117, 108, 108]

/-- `formatBool`, format.cpp:19-26 -/
def formatBool (w : Writer) (b : Bool) : Writer :=
  w.push (if b then [116, 114, 117, 101] else [102, 97, 108, 115, 101])

/-! ### Objects and arrays -/

/-- the blank or line break after the opening bracket, printer.tcc:26-30, 71-75 -/
def openLayout (many : Bool) (w : Writer) : Res Writer :=
  if many then w.indented.newline else .ok w.space

/-- the blank or line break before the closing bracket, printer.tcc:50-54, 91-95 -/
def closeLayout (many : Bool) (w : Writer) : Res Writer :=
  if many then w.unindented.newline else .ok w.space

/-- the separator before every item but the first, printer.tcc:37-41, 82-86 -/
def itemLayout (first : Bool) (w : Writer) : Res Writer :=
  if first then .ok w else (w.push [44]).newline

/-- The loop of `printObject`, printer.tcc:33-48; the flag says whether it ran to its end (rather than
by the `return` of line 34). -/
def printMembers (fn : Bytes → Writer → Res Writer) (skip : Bytes → Res Bool) :
    List Bytes → Bool → Writer → Res (Writer × Bool)
  | [], _, w => .ok (w, true)
  | k :: ks, first, w =>
    if w.ok then do
      let s ← skip k
      if s then printMembers fn skip ks first w
      else
        let w1 ← itemLayout first w
        let w2 ← formatString w1 k
        let w3 ← fn k (w2.push [58]).space
        printMembers fn skip ks false w3
    else .ok (w, false)

/-- `printObject`, printer.tcc:21-57 -/
def printObject (fn : Bytes → Writer → Res Writer) (skip : Bytes → Res Bool) (keys : List Bytes)
    (w : Writer) : Res Writer := do
  let many := decide (keys.length > 1)
  let w1 ← openLayout many (w.push [123])
  let p ← printMembers fn skip keys true w1
  if p.2 then
    let w2 ← closeLayout many p.1
    .ok (w2.push [125])
  else .ok p.1

/-- The loop of `printArray`, printer.tcc:78-89, over the items themselves (the code hands the index to
the call-back, which fetches the item; nothing changes the array meanwhile). -/
def printItems {α : Type} (fn : α → Writer → Res Writer) : List α → Bool → Writer → Res (Writer × Bool)
  | [], _, w => .ok (w, true)
  | x :: xs, first, w =>
    if w.ok then do
      let w1 ← itemLayout first w
      let w2 ← fn x w1
      printItems fn xs false w2
    else .ok (w, false)

/-- `printArray`, printer.tcc:59-98, with the default `skipFn` -/
def printArray {α : Type} (fn : α → Writer → Res Writer) (xs : List α) (w : Writer) : Res Writer := do
  let many := decide (xs.length > 1)
  let w1 ← openLayout many (w.push [91])
  let p ← printItems fn xs true w1
  if p.2 then
    let w2 ← closeLayout many p.1
    .ok (w2.push [93])
  else .ok p.1

end Reflect.Json

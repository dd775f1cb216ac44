import Verif.Model.ErrorFormat
/-
  JSON input: the byte stream, `json::Reader` and the tokenizer.

  Code modelled: src/utils/json/reader.{h,tcc,cpp}, src/utils/json/token.{h,cpp},
  src/utils/json/utils.h.

  * `char` is a byte (`UInt8`); the comparisons the code makes on (signed) `char` values are
    comparisons with ASCII constants or masks of the low eight bits, which do not depend on the sign.
    `std::isspace`/`std::isdigit` on a negative `char` are taken as glibc computes them in the "C"
    locale: false.
  * `std::istream` is modelled for an in-memory stream (`badbit` is never set): the unread bytes and
    `eofbit`, `failbit` with the behaviour of libstdc++'s `get()` and `peek()`.
  * Errors are kept as an enumeration of the code's `reader.error(...)` sites with what is formatted there,
    and the line and column the code prefixes; `Msg.text` is what is formatted, by `verrorFormat` of
    `Verif.Model.ErrorFormat`, which is undefined if it is too long. All but two sites have messages that
    are short whatever the input is (`Msg.short`, Props/JsonMessage.lean), so only these two check it.
  * `__builtin_clz(0)`, whose result is undefined, and the shift by a negative amount that follows it,
    set the flag `ub`; nothing is claimed of a reader once the flag is set.
-/
namespace Reflect.Json

/-- `Reader::Options`, reader.h:19-27 -/
structure ROpts where
  allowComments : Bool
  unescapeUnicode : Bool
  validateUnicode : Bool
  deriving DecidableEq, Repr

/-- `Reader::Default`, reader.h:26 -/
def ROpts.default : ROpts := ⟨false, true, true⟩

/-- `Token::Type`, token.h:19-28 -/
inductive TokType where
  | noToken | objectStart | objectEnd | arrayStart | arrayEnd | separator | keySeparator
  | string | int | float | bool | null | eos
  deriving DecidableEq, Repr

/-- What `Token::value_` points to (token.h:46, token.cpp:13-26): nothing, one of the two constant
strings for booleans, or **the reader's own buffer** - so the text of a string or number token is
whatever that buffer holds when the token is looked at. -/
inductive TVal where
  | none
  | bool (b : Bool)
  | buffer
  deriving DecidableEq, Repr

/-- `Token`, token.h:17-47 -/
structure Token where
  type : TokType
  val : TVal := .none
  deriving DecidableEq, Repr

/-- The error sites of the reader, the tokenizer and the parsers (the `fmt` argument of `error`), with
what is formatted there. -/
inductive Msg where
  | comments                     -- token.cpp:125
  | literal (l : Bytes)          -- token.cpp:144
  | nonHex (c : Byte)            -- token.cpp:160, 211
  | hexDigits                    -- token.cpp:163, 214
  | utf8Header (c : Byte)        -- token.cpp:222
  | utf8Encoding                 -- token.cpp:229, 239
  | newlineInString              -- token.cpp:250
  | unknownEscape (c : Byte)     -- token.cpp:273
  | endOfString                  -- token.cpp:281
  | unexpectedChar (c : Byte)    -- token.cpp:371
  /-- reader.cpp:51; `text` is the text of the token, if it has one -/
  | unexpectedToken (got : TokType) (text : Option Bytes) (want : TokType)
  | unknownToken (got : TokType) (text : Option Bytes)   -- parser.cpp:322
  deriving DecidableEq, Repr

/-- `print(Token::Type)`, token.cpp:68-93 -/
def TokType.print : TokType → Bytes
  | .noToken => ascii "notok"
  | .objectStart => ascii "{"
  | .objectEnd => ascii "}"
  | .arrayStart => ascii "["
  | .arrayEnd => ascii "]"
  | .separator => ascii ","
  | .keySeparator => ascii ":"
  | .string => ascii "string"
  | .int => ascii "int"
  | .float => ascii "float"
  | .bool => ascii "bool"
  | .null => ascii "null"
  | .eos => ascii "eos"

/-- `Token::print`, token.cpp:95-105, of a token of this type and text -/
def printToken (t : TokType) (text : Option Bytes) : Bytes :=
  ascii "<Token " ++ t.print ++ (match text with | some s => ascii ": " ++ s | none => []) ++ ascii ">"

/-- a string as `%s` writes it, given its `c_str()` (error.h:70-73): up to the first zero byte -/
def cstr (s : Bytes) : Bytes := s.takeWhile (· ≠ 0)

/-- `%x` of a `char`, which is signed and widened to an `int` -/
def hexChar (c : Byte) : Bytes :=
  Json.hexDigits (if c.toNat < 128 then c.toNat else 2 ^ 32 - 256 + c.toNat)

/-- the text that is formatted at an error site -/
def Msg.text : Msg → Bytes
  | .comments => ascii "comments are not allowed"
  | .literal l => ascii "expected literal <" ++ cstr l ++ ascii ">"
  | .nonHex c => ascii "non-hex digit in unicode code point <" ++ [c] ++ ascii ">"
  | .hexDigits => ascii "\\u requires 4 hex digits"
  | .utf8Header c => ascii "invalid UTF-8 header: " ++ hexChar c
  | .utf8Encoding => ascii "invalid UTF-8 encoding"
  | .newlineInString => ascii "invalid \\n character in a string"
  | .unknownEscape c => ascii "unknown escaped character <" ++ [c] ++ ascii ">"
  | .endOfString => ascii "unexpected end of string"
  | .unexpectedChar c => ascii "unexpected character <" ++ [c] ++ ascii ">"
  | .unexpectedToken got text want =>
      ascii "unexpected token <" ++ cstr (printToken got text) ++ ascii ">, expecting <" ++ want.print ++ ascii ">"
  | .unknownToken got text => ascii "unknown expected token <" ++ cstr (printToken got text) ++ ascii ">"

/-- `json::Error` with the `line:pos:` prefix of reader.tcc:23-26 -/
structure JError where
  line : Nat
  pos : Nat
  msg : Msg
  deriving DecidableEq, Repr

/-- The text of an error, `what()`: reader.tcc:23-26. A byte of it may be indeterminate. -/
def JError.text (e : JError) : Res (List (Option Byte)) := match verrorFormat e.msg.text with
  | .ok s => .ok ((decDigits e.line ++ [58] ++ decDigits e.pos ++ [58, 32]).map some ++ s)
  | .error f => .error f

/-- `json::Reader` (reader.h:65-74) over an in-memory stream: `rest` is what the stream has not
delivered yet, `eof`/`fail` are its state bits. -/
structure Reader where
  rest : Bytes
  eof : Bool := false
  fail : Bool := false
  buf : Bytes := []
  err : Option JError := none
  pos : Nat := 1
  line : Nat := 1
  opts : ROpts
  tok : Token := ⟨.noToken, .none⟩
  ub : Bool := false
  deriving DecidableEq, Repr

/-- `Reader::Reader(stream, options)`, reader.h:29-35 -/
def Reader.open (o : ROpts) (s : Bytes) : Reader := { rest := s, opts := o }

/-- `Reader::ok`, reader.h:37: no error recorded and the stream has not failed. -/
def Reader.ok (r : Reader) : Bool := r.err.isNone && !r.fail

/-- `Reader::error(fmt, ...)`, reader.tcc:16-27: only the first error is kept. -/
def Reader.error (r : Reader) (m : Msg) : Reader :=
  match r.err with
  | some _ => r
  | none => { r with err := some ⟨r.line, r.pos, m⟩ }

/-- `if (cond) reader.error(...)` -/
def Reader.errorIf (r : Reader) (cond : Bool) (m : Msg) : Reader := if cond then r.error m else r

/-- `Reader::peek`, reader.h:44, i.e. `istream::peek`: on a stream that is not good it sets
`failbit`; at the end it sets `eofbit`; both give `EOF`, which becomes `char(-1)`. -/
def Reader.peek (r : Reader) : Byte × Reader :=
  if r.eof || r.fail then (255, { r with fail := true })
  else match r.rest with
    | [] => (255, { r with eof := true })
    | b :: _ => (b, r)

/-- `Reader::pop`, reader.h:45, i.e. `pos_++` and `istream::get`: on a stream that is not good it
sets `failbit`; at the end it sets `eofbit` and `failbit`; both give `char(-1)`. -/
def Reader.pop (r : Reader) : Byte × Reader :=
  if r.eof || r.fail then (255, { r with pos := r.pos + 1, fail := true })
  else match r.rest with
    | [] => (255, { r with pos := r.pos + 1, eof := true, fail := true })
    | b :: bs => (b, { r with pos := r.pos + 1, rest := bs })

/-- `Reader::save`, reader.h:52 -/
def Reader.save (r : Reader) (c : Byte) : Reader := { r with buf := r.buf ++ [c] }

/-- `Reader::resetBuffer`, reader.h:54 -/
def Reader.resetBuffer (r : Reader) : Reader := { r with buf := [] }

/-- `Reader::newline`, reader.h:58 -/
def Reader.newline (r : Reader) : Reader := { r with pos := 1, line := r.line + 1 }

/-- The measure of the loops `while (reader) { ... pop ... }`: how many more successful turns. -/
def Reader.need (r : Reader) : Nat := if r.ok then r.rest.length + 1 else 0

theorem Reader.need_error (r : Reader) (m : Msg) : (r.error m).need = 0 := by
  unfold Reader.need Reader.error Reader.ok
  cases h : r.err <;> simp [h]

theorem Reader.error_need_le (r : Reader) (m : Msg) : (r.error m).need ≤ r.need := by
  rw [Reader.need_error]; exact Nat.zero_le _

theorem Reader.errorIf_need_le (r : Reader) (b : Bool) (m : Msg) : (r.errorIf b m).need ≤ r.need := by
  unfold Reader.errorIf
  split
  · exact Reader.error_need_le _ _
  · exact Nat.le_refl _

theorem Reader.pop_need_le (r : Reader) : r.pop.2.need ≤ r.need := by
  unfold Reader.pop Reader.need Reader.ok
  split
  · simp
  · split <;> (split <;> simp_all) <;> omega

theorem Reader.pop_need_lt (r : Reader) (h : r.ok = true) : r.pop.2.need < r.need := by
  unfold Reader.need
  rw [if_pos h]
  unfold Reader.pop Reader.ok at *
  split
  · simp
  · split <;> simp_all

theorem Reader.peek_need_le (r : Reader) : r.peek.2.need ≤ r.need := by
  unfold Reader.peek Reader.need Reader.ok
  split
  · simp
  · split <;> simp_all

theorem Reader.newline_need (r : Reader) : r.newline.need = r.need := rfl
theorem Reader.save_need (r : Reader) (c : Byte) : (r.save c).need = r.need := rfl
theorem Reader.resetBuffer_need (r : Reader) : r.resetBuffer.need = r.need := rfl

/-- `std::isspace` in the "C" locale -/
def isSpace (c : Byte) : Bool := c == 32 || (9 ≤ c.toNat && c.toNat ≤ 13)

/-- `std::isdigit` in the "C" locale -/
def isDigit (c : Byte) : Bool := 48 ≤ c.toNat && c.toNat ≤ 57

/-- token.cpp:127: `while (reader && (c = reader.pop()) != '\n') continue;` -/
def skipComment (r : Reader) : Reader :=
  if h : r.ok = true then
    if r.pop.1 = 10 then r.pop.2 else skipComment r.pop.2
  else r
termination_by r.need
decreasing_by exact r.pop_need_lt h

theorem skipComment_need_le (r : Reader) : (skipComment r).need ≤ r.need := by
  fun_induction skipComment r with
  | case1 r h h2 => exact r.pop_need_le
  | case2 r h h2 ih => exact Nat.le_trans ih r.pop_need_le
  | case3 r h => exact Nat.le_refl _

/-- `if (c == '\n') reader.newline();`, token.cpp:120 -/
def Reader.countNewline (r : Reader) (c : Byte) : Reader := if c = 10 then r.newline else r

theorem Reader.countNewline_need (r : Reader) (c : Byte) : (r.countNewline c).need = r.need := by
  unfold Reader.countNewline; split <;> rfl

/-- `if (!reader.allowComments()) reader.error("comments are not allowed");`, token.cpp:124-125 -/
def Reader.checkComments (r : Reader) : Reader := r.errorIf (!r.opts.allowComments) .comments

theorem Reader.checkComments_need_le (r : Reader) : r.checkComments.need ≤ r.need :=
  Reader.errorIf_need_le _ _ _

/-- `nextChar`, token.cpp:115-135: the next character that is neither white space nor part of a line
comment; `'\0'` when the reader stops first. -/
def nextChar (r : Reader) : Byte × Reader :=
  if h : r.ok = true then
    let c := r.pop.1
    let r1 := r.pop.2.countNewline c
    if isSpace c then nextChar r1
    else if c = 47 then
      if r1.peek.1 = 47 then nextChar (skipComment r1.peek.2.checkComments)
      else (c, r1.peek.2)
    else (c, r1)
  else (0, r)
termination_by r.need
decreasing_by
  · rw [Reader.countNewline_need]; exact r.pop_need_lt h
  · refine Nat.lt_of_le_of_lt (skipComment_need_le _) ?_
    refine Nat.lt_of_le_of_lt (Reader.checkComments_need_le _) ?_
    refine Nat.lt_of_le_of_lt (Reader.peek_need_le _) ?_
    rw [Reader.countNewline_need]; exact r.pop_need_lt h

/-- `readLiteral`, token.cpp:138-145: `while (reader && *l && (c = reader.pop()) == *l) l++;` then an
error if the literal `lit` was not used up; the last argument is what is left of it. -/
def readLiteral (lit : Bytes) (r : Reader) : Bytes → Reader
  | [] => r
  | l :: ls =>
    if r.ok then
      if r.pop.1 = l then readLiteral lit r.pop.2 ls else r.pop.2.error (.literal lit)
    else r.error (.literal lit)

/-- The value of a hexadecimal digit as computed in token.cpp:157-159. -/
def hexVal (c : Byte) : Option Nat :=
  if 48 ≤ c.toNat ∧ c.toNat ≤ 57 then some (c.toNat - 48)
  else if 97 ≤ c.toNat ∧ c.toNat ≤ 102 then some (c.toNat - 97 + 10)
  else if 65 ≤ c.toNat ∧ c.toNat ≤ 70 then some (c.toNat - 65 + 10)
  else none

/-- The loop of token.cpp:151-161: `n` is the number of turns left of the four; gives the code point,
the number of turns left when it stopped, and the reader.  (`uint32_t code` holds at most 16 bits here,
so it cannot overflow.) -/
def hexLoop (r : Reader) (code : Nat) : Nat → Nat × Nat × Reader
  | 0 => (code, 0, r)
  | n + 1 =>
    if r.ok then
      match hexVal r.pop.1 with
      | some d => hexLoop r.pop.2 ((code <<< 4) ||| d) n
      | none => hexLoop (r.pop.2.error (.nonHex r.pop.1)) (code <<< 4) n
    else (code, n + 1, r)

/-- `encode` of token.cpp:166-168; the argument of `save` is truncated to a `char`. -/
def encodeByte (code pos mask head : Nat) : Byte :=
  UInt8.ofNat (((code >>> (6 * pos)) &&& mask) ||| head)

/-- The bytes saved by token.cpp:170-191 for a code point.  The last branch, `reflectError`, cannot be
reached from four hexadecimal digits; it is rendered as saving nothing. -/
def encodeCode (code : Nat) : Bytes :=
  if code ≤ 0x7F then [UInt8.ofNat code]
  else if code ≤ 0x7FF then [encodeByte code 1 0x1F 0xC0, encodeByte code 0 0x3F 0x80]
  else if code ≤ 0xFFFF then
    [encodeByte code 2 0x0F 0xE0, encodeByte code 1 0x3F 0x80, encodeByte code 0 0x3F 0x80]
  else if code ≤ 0x1FFFFF then
    [encodeByte code 3 0x07 0xF0, encodeByte code 2 0x3F 0x80, encodeByte code 1 0x3F 0x80,
      encodeByte code 0 0x3F 0x80]
  else []

/-- Saving several bytes in a row. -/
def Reader.saveAll (r : Reader) (bs : Bytes) : Reader := { r with buf := r.buf ++ bs }

/-- `unescapeUnicode`, token.cpp:147-192 -/
def unescapeUnicode (r : Reader) : Reader :=
  let p := hexLoop r 0 4
  let r2 := p.2.2.errorIf (p.2.2.ok && p.2.1 != 0) .hexDigits
  if r2.ok then r2.saveAll (encodeCode p.1) else r2

/-- The loop of token.cpp:204-212: keeps the escape as text. -/
def rawHexLoop (r : Reader) : Nat → Nat × Reader
  | 0 => (0, r)
  | n + 1 =>
    if r.ok then
      match hexVal r.pop.1 with
      | some _ => rawHexLoop (r.pop.2.save r.pop.1) n
      | none => rawHexLoop (r.pop.2.error (.nonHex r.pop.1)) n
    else (n + 1, r)

/-- `readUnicode`, token.cpp:194-215 -/
def readUnicode (r : Reader) : Reader :=
  if r.opts.unescapeUnicode then unescapeUnicode r
  else
    let p := rawHexLoop (r.saveAll [92, 117]) 4
    p.2.errorIf (p.2.ok && p.1 != 0) .hexDigits

/-- `clz(~c)`, utils.h:15: the number of leading one bits of a byte, `none` for 0xFF where
`__builtin_clz` is applied to zero. -/
def leadingOnes (c : Byte) : Option Nat :=
  let n := c.toNat
  if n < 0x80 then some 0
  else if n < 0xC0 then some 1
  else if n < 0xE0 then some 2
  else if n < 0xF0 then some 3
  else if n < 0xF8 then some 4
  else if n < 0xFC then some 5
  else if n < 0xFE then some 6
  else if n < 0xFF then some 7
  else none

/-- The loop of token.cpp:227-231: `n` continuation bytes left. -/
def contLoop (r : Reader) (code : Nat) : Nat → Nat × Reader
  | 0 => (code, r)
  | n + 1 =>
    if r.ok then
      let c := r.pop.1
      let r1 := (r.pop.2.save c).errorIf (c.toNat &&& 0xC0 != 0x80) .utf8Encoding
      contLoop r1 ((code <<< 6) ||| (c.toNat &&& 0x3F)) n
    else (code, r)

/-- `validateUnicode(reader, c)`, token.cpp:217-240.  A header of 0xFF - which is also what `pop`
delivers at the end of the input - makes `clz` undefined. -/
def validateUnicode (r : Reader) (c : Byte) : Reader :=
  match leadingOnes c with
  | none => { (r.save c).error (.utf8Header c) with ub := true }
  | some bytes =>
    let r1 := (r.save c).errorIf (bytes > 4 || bytes < 2) (.utf8Header c)
    let mask := (1 <<< (7 - bytes)) - 1
    let p := contLoop r1 (c.toNat &&& mask) (bytes - 1)
    p.2.errorIf (!((bytes == 4 && p.1 > 0xFFFF) || (bytes == 3 && p.1 > 0x7FF)
      || (bytes == 2 && p.1 > 0x7F))) .utf8Encoding

/-- The one-character escapes of token.cpp:262-270: the byte saved for `\c`. -/
def simpleEscape (c : Byte) : Option Byte :=
  if c = 34 then some 34          -- \"
  else if c = 47 then some 47     -- \/
  else if c = 92 then some 92     -- \\
  else if c = 98 then some 8      -- \b
  else if c = 102 then some 12    -- \f
  else if c = 110 then some 10    -- \n
  else if c = 114 then some 13    -- \r
  else if c = 116 then some 9     -- \t
  else none

/-! Auxiliary facts needed to see that the loop of `readString` ends. -/

theorem hexLoop_need_le (n : Nat) : ∀ (r : Reader) (code : Nat),
    (hexLoop r code n).2.2.need ≤ r.need := by
  induction n with
  | zero => intro r code; exact Nat.le_refl _
  | succ n ih =>
    intro r code
    unfold hexLoop
    split
    · split
      · exact Nat.le_trans (ih _ _) r.pop_need_le
      · exact Nat.le_trans (ih _ _) (Nat.le_trans (Reader.error_need_le _ _) r.pop_need_le)
    · exact Nat.le_refl _

theorem rawHexLoop_need_le (n : Nat) : ∀ (r : Reader), (rawHexLoop r n).2.need ≤ r.need := by
  induction n with
  | zero => intro r; exact Nat.le_refl _
  | succ n ih =>
    intro r
    unfold rawHexLoop
    split
    · split
      · exact Nat.le_trans (ih _) (Nat.le_trans (Nat.le_of_eq (Reader.save_need _ _)) r.pop_need_le)
      · exact Nat.le_trans (ih _) (Nat.le_trans (Reader.error_need_le _ _) r.pop_need_le)
    · exact Nat.le_refl _

theorem unescapeUnicode_need_le (r : Reader) : (unescapeUnicode r).need ≤ r.need := by
  have h := hexLoop_need_le 4 r 0
  unfold unescapeUnicode
  simp only
  have h2 := Nat.le_trans (Reader.errorIf_need_le (hexLoop r 0 4).2.2
    ((hexLoop r 0 4).2.2.ok && (hexLoop r 0 4).2.1 != 0) .hexDigits) h
  split
  · exact h2
  · exact h2

theorem readUnicode_need_le (r : Reader) : (readUnicode r).need ≤ r.need := by
  unfold readUnicode
  split
  · exact unescapeUnicode_need_le r
  · exact Nat.le_trans (Reader.errorIf_need_le _ _ _) (rawHexLoop_need_le 4 (r.saveAll [92, 117]))

theorem contLoop_need_le (n : Nat) : ∀ (r : Reader) (code : Nat),
    (contLoop r code n).2.need ≤ r.need := by
  induction n with
  | zero => intro r code; exact Nat.le_refl _
  | succ n ih =>
    intro r code
    unfold contLoop
    split
    · exact Nat.le_trans (ih _ _) (Nat.le_trans (Reader.errorIf_need_le _ _ _)
        (Nat.le_trans (Nat.le_of_eq (Reader.save_need _ _)) r.pop_need_le))
    · exact Nat.le_refl _

theorem validateUnicode_need_le (r : Reader) (c : Byte) : (validateUnicode r c).need ≤ r.need := by
  unfold validateUnicode
  split
  · exact Reader.error_need_le (r.save c) _
  · exact Nat.le_trans (Reader.errorIf_need_le _ _ _) (Nat.le_trans (contLoop_need_le _ _ _)
      (Reader.errorIf_need_le (r.save c) _ _))

/-- The loop of `readString`, token.cpp:246-281, after the buffer has been cleared. -/
def readStringLoop (r : Reader) : Reader :=
  if h : r.ok = true then
    let c := r.pop.1
    let r1 := r.pop.2
    if c = 10 then readStringLoop (r1.error .newlineInString)
    else if 0x80 ≤ c.toNat ∧ r1.opts.validateUnicode = true then readStringLoop (validateUnicode r1 c)
    else if c = 34 then r1
    else if c = 92 then
      if r1.pop.1 = 117 then readStringLoop (readUnicode r1.pop.2)
      else match simpleEscape r1.pop.1 with
        | some e => readStringLoop (r1.pop.2.save e)
        | none => r1.pop.2.error (.unknownEscape r1.pop.1)
    else readStringLoop (r1.save c)
  else r.error .endOfString
termination_by r.need
decreasing_by
  · exact Nat.lt_of_le_of_lt (Reader.error_need_le _ _) (r.pop_need_lt h)
  · exact Nat.lt_of_le_of_lt (validateUnicode_need_le _ _) (r.pop_need_lt h)
  · exact Nat.lt_of_le_of_lt (Nat.le_trans (readUnicode_need_le _) (Reader.pop_need_le _)) (r.pop_need_lt h)
  · exact Nat.lt_of_le_of_lt (Nat.le_trans (Nat.le_of_eq (Reader.save_need _ _)) (Reader.pop_need_le _))
      (r.pop_need_lt h)
  · exact Nat.lt_of_le_of_lt (Nat.le_of_eq (Reader.save_need _ _)) (r.pop_need_lt h)

/-- `readString`, token.cpp:242-282 -/
def readString (r : Reader) : Reader := readStringLoop r.resetBuffer

/-- `readDigits` of token.cpp:290-293: `while (reader && isdigit(c = peek())) save(pop());` -/
def readDigits (r : Reader) : Reader :=
  if h : r.ok = true then
    if isDigit r.peek.1 then readDigits (r.peek.2.pop.2.save r.peek.2.pop.1) else r.peek.2
  else r
termination_by r.need
decreasing_by
  rw [Reader.save_need]
  by_cases h2 : r.peek.2.ok = true
  · exact Nat.lt_of_lt_of_le (Reader.pop_need_lt _ h2) r.peek_need_le
  · refine Nat.lt_of_le_of_lt (Reader.pop_need_le _) ?_
    unfold Reader.need
    rw [if_neg h2, if_pos h]
    exact Nat.succ_pos _

/-- `readChar(c)` of token.cpp:295-300 -/
def readChar (r : Reader) (c : Byte) : Bool × Reader :=
  if r.ok then
    if r.peek.1 = c then (true, r.peek.2.pop.2.save r.peek.2.pop.1) else (false, r.peek.2)
  else (false, r)

/-- `readChars(a, b)` of token.cpp:302-308; note the second `peek` when the first one is not `a`. -/
def readChars (r : Reader) (a b : Byte) : Bool × Reader :=
  if r.ok then
    if r.peek.1 = a then (true, r.peek.2.pop.2.save r.peek.2.pop.1)
    else if r.peek.2.peek.1 = b then
      (true, r.peek.2.peek.2.pop.2.save r.peek.2.peek.2.pop.1)
    else (false, r.peek.2.peek.2)
  else (false, r)

/-- `readNumber`, token.cpp:284-323 -/
def readNumber (r : Reader) (c : Byte) : TokType × Reader :=
  let r := readDigits (r.resetBuffer.save c)
  let dot := readChar r 46
  let p : TokType × Reader := if dot.1 then (.float, readDigits dot.2) else (.int, dot.2)
  let ex := readChars p.2 101 69
  if ex.1 then (.float, readDigits (readChars ex.2 43 45).2) else (p.1, ex.2)

/-- The `switch` of token.cpp:336-373 -/
def tokenAt (r : Reader) (c : Byte) : Token × Reader :=
  if c = 123 then (⟨.objectStart, .none⟩, r)
  else if c = 125 then (⟨.objectEnd, .none⟩, r)
  else if c = 91 then (⟨.arrayStart, .none⟩, r)
  else if c = 93 then (⟨.arrayEnd, .none⟩, r)
  else if c = 44 then (⟨.separator, .none⟩, r)
  else if c = 58 then (⟨.keySeparator, .none⟩, r)
  else if c = 110 then (⟨.null, .none⟩, readLiteral [117, 108, 108] r [117, 108, 108])
  else if c = 116 then (⟨.bool, .bool true⟩, readLiteral [114, 117, 101] r [114, 117, 101])
  else if c = 102 then (⟨.bool, .bool false⟩, readLiteral [97, 108, 115, 101] r [97, 108, 115, 101])
  else if c = 34 then (⟨.string, .buffer⟩, readString r)
  else if c = 45 ∨ isDigit c = true then
    (⟨(readNumber r c).1, .buffer⟩, (readNumber r c).2)
  else (⟨.eos, .none⟩, r.error (.unexpectedChar c))

/-- `details::nextToken`, token.cpp:329-374 -/
def lexToken (r : Reader) : Token × Reader :=
  if r.ok then
    let p := nextChar r
    if p.2.ok then tokenAt p.2 p.1 else (⟨.eos, .none⟩, p.2)
  else (⟨.eos, .none⟩, r)

/-- Undefined behaviour becomes a fault as soon as a token has been read. -/
def Reader.checked (p : Token × Reader) : Res (Token × Reader) :=
  if p.2.ub then .error .ub else .ok p

/-- `Reader::peekToken`, reader.cpp:15-23 -/
def Reader.peekToken (r : Reader) : Res (Token × Reader) :=
  if r.tok.type = .noToken then do
    let p ← Reader.checked (lexToken r)
    return (p.1, { p.2 with tok := p.1 })
  else .ok (r.tok, r)

/-- `Reader::nextToken`, reader.cpp:25-35 -/
def Reader.nextToken (r : Reader) : Res (Token × Reader) :=
  if r.tok.type = .noToken then Reader.checked (lexToken r)
  else .ok (r.tok, { r with tok := ⟨.noToken, .none⟩ })

/-- the text of a token, `*value_` -/
def Token.text (t : Token) (r : Reader) : Option Bytes := match t.val with
  | .none => none
  | .bool b => some (if b then ascii "true" else ascii "false")
  | .buffer => some r.buf

/-- What formatting the message does (reader.tcc:24): nothing if it fits, otherwise it is undefined
(error.cpp:19-28). If there was an error before it is not formatted (reader.tcc:20). -/
def Reader.format (r : Reader) (m : Msg) : Res Unit := match r.err with
  | some _ => .ok ()
  | none => match verrorFormat m.text with
    | .ok _ => .ok ()
    | .error e => .error e

/-- `Reader::assertToken`, reader.cpp:45-53, where the message can be formatted -/
def Reader.assertToken (r : Reader) (t : Token) (exp : TokType) : Bool × Reader :=
  if t.type = exp then (true, r) else (false, r.error (.unexpectedToken t.type (t.text r) exp))

/-- `Reader::assertToken`: the formatting of its message -/
def Reader.mayAssert (r : Reader) (t : Token) (exp : TokType) : Res Unit :=
  if t.type = exp then .ok () else r.format (.unexpectedToken t.type (t.text r) exp)

/-- `Reader::expectToken`, reader.cpp:37-43 -/
def Reader.expectToken (r : Reader) (exp : TokType) : Res (Token × Reader) := do
  let p ← r.nextToken
  let _ ← p.2.mayAssert p.1 exp
  let a := p.2.assertToken p.1 exp
  return (if a.1 then p.1 else ⟨.eos, .none⟩, a.2)

/-! ### Token conversions -/

/-- what raising an error for a token that has another type than `name` does: the message is that of the code's
`reflectError("invalid conversion of token %s to <name>", print())` -/
def Token.invalid (t : Token) (r : Reader) (name : String) : Fault :=
  match verrorFormat (ascii "invalid conversion of token " ++ cstr (printToken t.type (t.text r)) ++ ascii " to <" ++ ascii name ++ ascii ">") with
  | .ok _ => .err
  | .error e => e

/-- `Token::asBool`, token.cpp:28-36 -/
def Token.asBool (t : Token) (r : Reader) : Res Bool :=
  if t.type = .bool then .ok (t.val = .bool true) else .error (t.invalid r "bool")

/-- `std::stol` on the text of an `Int` token (`-` or a digit, then digits): no digits is
`std::invalid_argument`, out of the range of `long` is `std::out_of_range`. -/
def stol (s : Bytes) : Res Int :=
  let neg := s.head? = some 45
  let ds := if neg then s.tail else s
  if ds = [] then .error .std
  else
    let m : Nat := ds.foldl (fun a d => a * 10 + (d.toNat - 48)) 0
    let v : Int := if neg then -(m : Int) else (m : Int)
    if -(2 ^ 63 : Int) ≤ v ∧ v < (2 ^ 63 : Int) then .ok v else .error .std

/-- `Token::asInt`, token.cpp:38-46: the text is read out of the reader's buffer. -/
def Token.asInt (t : Token) (r : Reader) : Res Int :=
  if t.type = .int then stol r.buf else .error (t.invalid r "int")

/-- `Token::asFloat`, token.cpp:48-56, up to the call of `std::stod`: the text handed to it. -/
def Token.asFloatText (t : Token) (r : Reader) : Res Bytes :=
  if t.type = .float then .ok r.buf else .error (t.invalid r "float")

/-- `Token::asString`, token.cpp:58-66: a reference to the reader's buffer. -/
def Token.asString (t : Token) (r : Reader) : Res Bytes :=
  if t.type = .string then .ok r.buf else .error (t.invalid r "string")

end Reflect.Json

import re,os
B='/tmp/wk/lean/Verif/'
def rd(f): return open(B+f).read()
def wr(f,s): open(B+f,'w').write(s)
def sub(s,a,b,n=1):
    assert s.count(a)==n,(a,s.count(a)); return s.replace(a,b)
# Bytes
wr('Model/Json/Bytes.lean','''import Verif.Model.Basic
/-
  Bytes, and numbers as `printf` writes them.
-/
namespace Reflect.Json

/-- a C++ `char` -/
abbrev Byte := UInt8
abbrev Bytes := List UInt8

/-- the bytes of a literal of the source text; for ASCII -/
def ascii (s : String) : Bytes := s.toList.map fun c => UInt8.ofNat c.toNat

/-- decimal digits of a number, as `%ld` writes them -/
def decDigits (n : Nat) : Bytes :=
  if n < 10 then [UInt8.ofNat (48 + n)] else decDigits (n / 10) ++ [UInt8.ofNat (48 + n % 10)]

/-- the digit `%x` writes for a value below sixteen -/
def hexDigit (n : Nat) : Byte := if n < 10 then UInt8.ofNat (48 + n) else UInt8.ofNat (87 + n)

/-- digits as `%x` writes them -/
def hexDigits (n : Nat) : Bytes :=
  if n < 16 then [hexDigit n] else hexDigits (n / 16) ++ [hexDigit (n % 16)]

end Reflect.Json
''')
s=rd('Model/ErrorFormat.lean')
s=sub(s,'import Verif.Model.Json.Writer','import Verif.Model.Json.Bytes')
wr('Model/ErrorFormat.lean',s)
s=rd('Model/Json/Writer.lean')
s=sub(s,'''/-- decimal digits of a number, as `%ld` writes them -/
def decDigits (n : Nat) : Bytes :=
  if n < 10 then [UInt8.ofNat (48 + n)] else decDigits (n / 10) ++ [UInt8.ofNat (48 + n % 10)]

''','')
s=sub(s,'''/-- the digit `%x` writes for a value below sixteen -/
def hexDigit (n : Nat) : Byte := if n < 10 then UInt8.ofNat (48 + n) else UInt8.ofNat (87 + n)

/-- digits as `%x` writes them -/
def hexDigits (n : Nat) : Bytes :=
  if n < 16 then [hexDigit n] else hexDigits (n / 16) ++ [hexDigit (n % 16)]

''','')
wr('Model/Json/Writer.lean',s)
s=rd('Model/Json/Reader.lean')
s=sub(s,'import Verif.Model.Basic','import Verif.Model.ErrorFormat')
s=sub(s,'''/-- a C++ `char` -/
abbrev Byte := UInt8
abbrev Bytes := List UInt8

''','')
s=sub(s,'''  * Error texts are kept as an enumeration of the code's `reader.error(...)` sites together with the
    line and column the code prefixes; the formatting itself is the subject of `Verif.Model.ErrorFormat`.
''','''  * Errors are kept as an enumeration of the code's `reader.error(...)` sites with what is formatted there,
    and the line and column the code prefixes; `Msg.text` is what is formatted, by `verrorFormat` of
    `Verif.Model.ErrorFormat`, which is undefined if it is too long. All but two sites have messages that
    are short whatever the input is (`Msg.short`, Props/JsonMessage.lean), so only these two check it.
''')
i=s.index('/-- The error sites of the reader'); j=s.index('/-- `json::Error` with the `line:pos:`')
s=s[:i]+'''/-- The error sites of the reader, the tokenizer and the parsers (the `fmt` argument of `error`), with
what is formatted there. -/
inductive Msg where
  | comments                     -- token.cpp:125
  | literal (l : Bytes)          -- token.cpp:144
  | nonHex (c : Byte)            -- token.cpp:160, 211
  | hexDigits                    -- token.cpp:163, 214
  | utf8Header (c : Byte)        -- token.cpp:222
  | utf8Encoding                 -- token.cpp:229, 239
  | newlineInString              -- token.cpp:250
  | unknownEscape (c : Byte)     -- token.cpp:273
  | endOfString                  -- token.cpp:281
  | unexpectedChar (c : Byte)    -- token.cpp:371
  /-- reader.cpp:51; `text` is the text of the token, if it has one -/
  | unexpectedToken (got : TokType) (text : Option Bytes) (want : TokType)
  | unknownToken (got : TokType) (text : Option Bytes)   -- parser.cpp:322
  deriving DecidableEq, Repr

/-- `print(Token::Type)`, token.cpp:68-93 -/
def TokType.print : TokType → Bytes
  | .noToken => ascii "notok"
  | .objectStart => ascii "{"
  | .objectEnd => ascii "}"
  | .arrayStart => ascii "["
  | .arrayEnd => ascii "]"
  | .separator => ascii ","
  | .keySeparator => ascii ":"
  | .string => ascii "string"
  | .int => ascii "int"
  | .float => ascii "float"
  | .bool => ascii "bool"
  | .null => ascii "null"
  | .eos => ascii "eos"

/-- `Token::print`, token.cpp:95-105, of a token of this type and text -/
def printToken (t : TokType) (text : Option Bytes) : Bytes :=
  ascii "<Token " ++ t.print ++ (match text with | some s => ascii ": " ++ s | none => []) ++ ascii ">"

/-- a string as `%s` writes it, given its `c_str()` (error.h:70-73): up to the first zero byte -/
def cstr (s : Bytes) : Bytes := s.takeWhile (· ≠ 0)

/-- `%x` of a `char`, which is signed and widened to an `int` -/
def hexChar (c : Byte) : Bytes :=
  Json.hexDigits (if c.toNat < 128 then c.toNat else 2 ^ 32 - 256 + c.toNat)

/-- the text that is formatted at an error site -/
def Msg.text : Msg → Bytes
  | .comments => ascii "comments are not allowed"
  | .literal l => ascii "expected literal <" ++ cstr l ++ ascii ">"
  | .nonHex c => ascii "non-hex digit in unicode code point <" ++ [c] ++ ascii ">"
  | .hexDigits => ascii "\\\\u requires 4 hex digits"
  | .utf8Header c => ascii "invalid UTF-8 header: " ++ hexChar c
  | .utf8Encoding => ascii "invalid UTF-8 encoding"
  | .newlineInString => ascii "invalid \\\\n character in a string"
  | .unknownEscape c => ascii "unknown escaped character <" ++ [c] ++ ascii ">"
  | .endOfString => ascii "unexpected end of string"
  | .unexpectedChar c => ascii "unexpected character <" ++ [c] ++ ascii ">"
  | .unexpectedToken got text want =>
      ascii "unexpected token <" ++ cstr (printToken got text) ++ ascii ">, expecting <" ++ want.print ++ ascii ">"
  | .unknownToken got text => ascii "unknown expected token <" ++ cstr (printToken got text) ++ ascii ">"

'''+s[j:]
# literal
i=s.index('/-- `readLiteral`, token.cpp'); j=s.index('/-- The value of a hexadecimal digit as')
s=s[:i]+'''/-- `readLiteral`, token.cpp:138-145: `while (reader && *l && (c = reader.pop()) == *l) l++;` then an
error if the literal `lit` was not used up; the last argument is what is left of it. -/
def readLiteral (lit : Bytes) (r : Reader) : Bytes → Reader
  | [] => r
  | l :: ls =>
    if r.ok then
      if r.pop.1 = l then readLiteral lit r.pop.2 ls else r.pop.2.error (.literal lit)
    else r.error (.literal lit)

'''+s[j:]
s=re.sub(r'readLiteral r (\[[0-9, ]+\])\)',r'readLiteral \1 r \1)',s)
s=sub(s,'hexLoop (r.pop.2.error .nonHex)','hexLoop (r.pop.2.error (.nonHex r.pop.1))')
s=sub(s,'rawHexLoop (r.pop.2.error .nonHex)','rawHexLoop (r.pop.2.error (.nonHex r.pop.1))')
s=sub(s,'{ (r.save c).error .utf8Header with','{ (r.save c).error (.utf8Header c) with')
s=sub(s,'(bytes > 4 || bytes < 2) .utf8Header','(bytes > 4 || bytes < 2) (.utf8Header c)')
s=sub(s,'r1.pop.2.error .unknownEscape','r1.pop.2.error (.unknownEscape r1.pop.1)')
s=sub(s,'r.error .unexpectedChar)','r.error (.unexpectedChar c))')
i=s.index('/-- `Reader::assertToken`'); j=s.index('/-! ### Token conversions -/')
s=s[:i]+'''/-- the text of a token, `*value_` -/
def Token.text (t : Token) (r : Reader) : Option Bytes := match t.val with
  | .none => none
  | .bool b => some (if b then ascii "true" else ascii "false")
  | .buffer => some r.buf

/-- What formatting the message does (reader.tcc:24): nothing if it fits, otherwise it is undefined
(error.cpp:19-28). If there was an error before it is not formatted (reader.tcc:20). -/
def Reader.format (r : Reader) (m : Msg) : Res Unit := match r.err with
  | some _ => .ok ()
  | none => match verrorFormat m.text with
    | .ok _ => .ok ()
    | .error e => .error e

/-- `Reader::assertToken`, reader.cpp:45-53, where the message can be formatted -/
def Reader.assertToken (r : Reader) (t : Token) (exp : TokType) : Bool × Reader :=
  if t.type = exp then (true, r) else (false, r.error (.unexpectedToken t.type (t.text r) exp))

/-- `Reader::assertToken`: the formatting of its message -/
def Reader.mayAssert (r : Reader) (t : Token) (exp : TokType) : Res Unit :=
  if t.type = exp then .ok () else r.format (.unexpectedToken t.type (t.text r) exp)

/-- `Reader::expectToken`, reader.cpp:37-43 -/
def Reader.expectToken (r : Reader) (exp : TokType) : Res (Token × Reader) := do
  let p ← r.nextToken
  let _ ← p.2.mayAssert p.1 exp
  let a := p.2.assertToken p.1 exp
  return (if a.1 then p.1 else ⟨.eos, .none⟩, a.2)

'''+s[j:]
i=s.index('/-- `Token::asBool`'); j=s.index('/-- `std::stol` on the text')
s=s[:i]+'''/-- what raising an error for a token that has another type than `name` does: the message is that of the code's
`reflectError("invalid conversion of token %s to <name>", print())` -/
def Token.invalid (t : Token) (r : Reader) (name : String) : Fault :=
  match verrorFormat (ascii "invalid conversion of token " ++ cstr (printToken t.type (t.text r)) ++ ascii " to <" ++ ascii name ++ ascii ">") with
  | .ok _ => .err
  | .error e => e

/-- `Token::asBool`, token.cpp:28-36 -/
def Token.asBool (t : Token) (r : Reader) : Res Bool :=
  if t.type = .bool then .ok (t.val = .bool true) else .error (t.invalid r "bool")

'''+s[j:]
s=sub(s,'if t.type = .int then stol r.buf else .error .err','if t.type = .int then stol r.buf else .error (t.invalid r "int")')
s=sub(s,'if t.type = .float then .ok r.buf else .error .err','if t.type = .float then .ok r.buf else .error (t.invalid r "float")')
s=sub(s,'if t.type = .string then .ok r.buf else .error .err','if t.type = .string then .ok r.buf else .error (t.invalid r "string")')
wr('Model/Json/Reader.lean',s)
s=rd('Model/Json/Parser.lean')
s=sub(s,'''      else objLoop fn n c.1 (e.2.assertToken e.1 .separator).2''','''      else do
        let _ ← e.2.mayAssert e.1 .separator
        objLoop fn n c.1 (e.2.assertToken e.1 .separator).2''')
s=sub(s,'''      else arrLoop fn n (i + 1) c.1 (e.2.assertToken e.1 .separator).2''','''      else do
        let _ ← e.2.mayAssert e.1 .separator
        arrLoop fn n (i + 1) c.1 (e.2.assertToken e.1 .separator).2''')
for k in ('object','array'):
    s=sub(s,f'''  else
    let q ← (p.2.assertToken p.1 .{k}Start).2.peekToken''',f'''  else do
    let _ ← p.2.mayAssert p.1 .{k}Start
    let q ← (p.2.assertToken p.1 .{k}Start).2.peekToken''')
s=sub(s,'  .ok (← p.1.asBool, p.2)','  .ok (← p.1.asBool p.2, p.2)')
s=sub(s,'''  let r' := if p.1.type = .int then p.2 else (p.2.assertToken p.1 .float).2
''','''  let _ ← if p.1.type = .int then .ok () else p.2.mayAssert p.1 .float
  let r' := if p.1.type = .int then p.2 else (p.2.assertToken p.1 .float).2
''')
wr('Model/Json/Parser.lean',s)

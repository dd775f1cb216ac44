import Verif.Spec.JsonTree
/-
  What the JSON reader is meant to say about a text it cannot read: for each way of going wrong the message, and what
  of the text is left when it shows.
-/
namespace Reflect.Json

/-- `Departs l y z`: the text `y` does not start with `l`; this shows when `z` is left of it. -/
def Departs (l y z : Bytes) : Prop :=
  (∃ p q d, l = p ++ q ∧ q ≠ [] ∧ q.head? ≠ some d ∧ y = p ++ d :: z) ∨ (∃ q, l = y ++ q ∧ q ≠ [] ∧ z = [])

/-- `Header c k`: the byte `c` announces a sequence of `k` bytes. -/
def Header (c : Byte) (k : Nat) : Prop :=
  (k = 2 ∧ 0xC0 ≤ c.toNat ∧ c.toNat < 0xE0) ∨ (k = 3 ∧ 0xE0 ≤ c.toNat ∧ c.toNat < 0xF0) ∨
    (k = 4 ∧ 0xF0 ≤ c.toNat ∧ c.toNat < 0xF8)

/-- a continuation byte -/
def Continues (c : Byte) : Prop := 0x80 ≤ c.toNat ∧ c.toNat < 0xC0

/-- `BadString o y m z`: a string cannot go on with `y`; the message is `m`, with `z` left. The byte named at the end of
the text is 255. -/
inductive BadString (o : ROpts) : Bytes → Bytes → Bytes → Prop where
  | newline (z : Bytes) : BadString o (10 :: z) (ascii "invalid \\n character in a string") z
  | cut : o.validateUnicode = false → BadString o [] (ascii "unexpected end of string") []
  | escape (c : Byte) (z : Bytes) : (∀ e, (c, e) ∉ escapes) → c ≠ 117 →
      BadString o (92 :: c :: z) (ascii "unknown escaped character <" ++ [c] ++ ascii ">") z
  | escapeCut : BadString o [92] (ascii "unknown escaped character <" ++ [255] ++ ascii ">") []
  | hex (h : Bytes) (c : Byte) (z : Bytes) : (∀ x ∈ h, ∃ i, IsHex x i) → h.length < 4 → (∀ i, ¬ IsHex c i) →
      BadString o (92 :: 117 :: (h ++ c :: z)) (ascii "non-hex digit in unicode code point <" ++ [c] ++ ascii ">") z
  | hexCut (h : Bytes) : (∀ x ∈ h, ∃ i, IsHex x i) → h.length < 4 →
      BadString o (92 :: 117 :: h) (ascii "non-hex digit in unicode code point <" ++ [255] ++ ascii ">") []
  /-- the byte is written as a negative number: `ffffff80` for 0x80 -/
  | header (c : Byte) (z : Bytes) : o.validateUnicode = true →
      (0x80 ≤ c.toNat ∧ c.toNat < 0xC0) ∨ (0xF8 ≤ c.toNat ∧ c.toNat < 0xFF) →
      BadString o (c :: z) (ascii "invalid UTF-8 header: ffffff" ++ [hexDigit (c.toNat / 16), hexDigit (c.toNat % 16)]) z
  | sequence (c : Byte) (k : Nat) (tl : Bytes) (d : Byte) (z : Bytes) : o.validateUnicode = true → Header c k →
      (∀ x ∈ tl, Continues x) → tl.length + 1 < k → ¬ Continues d →
      BadString o (c :: (tl ++ d :: z)) (ascii "invalid UTF-8 encoding") z
  | sequenceCut (c : Byte) (k : Nat) (tl : Bytes) : o.validateUnicode = true → Header c k →
      (∀ x ∈ tl, Continues x) → tl.length + 1 < k → BadString o (c :: tl) (ascii "invalid UTF-8 encoding") []
  /-- a longer sequence than needed -/
  | overlong (c : Byte) (k : Nat) (tl z : Bytes) : o.validateUnicode = true → Header c k →
      (∀ x ∈ tl, Continues x) → tl.length + 1 = k → (∀ n, 0x80 ≤ n → n < 0x200000 → utf8 n ≠ c :: tl) →
      BadString o (c :: (tl ++ z)) (ascii "invalid UTF-8 encoding") z

/-- The bytes a token can start with: `{}[],:` the letters `n`, `t`, `f`, a quote, a minus sign and the digits. -/
def starters : Bytes := ascii "{}[],:ntf\"-0123456789"

/-- `Trouble o x m z`: where a token should start is `x`, which does not start with one; the message is `m`, with `z`
left. -/
inductive Trouble (o : ROpts) : Bytes → Bytes → Bytes → Prop where
  | char (c : Byte) (z : Bytes) : c ∉ wsBytes → c ∉ starters → (c = 47 → z.head? ≠ some 47) →
      Trouble o (c :: z) (ascii "unexpected character <" ++ [c] ++ ascii ">") z
  | comment (z : Bytes) : o.allowComments = false → Trouble o (47 :: 47 :: z) (ascii "comments are not allowed") (47 :: z)
  | null (y z : Bytes) : Departs (ascii "ull") y z → Trouble o (110 :: y) (ascii "expected literal <ull>") z
  | true (y z : Bytes) : Departs (ascii "rue") y z → Trouble o (116 :: y) (ascii "expected literal <rue>") z
  | false (y z : Bytes) : Departs (ascii "alse") y z → Trouble o (102 :: y) (ascii "expected literal <alse>") z
  | string (t v y m z : Bytes) : StrBody o t v → BadString o y m z → Trouble o (34 :: (t ++ y)) m z

/-- a token as it is named in a message -/
def named (t : Tok) : Bytes :=
  ascii "<Token " ++ kind t.1.type ++ (match t.1.val, t.2 with
    | .bool true, _ => ascii ": true" | .bool false, _ => ascii ": false" | _, some s => ascii ": " ++ s | _, none => [])
  ++ ascii ">"
where
  kind : TokType → Bytes
  | .noToken => ascii "notok" | .objectStart => ascii "{" | .objectEnd => ascii "}" | .arrayStart => ascii "["
  | .arrayEnd => ascii "]" | .separator => ascii "," | .keySeparator => ascii ":" | .string => ascii "string"
  | .int => ascii "int" | .float => ascii "float" | .bool => ascii "bool" | .null => ascii "null" | .eos => ascii "eos"

/-- a message with the place it is about: `line:column: message` -/
def placed (line col : Nat) (m : Bytes) : Bytes := decDigits line ++ [58] ++ decDigits col ++ [58, 32] ++ m

end Reflect.Json
